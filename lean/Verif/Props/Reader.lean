import Verif.Model.Reader
import Verif.Model.Format
/-
C99: text read from a channel.
-/
namespace Iv
variable {B : Type}

/-! ### `ChannelReader` -/

/-- everything a reader will still give -/
def ChanReader.left (nl : B) (r : ChanReader B) : List B := r.buf ++ r.texts.flatMap (nl :: ·)

/-- a reader on its way: the field `first` is false, and a closed channel sends nothing more -/
def ChanReader.Fine (r : ChanReader B) : Prop := r.first = false ∧ (r.closed = true → r.texts = [])

theorem fill_left (nl : B) (r : ChanReader B) (h : r.Fine) : (r.fill nl).Fine ∧ (r.fill nl).left nl = r.left nl ∧
    ((r.fill nl).buf = [] → (r.fill nl).texts = []) := by
  obtain ⟨buf, texts, first, closed⟩ := r
  obtain ⟨h1, h2⟩ := h
  cases texts with
  | nil => exact ⟨⟨h1, fun _ => rfl⟩, rfl, fun _ => rfl⟩
  | cons t ts =>
    simp only at h1
    subst h1
    refine ⟨⟨rfl, fun e => ?_⟩, ?_, fun e => ?_⟩
    · have := h2 e
      cases this
    · simp [ChanReader.left, ChanReader.fill]
    · simp [ChanReader.fill] at e

theorem read_step (nl : B) (r : ChanReader B) (h : r.Fine) (n : Nat) (hn : 0 < n) :
    (r.left nl = [] ∧ (r.read nl n).1 = .eof) ∨
    (∃ b bs, (r.read nl n).1 = .bytes (b :: bs) ∧ (r.read nl n).2.Fine ∧ (b :: bs) ++ (r.read nl n).2.left nl = r.left nl) := by
  have key : ∀ r : ChanReader B, r.Fine → (r.buf = [] → r.texts = []) →
      (r.left nl = [] ∧ (bufRead r.buf n).1 = .eof) ∨
      (∃ b bs, (bufRead r.buf n).1 = .bytes (b :: bs) ∧ ({ r with buf := (bufRead r.buf n).2 } : ChanReader B).Fine ∧
        (b :: bs) ++ ({ r with buf := (bufRead r.buf n).2 } : ChanReader B).left nl = r.left nl) := by
    intro r h e
    cases hb : r.buf with
    | nil =>
      left
      refine ⟨by simp [ChanReader.left, hb, e hb], ?_⟩
      show (if n = 0 then ReadRes.bytes [] else .eof) = .eof
      rw [if_neg (by omega)]
    | cons b bs =>
      right
      obtain ⟨k, rfl⟩ : ∃ k, n = k + 1 := ⟨n - 1, by omega⟩
      refine ⟨b, bs.take k, rfl, h, ?_⟩
      simp only [ChanReader.left, hb, bufRead, List.drop_succ_cons, List.cons_append]
      rw [← List.append_assoc, List.take_append_drop]
  by_cases hc : r.closed = true
  · have e : r.read nl n = ((bufRead r.buf n).1, { r with buf := (bufRead r.buf n).2 }) := by
      simp [ChanReader.read, hc]
    rw [e]
    exact key r h (fun _ => h.2 hc)
  · by_cases hl : r.buf.length < 1024
    · have e : r.read nl n = ((bufRead (r.fill nl).buf n).1, { r.fill nl with buf := (bufRead (r.fill nl).buf n).2 }) := by
        simp [ChanReader.read, hc, hl]
      obtain ⟨f1, f2, f3⟩ := fill_left nl r h
      rw [e, ← f2]
      exact key (r.fill nl) f1 f3
    · have e : r.read nl n = ((bufRead r.buf n).1, { r with buf := (bufRead r.buf n).2 }) := by
        simp [ChanReader.read, hc, hl]
      rw [e]
      exact key r h (fun hb => by rw [hb] at hl; exact absurd (by decide : 0 < 1024) hl)

theorem readAll_left (nl : B) (ns : List Nat) : ∀ r : ChanReader B, r.Fine → (∀ n ∈ ns, 0 < n) →
    (r.readAll nl ns).1 <+: r.left nl ∧ ((r.readAll nl ns).2 = true → (r.readAll nl ns).1 = r.left nl) ∧
    ((r.left nl).length < ns.length → (r.readAll nl ns).2 = true) := by
  induction ns with
  | nil =>
    intro r _ _
    exact ⟨List.nil_prefix, fun e => (by cases e), fun h => (by simp at h)⟩
  | cons n ns ih =>
    intro r h hp
    rcases read_step nl r h n (hp n List.mem_cons_self) with ⟨e1, e2⟩ | ⟨b, bs, e1, e2, e3⟩
    · have : r.readAll nl (n :: ns) = ([], true) := by
        rw [ChanReader.readAll]
        revert e2
        cases hr : r.read nl n with
        | mk a b =>
          intro e2
          simp only at e2
          subst e2
          rfl
      rw [this, e1]
      exact ⟨List.nil_prefix, fun _ => rfl, fun _ => rfl⟩
    · obtain ⟨i1, i2, i3⟩ := ih (r.read nl n).2 e2 (fun k hk => hp k (List.mem_cons_of_mem _ hk))
      have : r.readAll nl (n :: ns) = ((b :: bs) ++ ((r.read nl n).2.readAll nl ns).1, ((r.read nl n).2.readAll nl ns).2) := by
        rw [ChanReader.readAll]
        revert e1
        cases hr : r.read nl n with
        | mk a c =>
          intro e1
          simp only at e1
          subst e1
          rfl
      rw [this, ← e3]
      refine ⟨(List.prefix_append_right_inj _).2 i1, fun e => by rw [i2 e], fun hl => i3 ?_⟩
      simp only [List.length_append, List.length_cons] at hl
      omega

/-- A program that reads the text of a channel, with buffers of whatever sizes, gets the texts of all values in order, with a newline before each of them;
it gets a beginning of that while it is reading, everything when it is told that the input has ended, and that happens after at most as many reads as there are bytes. -/
theorem C99_bytes (nl : B) (texts : List (List B)) (ns : List Nat) (hp : ∀ n ∈ ns, 0 < n) :
    ((ChanReader.new texts).readAll nl ns).1 <+: texts.flatMap (nl :: ·) ∧
    (((ChanReader.new texts).readAll nl ns).2 = true → ((ChanReader.new texts).readAll nl ns).1 = texts.flatMap (nl :: ·)) ∧
    ((texts.flatMap (nl :: ·)).length < ns.length → ((ChanReader.new texts).readAll nl ns).2 = true) := by
  have := readAll_left nl ns (ChanReader.new texts) ⟨rfl, fun e => by cases e⟩ hp
  simpa [ChanReader.left, ChanReader.new] using this

/-- The text begins with a newline (the documentation says that the texts are joined by newlines): it is never the joined text. -/
theorem C99_leading_newline (nl : B) (t : List B) (ts : List (List B)) (ns : List Nat) (hp : ∀ n ∈ ns, 0 < n)
    (he : ((ChanReader.new (t :: ts)).readAll nl ns).2 = true) :
    ((ChanReader.new (t :: ts)).readAll nl ns).1 = nl :: List.intercalate [nl] (t :: ts) := by
  rw [(C99_bytes nl (t :: ts) ns hp).2.1 he]
  have : ∀ (ts : List (List B)) (t : List B), (t :: ts).flatMap (nl :: ·) = nl :: List.intercalate [nl] (t :: ts) := by
    intro ts
    induction ts with
    | nil => intro t; simp
    | cons u us ih =>
      intro t
      rw [List.flatMap_cons, ih u]
      simp
  exact this ts t

example : (ChanReader.new [['a', 'b'], [], ['c']]).readAll '\n' [1, 5, 2, 1, 1, 1, 1] = (['\n', 'a', 'b', '\n', '\n', 'c'], true) := by decide +kernel

/-! ### `RuneScanner` -/

/-- a scanner at the beginning, for a channel of strings -/
def RuneScan.start (vals : List (Option (List Char))) : RuneScan := ⟨[], none, false, vals⟩

theorem readRune_cons (c : Char) (cs : List Char) (l : Option Char) (i : Bool) (vs : List (Option (List Char))) :
    RuneScan.readRune ⟨c :: cs, l, i, vs⟩ = (.rune c, ⟨cs, some c, i, vs⟩) := by
  simp [RuneScan.readRune, RuneScan.next]

/-- the buffer is read first -/
theorem reads_buf (cs : List Char) : ∀ (l : Option Char) (vs : List (Option (List Char))) (n : Nat),
    RuneScan.reads ⟨cs, l, true, vs⟩ (cs.length + n) = cs.map RuneRes.rune ++ RuneScan.reads ⟨[], (cs.getLast?).or l, true, vs⟩ n := by
  induction cs with
  | nil => intro l vs n; simp
  | cons c cs ih =>
    intro l vs n
    rw [show (c :: cs).length + n = (cs.length + n) + 1 by simp; omega, RuneScan.reads, readRune_cons]
    simp only
    rw [ih]
    congr 2
    cases cs with
    | nil => simp
    | cons d ds => simp [List.getLast?_cons]

theorem reads_lines (ts : List (List Char)) : ∀ (l : Option Char) (vs : List (Option (List Char))) (n : Nat), ∃ l',
    RuneScan.reads ⟨[], l, true, ts.map some ++ vs⟩ ((ts.flatMap ('\n' :: ·)).length + n) =
      (ts.flatMap ('\n' :: ·)).map RuneRes.rune ++ RuneScan.reads ⟨[], l', true, vs⟩ n := by
  induction ts with
  | nil => intro l vs n; exact ⟨l, by simp⟩
  | cons t ts ih =>
    intro l vs n
    obtain ⟨l', e⟩ := ih (t.getLast?.or (some '\n')) vs n
    refine ⟨l', ?_⟩
    rw [List.flatMap_cons, show ('\n' :: t ++ ts.flatMap ('\n' :: ·)).length + n = (t.length + ((ts.flatMap ('\n' :: ·)).length + n)) + 1 by
      simp; omega, RuneScan.reads]
    have : RuneScan.readRune ⟨[], l, true, (t :: ts).map some ++ vs⟩ = (.rune '\n', ⟨t, some '\n', true, ts.map some ++ vs⟩) := by
      simp [RuneScan.readRune, RuneScan.next]
    rw [this]
    simp only
    rw [reads_buf, e]
    simp

theorem reads_end (l : Option Char) (n : Nat) : RuneScan.reads ⟨[], l, true, []⟩ n = List.replicate n .eof := by
  induction n with
  | zero => rfl
  | succ n ih =>
    rw [RuneScan.reads]
    have : RuneScan.readRune ⟨[], l, true, []⟩ = (.eof, ⟨[], l, true, []⟩) := by simp [RuneScan.readRune]
    rw [this]
    simp only
    rw [ih]
    rfl

theorem reads_first (t : List Char) (ht : t ≠ []) (vs : List (Option (List Char))) (n : Nat) : ∃ l,
    RuneScan.reads (RuneScan.start (some t :: vs)) (t.length + n) = t.map RuneRes.rune ++ RuneScan.reads ⟨[], l, true, vs⟩ n := by
  obtain ⟨c, cs, rfl⟩ := List.exists_cons_of_ne_nil ht
  refine ⟨cs.getLast?.or (some c), ?_⟩
  rw [show (c :: cs).length + n = (cs.length + n) + 1 by simp; omega, RuneScan.reads]
  have : RuneScan.readRune (RuneScan.start (some (c :: cs) :: vs)) = (.rune c, ⟨cs, some c, true, vs⟩) := by
    simp [RuneScan.readRune, RuneScan.next, RuneScan.start]
  rw [this]
  simp only
  rw [reads_buf]
  simp

theorem intercalate_lines (ts : List (List Char)) : ∀ t, List.intercalate ['\n'] (t :: ts) = t ++ ts.flatMap ('\n' :: ·) := by
  induction ts with
  | nil => intro t; simp
  | cons u us ih => intro t; rw [List.intercalate_cons_cons, ih u]; simp

/-- The runes read from the strings of a channel are those of the strings joined by newlines, if the first one is not empty; then the end is reported, again and again. -/
theorem C99_runes (texts : List (List Char)) (h : texts.head? ≠ some []) (n : Nat) :
    RuneScan.reads (RuneScan.start (texts.map some)) ((List.intercalate ['\n'] texts).length + n) =
      (List.intercalate ['\n'] texts).map RuneRes.rune ++ List.replicate n .eof := by
  cases texts with
  | nil =>
    simp only [List.map_nil, List.intercalate_nil, List.length_nil, Nat.zero_add, List.nil_append]
    induction n with
    | zero => rfl
    | succ n ih =>
      rw [RuneScan.reads]
      have : RuneScan.readRune (RuneScan.start []) = (.eof, RuneScan.start []) := by simp [RuneScan.readRune, RuneScan.start]
      rw [this]
      simp only
      rw [ih]
      rfl
  | cons t ts =>
    have ht : t ≠ [] := fun e => h (by rw [e]; rfl)
    rw [intercalate_lines]
    obtain ⟨l, e⟩ := reads_first t ht (ts.map some) ((ts.flatMap ('\n' :: ·)).length + n)
    obtain ⟨l', e'⟩ := reads_lines ts l [] n
    rw [List.append_nil] at e'
    rw [List.length_append, Nat.add_assoc, List.map_cons, e, e', reads_end, List.map_append, List.append_assoc]

/-- A value that is not a string is an error, after the text of the strings before it. -/
theorem C99_not_string (texts : List (List Char)) (h : texts.head? ≠ some []) (vs : List (Option (List Char))) :
    RuneScan.reads (RuneScan.start (texts.map some ++ none :: vs)) ((List.intercalate ['\n'] texts).length + 1) =
      (List.intercalate ['\n'] texts).map RuneRes.rune ++ [.notString] := by
  cases texts with
  | nil => simp [RuneScan.reads, RuneScan.readRune, RuneScan.start]
  | cons t ts =>
    have ht : t ≠ [] := fun e => h (by rw [e]; rfl)
    rw [intercalate_lines]
    obtain ⟨l, e⟩ := reads_first t ht (ts.map some ++ none :: vs) ((ts.flatMap ('\n' :: ·)).length + 1)
    obtain ⟨l', e'⟩ := reads_lines ts l (none :: vs) 1
    rw [List.length_append, Nat.add_assoc, List.map_cons, List.cons_append, e, e', List.map_append, List.append_assoc]
    simp [RuneScan.reads, RuneScan.readRune]

/-- If the first string is empty, the end is reported at once, whatever strings follow. -/
theorem C99_empty_first (vs : List (Option (List Char))) : (RuneScan.start (some [] :: vs)).readRune.1 = .eof := by
  simp [RuneScan.readRune, RuneScan.start, RuneScan.next]

/-- A rune that has been read can be put back, and is then read again. -/
theorem C99_unread (s s' : RuneScan) (c : Char) (h : s.readRune = (.rune c, s')) :
    ∃ s'', s'.unreadRune = some s'' ∧ s''.readRune = (.rune c, s') := by
  have key : ∀ s : RuneScan, s.next = (.rune c, s') → s'.last = some c := by
    intro s h
    unfold RuneScan.next at h
    split at h
    · cases h
    · simp only [Prod.mk.injEq, RuneRes.rune.injEq] at h
      rw [← h.2, ← h.1]
  have hl : s'.last = some c := by
    unfold RuneScan.readRune at h
    split at h
    · split at h
      · cases h
      · cases h
      · exact key _ h
    · exact key _ h
  obtain ⟨buf, last, i, vals⟩ := s'
  simp only at hl
  subst hl
  exact ⟨⟨c :: buf, none, i, vals⟩, rfl, readRune_cons _ _ _ _ _⟩

/-- The text of the strings of a channel in C73 (`runeText`) is what the scanner reads up to the first report of an end. -/
theorem C99_stream (texts : List (List Char)) :
    RuneScan.reads (RuneScan.start (texts.map some)) ((runeText texts).length + 1) = (runeText texts).map RuneRes.rune ++ [.eof] := by
  cases texts with
  | nil => exact C99_runes [] (by simp) 1
  | cons t ts =>
    by_cases ht : t = []
    · subst ht
      rw [runeText, if_pos rfl]
      simp only [List.map_cons, List.length_nil, Nat.zero_add, List.map_nil, List.nil_append]
      rw [RuneScan.reads, C99_empty_first]
      rfl
    · rw [runeText, if_neg ht, ← intercalate_lines]
      exact C99_runes (t :: ts) (by simpa using ht) 1

example : RuneScan.reads (RuneScan.start [some ['a'], some [], some ['b']]) 6 = [.rune 'a', .rune '\n', .rune '\n', .rune 'b', .eof, .eof] := by decide +kernel

end Iv
