import Verif.Model.Cmd
import Verif.Props.PackageFile
/-
C101: the command `apl`.  C102: the test runner.
-/
namespace Iv
variable {D H : Type}

/-! ### Lines -/

theorem splitNewline_ne (t : List Char) : splitNewline t ≠ [] := by
  cases t with
  | nil => simp [splitNewline]
  | cons c cs =>
    unfold splitNewline
    split
    · simp
    · split <;> simp

theorem splitNewline_line (l rest : List Char) (h : '\n' ∉ l) : splitNewline (l ++ '\n' :: rest) = l :: splitNewline rest := by
  induction l with
  | nil =>
    rw [List.nil_append, splitNewline]
    cases hs : splitNewline rest with
    | nil => exact absurd hs (splitNewline_ne rest)
    | cons a b => simp
  | cons c l ih =>
    have hc : c ≠ '\n' := fun e => h (by simp [e])
    rw [List.cons_append, splitNewline, ih (fun hm => h (by simp [hm]))]
    simp [hc]

theorem splitNewline_last (l : List Char) (h : '\n' ∉ l) : splitNewline l = [l] := by
  induction l with
  | nil => rfl
  | cons c l ih =>
    have hc : c ≠ '\n' := fun e => h (by simp [e])
    rw [splitNewline, ih (fun hm => h (by simp [hm]))]
    simp [hc]

theorem splitNewline_lines (ls : List (List Char)) (last : List Char) (h : ∀ l ∈ ls, '\n' ∉ l) (hl : '\n' ∉ last) :
    splitNewline (ls.flatMap (fun l => l ++ ['\n']) ++ last) = ls ++ [last] := by
  induction ls with
  | nil => simpa using splitNewline_last last hl
  | cons l ls ih =>
    have := splitNewline_line l (ls.flatMap (fun l => l ++ ['\n']) ++ last) (h l (by simp))
    rw [ih (fun x hx => h x (by simp [hx]))] at this
    simpa using this

/-- a line that the scanner delivers as it is -/
def GoodLine (l : List Char) : Prop := '\n' ∉ l ∧ l.getLast? ≠ some '\r' ∧ utf8Bytes l < 65536

theorem takeWhile_good (ls : List (List Char)) (h : ∀ l ∈ ls, GoodLine l) (rest : List (List Char)) :
    (ls ++ rest).takeWhile (fun l => utf8Bytes l < 65536) = ls ++ rest.takeWhile (fun l => utf8Bytes l < 65536) := by
  induction ls with
  | nil => rfl
  | cons l ls ih =>
    rw [List.cons_append, List.takeWhile_cons, if_pos (by simpa using (h l (by simp)).2.2), ih (fun x hx => h x (by simp [hx])), List.cons_append]

theorem dropCR_good (ls : List (List Char)) (h : ∀ l ∈ ls, GoodLine l) : ls.map dropCR = ls := by
  induction ls with
  | nil => rfl
  | cons l ls ih =>
    rw [List.map_cons, ih (fun x hx => h x (by simp [hx])), dropCR, if_neg (h l (by simp)).2.1]

/-- C101: the lines of the input are the texts in front of the newlines. -/
theorem C101_lines (ls : List (List Char)) (h : ∀ l ∈ ls, GoodLine l) : scannerLines (ls.flatMap (fun l => l ++ ['\n'])) = ls := by
  have e := splitNewline_lines ls [] (fun l hl => (h l hl).1) (by simp)
  rw [List.append_nil] at e
  unfold scannerLines rawLines
  simp only [e, List.getLast?_append, List.getLast?_singleton, Option.some_or, if_true, List.dropLast_concat]
  have := takeWhile_good ls h []
  rw [List.append_nil] at this
  rw [this, List.takeWhile_nil, List.append_nil, dropCR_good ls h]

/-- C101: the last line does not need a newline, if it is not empty. -/
theorem C101_last_line (ls : List (List Char)) (last : List Char) (h : ∀ l ∈ ls, GoodLine l) (hl : GoodLine last) (hne : last ≠ []) :
    scannerLines (ls.flatMap (fun l => l ++ ['\n']) ++ last) = ls ++ [last] := by
  have e := splitNewline_lines ls last (fun l hl => (h l hl).1) hl.1
  have hg : ∀ l ∈ ls ++ [last], GoodLine l := by
    intro l hm
    rcases List.mem_append.1 hm with hm | hm
    · exact h l hm
    · simp at hm; subst hm; exact hl
  unfold scannerLines rawLines
  have hn : ¬ (some last = some ([] : List Char)) := by simpa using hne
  simp only [e, List.getLast?_append, List.getLast?_singleton, Option.some_or, if_neg hn]
  have := takeWhile_good (ls ++ [last]) hg []
  rw [List.append_nil] at this
  rw [this, List.takeWhile_nil, List.append_nil, dropCR_good _ hg]

/-- C101: a carriage return in front of the newline is not part of the line. -/
theorem C101_carriage_return (l rest : List Char) (h : '\n' ∉ l) (hb : utf8Bytes l + 1 < 65536) :
    scannerLines (l ++ '\r' :: '\n' :: rest) = l :: scannerLines rest := by
  have e := splitNewline_line (l ++ ['\r']) rest (by simp [h])
  rw [List.append_assoc, List.singleton_append] at e
  have hbb : utf8Bytes (l ++ ['\r']) < 65536 := by
    have : utf8Bytes (l ++ ['\r']) = utf8Bytes l + 1 := by simp [utf8Bytes]; rfl
    omega
  have hd : dropCR (l ++ ['\r']) = l := by simp [dropCR]
  unfold scannerLines rawLines
  simp only [e]
  have hgl : ((l ++ ['\r']) :: splitNewline rest).getLast? = (splitNewline rest).getLast? := by
    cases hs : splitNewline rest with
    | nil => exact absurd hs (splitNewline_ne rest)
    | cons a b => rw [List.getLast?_cons_cons]
  have hdl : ((l ++ ['\r']) :: splitNewline rest).dropLast = (l ++ ['\r']) :: (splitNewline rest).dropLast := by
    cases hs : splitNewline rest with
    | nil => exact absurd hs (splitNewline_ne rest)
    | cons a b => rfl
  rw [hgl, hdl]
  by_cases hc : (splitNewline rest).getLast? = some []
  · rw [if_pos hc, if_pos hc, List.takeWhile_cons, if_pos (by simpa using hbb), List.map_cons, hd]
  · rw [if_neg hc, if_neg hc, List.takeWhile_cons, if_pos (by simpa using hbb), List.map_cons, hd]

/-- C101: the input ends in front of the first line with 65536 bytes or more: this line and all others behind it are dropped. -/
theorem C101_long_line (ls : List (List Char)) (long rest : List Char) (h : ∀ l ∈ ls, GoodLine l) (hn : '\n' ∉ long) (hb : 65536 ≤ utf8Bytes long) :
    scannerLines (ls.flatMap (fun l => l ++ ['\n']) ++ (long ++ '\n' :: rest)) = ls := by
  have e : splitNewline (ls.flatMap (fun l => l ++ ['\n']) ++ (long ++ '\n' :: rest)) = ls ++ long :: splitNewline rest := by
    induction ls with
    | nil => simpa using splitNewline_line long rest hn
    | cons l ls ih =>
      have := splitNewline_line l (ls.flatMap (fun l => l ++ ['\n']) ++ (long ++ '\n' :: rest)) (h l (by simp)).1
      rw [ih (fun x hx => h x (by simp [hx]))] at this
      simpa using this
  have key : ∀ r : List (List Char), ((ls ++ long :: r).takeWhile (fun l => utf8Bytes l < 65536)).map dropCR = ls := by
    intro r
    rw [takeWhile_good ls h, List.takeWhile_cons, if_neg (by simpa using hb), List.append_nil, dropCR_good ls h]
  unfold scannerLines rawLines
  simp only [e]
  split
  · cases hs : splitNewline rest with
    | nil => exact absurd hs (splitNewline_ne rest)
    | cons a b =>
      have : (ls ++ long :: a :: b).dropLast = ls ++ long :: (a :: b).dropLast := by
        rw [List.dropLast_append_of_ne_nil (by simp)]; rfl
      rw [this]; exact key _
  · exact key _

/-! ### Sessions -/

/-- The lines of a session: each one is evaluated with the interpreter that the last one left, whether it was an error or not. -/
inductive ReplRun (w : World D H) (n : Nat) : Machine D H → List (List Char) → Machine D H → List (List Msg) → Prop
  | nil (i) : ReplRun w n i [] i []
  | good (i l j ls k ms) : parsePanics w l = false → evalLine w n l i = some (.ok (), j) → ReplRun w n j ls k ms →
      ReplRun w n i (l :: ls) k ([] :: ms)
  | bad (i l e j ls k ms) : parsePanics w l = false → evalLine w n l i = some (.error e, j) → ReplRun w n j ls k ms →
      ReplRun w n i (l :: ls) k ([.err e] :: ms)

/-- the terminal: a prompt in front of each line and at the end, the message of an error behind its line -/
def terminal (ms : List (List Msg)) : List Msg := .prompt :: ms.flatMap (fun m => m ++ [.prompt])

theorem replLoop_ok (w : World D H) (n : Nat) (ls : List (List Char)) (i k : Machine D H) (out : List Msg) :
    replLoop w n ls i = some (.ok, k, out) ↔ ∃ ms, ReplRun w n i ls k ms ∧ out = ms.flatMap (fun m => m ++ [.prompt]) := by
  induction ls generalizing i out with
  | nil =>
    constructor
    · intro h; simp only [replLoop, Option.some.injEq, Prod.mk.injEq, true_and] at h; obtain ⟨rfl, rfl⟩ := h; exact ⟨[], .nil _, rfl⟩
    · rintro ⟨ms, h, rfl⟩; cases h; rfl
  | cons l ls ih =>
    rw [replLoop]
    cases hp : parsePanics w l with
    | true =>
      constructor
      · intro h; simp at h
      · rintro ⟨ms, h, _⟩
        cases h with
        | good _ _ _ _ _ _ h1 => rw [h1] at hp; cases hp
        | bad _ _ _ _ _ _ _ h1 => rw [h1] at hp; cases hp
    | false =>
      simp only [Bool.false_eq_true, if_false]
      cases he : evalLine w n l i with
      | none =>
        constructor
        · intro h; cases h
        · rintro ⟨ms, h, _⟩
          cases h with
          | good _ _ _ _ _ _ _ h1 => rw [h1] at he; cases he
          | bad _ _ _ _ _ _ _ _ h1 => rw [h1] at he; cases he
      | some x =>
        obtain ⟨r, j⟩ := x
        simp only
        constructor
        · intro h
          cases hr : replLoop w n ls j with
          | none => rw [hr] at h; cases h
          | some y =>
            obtain ⟨c, k', out'⟩ := y
            rw [hr] at h
            simp only [Option.some.injEq, Prod.mk.injEq] at h
            obtain ⟨rfl, rfl, rfl⟩ := h
            obtain ⟨ms, h1, h2⟩ := (ih j out').1 hr
            cases r with
            | ok u => exact ⟨[] :: ms, .good _ _ _ _ _ _ hp he h1, by simp [lineMsg, h2]⟩
            | error e => exact ⟨[.err e] :: ms, .bad _ _ _ _ _ _ _ hp he h1, by simp [lineMsg, h2]⟩
        · rintro ⟨ms, h, rfl⟩
          cases h with
          | good _ _ j' _ _ ms' _ h1 h2 =>
            rw [h1] at he; cases he
            rw [(ih j _).2 ⟨ms', h2, rfl⟩]
            simp [lineMsg]
          | bad _ _ e j' _ _ ms' _ h1 h2 =>
            rw [h1] at he; cases he
            rw [(ih j _).2 ⟨ms', h2, rfl⟩]
            simp [lineMsg]

/-- C101: a session ends normally exactly if all of its lines were evaluated one after the other, also those behind an error. -/
theorem C101_session (w : World D H) (n : Nat) (stdin : List Char) (files : String → Option (List Char)) (i k : Machine D H) (out : List Msg) :
    aplCmd w n stdin files [] i = some (.ok, k, out) ↔ ∃ ms, ReplRun w n i (scannerLines stdin) k ms ∧ out = terminal ms := by
  unfold aplCmd terminal
  simp only
  constructor
  · intro h
    cases hr : replLoop w n (scannerLines stdin) i with
    | none => rw [hr] at h; cases h
    | some x =>
      obtain ⟨c, k', ms⟩ := x
      rw [hr] at h
      simp only [Option.some.injEq, Prod.mk.injEq] at h
      obtain ⟨rfl, rfl, rfl⟩ := h
      obtain ⟨ms', h1, h2⟩ := (replLoop_ok w n _ i _ ms).1 hr
      exact ⟨ms', h1, by rw [h2]⟩
  · rintro ⟨ms, h, rfl⟩
    rw [(replLoop_ok w n _ i k _).2 ⟨ms, h, rfl⟩]

/-- C101: a session never ends with an error. -/
theorem C101_no_failure (w : World D H) (n : Nat) (stdin : List Char) (files : String → Option (List Char)) (i k : Machine D H) (out : List Msg) :
    aplCmd w n stdin files [] i ≠ some (.failed, k, out) := by
  have key : ∀ ls i k out, replLoop w n ls i ≠ some (.failed, k, out) := by
    intro ls
    induction ls with
    | nil => intro i k out h; simp [replLoop] at h
    | cons l ls ih =>
      intro i k out h
      rw [replLoop] at h
      split at h
      · simp at h
      · split at h
        · cases h
        · split at h
          · cases h
          · rename_i hr
            simp only [Option.some.injEq, Prod.mk.injEq] at h
            obtain ⟨rfl, _, _⟩ := h
            exact ih _ _ _ hr
  unfold aplCmd
  simp only
  intro h
  split at h
  · cases h
  · rename_i hr
    simp only [Option.some.injEq, Prod.mk.injEq] at h
    obtain ⟨rfl, _, _⟩ := h
    exact key _ _ _ _ hr

/-- C101: a line that is rejected by the scanner or the parser changes nothing; the session goes on with the next line. -/
theorem C101_rejected_line (w : World D H) (n : Nat) (l : List Char) (ls : List (List Char)) (i : Machine D H)
    (h : scanLine w.ctx l = .error .err ∨ ∃ ts, scanLine w.ctx l = .ok ts ∧ parseProgram w.pctx ts = .error .err) :
    replLoop w n (l :: ls) i = (replLoop w n ls i).map (fun x => (x.1, x.2.1, .err .err :: .prompt :: x.2.2)) := by
  have hp : parsePanics w l = false := by
    unfold parsePanics
    rcases h with h | ⟨ts, h, h'⟩
    · rw [h]; rfl
    · simp only [h, h']; rfl
  have he : evalLine w n l i = some (.error .err, i) := by
    unfold evalLine
    rcases h with h | ⟨ts, h, h'⟩
    · rw [h]
    · simp only [h, h']
  rw [replLoop, hp, he]
  simp only [Bool.false_eq_true, if_false, lineMsg]
  cases replLoop w n ls i <;> rfl

/-- C101: a line that makes the parser panic ends the session at once; the lines behind it are not evaluated. -/
theorem C101_crash (w : World D H) (n : Nat) (ls : List (List Char)) (l : List Char) (rest : List (List Char)) (i k : Machine D H) (ms : List (List Msg))
    (h : ReplRun w n i ls k ms) (hl : parsePanics w l = true) :
    replLoop w n (ls ++ l :: rest) i = some (.crash, k, ms.flatMap (fun m => m ++ [.prompt])) := by
  induction h with
  | nil i => rw [List.nil_append, replLoop, if_pos hl]; rfl
  | good i l' j ls k ms h1 h2 _ ih =>
    rw [List.cons_append, replLoop, h1, h2]
    simp only [Bool.false_eq_true, if_false, ih, lineMsg]
    simp
  | bad i l' e j ls k ms h1 h2 _ ih =>
    rw [List.cons_append, replLoop, h1, h2]
    simp only [Bool.false_eq_true, if_false, ih, lineMsg]
    simp

/-! ### Files -/

/-- C101: of several files only the first one is evaluated. -/
theorem C101_first_file (w : World D H) (n : Nat) (stdin : List Char) (files : String → Option (List Char)) (f : String) (rest : List String) (i : Machine D H) :
    aplCmd w n stdin files (f :: rest) i = aplCmd w n stdin files [f] i := rfl

/-- C101: the command with a file ends normally exactly if the evaluation of its lines (C78) succeeds, and fails exactly if the file cannot be opened
or its evaluation fails; nothing but the values is written. -/
theorem C101_file (w : World D H) (n : Nat) (stdin : List Char) (files : String → Option (List Char)) (f : String) (rest : List String) (i k : Machine D H)
    (c : CmdEnd) (out : List Msg) :
    aplCmd w n stdin files (f :: rest) i = some (c, k, out) ↔ out = [] ∧
      ((c = .failed ∧ f ≠ "-" ∧ files f = none ∧ k = i) ∨
        ∃ text, (if f = "-" then some stdin else files f) = some text ∧
          ((c = .ok ∧ evalFile w n (scannerLines text) .reset true i = some (.ok (), k)) ∨
            (c = .failed ∧ ∃ e, evalFile w n (scannerLines text) .reset true i = some (.error e, k)))) := by
  have key : ∀ x : Option (Except Fail Unit × Machine D H), fileEnd x = some (c, k, out) ↔ out = [] ∧
      ((c = .ok ∧ x = some (.ok (), k)) ∨ (c = .failed ∧ ∃ e, x = some (.error e, k))) := by
    intro x
    match x with
    | none => simp [fileEnd]
    | some (.ok u, j) =>
      simp only [fileEnd, Option.some.injEq, Prod.mk.injEq]
      constructor
      · rintro ⟨rfl, rfl, rfl⟩; exact ⟨rfl, .inl ⟨rfl, (by simp), rfl⟩⟩
      · rintro ⟨rfl, ⟨rfl, _, rfl⟩ | ⟨rfl, e, h, _⟩⟩
        · exact ⟨rfl, rfl, rfl⟩
        · cases h
    | some (.error e, j) =>
      simp only [fileEnd, Option.some.injEq, Prod.mk.injEq]
      constructor
      · rintro ⟨rfl, rfl, rfl⟩; exact ⟨rfl, .inr ⟨rfl, e, rfl, rfl⟩⟩
      · rintro ⟨rfl, ⟨rfl, h, _⟩ | ⟨rfl, e, _, rfl⟩⟩
        · cases h
        · exact ⟨rfl, rfl, rfl⟩
  unfold aplCmd
  simp only
  by_cases hf : f = "-"
  · rw [if_pos hf, key]
    simp [hf]
  · rw [if_neg hf]
    cases ht : files f with
    | none =>
      simp only [hf, if_false, Option.some.injEq, Prod.mk.injEq]
      constructor
      · rintro ⟨rfl, rfl, rfl⟩; exact ⟨rfl, .inl ⟨rfl, (by simp [hf]), trivial, rfl⟩⟩
      · rintro ⟨rfl, ⟨rfl, _, _, rfl⟩ | ⟨t, h, _⟩⟩
        · exact ⟨rfl, rfl, rfl⟩
        · cases h
    | some text =>
      simp only
      rw [key]
      simp [hf]

/-- C101: a file with a line of 65536 bytes or more is evaluated up to this line, without an error. -/
theorem C101_truncated_file (w : World D H) (n : Nat) (stdin : List Char) (files : String → Option (List Char)) (f g : String) (i : Machine D H)
    (hf : f ≠ "-") (hg : g ≠ "-") (ls : List (List Char)) (h : ∀ l ∈ ls, GoodLine l) (long rest : List Char) (hn : '\n' ∉ long)
    (hb : 65536 ≤ utf8Bytes long) (h1 : files f = some (ls.flatMap (fun l => l ++ ['\n'])))
    (h2 : files g = some (ls.flatMap (fun l => l ++ ['\n']) ++ (long ++ '\n' :: rest))) :
    aplCmd w n stdin files [g] i = aplCmd w n stdin files [f] i := by
  unfold aplCmd
  simp only [if_neg hf, if_neg hg, h1, h2, C101_lines ls h, C101_long_line ls long rest h hn hb]

/-! ### Examples -/

namespace CmdDemo
open PkgDemo

def shown (x : Option (CmdEnd × Machine Int Unit × List Msg)) : Option (CmdEnd × List Int × List Msg) :=
  x.map (fun x => (x.1, x.2.1.st.out.map (fun v => match v with | .data d => d | _ => 77), x.2.2))

-- a session with an error in its second line
example : shown (aplCmd world 30 "X←2\n€\n-X\n".toList (fun _ => none) [] start) = some (.ok, [-2], [.prompt, .prompt, .err .err, .prompt, .prompt]) := by
  decide +kernel

/-- `-A[1][2]` ends the interpreter: the values of the session are lost. -/
theorem C101_crash_example :
    shown (aplCmd world 30 "X←2\n-A[1][2]\n-X\n".toList (fun _ => none) [] start) = some (.crash, [], [.prompt, .prompt]) := by
  decide +kernel

/-- `apl a.apl b.apl` does not evaluate the second file. -/
theorem C101_second_file_ignored :
    shown (aplCmd world 30 [] (fun f => if f = "a.apl" then some "-1\n".toList else if f = "b.apl" then some "-2\n".toList else none) ["a.apl", "b.apl"] start) =
      some (.ok, [-1], []) := by
  decide +kernel

theorem utf8Bytes_replicate (n : Nat) : utf8Bytes (List.replicate n 'A') = n := by
  induction n with
  | zero => rfl
  | succ n ih =>
    have : utf8Bytes (List.replicate (n + 1) 'A') = 1 + utf8Bytes (List.replicate n 'A') := rfl
    rw [this, ih, Nat.add_comm]

/-- a text of 65536 bytes -/
example : 65536 ≤ utf8Bytes (List.replicate 65536 'A') ∧ '\n' ∉ List.replicate 65536 'A' := by
  refine ⟨?_, ?_⟩
  · exact Nat.le_of_eq (utf8Bytes_replicate 65536).symm
  · intro h
    have := List.eq_of_mem_replicate h
    simp at this

example : GoodLine "X←2".toList := by
  refine ⟨by decide, by decide, ?_⟩
  decide +kernel

end CmdDemo

/-! ### The test runner -/

theorem compareLoop_spec (want got : List Nat) (i line : Nat) (at_ : Option Nat) :
    (∃ j, j < want.length ∧ j < got.length ∧ want.take j = got.take j ∧ want[j]? ≠ got[j]? ∧
      compareLoop want got i line at_ = (line + (want.take (j + 1)).count 10, some (i + j))) ∨
    (want.take (min want.length got.length) = got.take (min want.length got.length) ∧
      compareLoop want got i line at_ = (line + (want.take (min want.length got.length)).count 10, at_)) := by
  induction want generalizing got i line with
  | nil => right; simp [compareLoop]
  | cons w ws ih =>
    cases got with
    | nil => right; simp [compareLoop]
    | cons g gs =>
      rw [compareLoop]
      by_cases hg : g ≠ w
      · left
        rw [if_pos hg]
        refine ⟨0, by simp, by simp, rfl, by simpa using Ne.symm hg, ?_⟩
        by_cases hw : w = 10 <;> simp [hw]
      · rw [if_neg hg]
        have hgw : g = w := by simpa using hg
        subst hgw
        rcases ih gs (i + 1) (if g = 10 then line + 1 else line) with ⟨j, h1, h2, h3, h4, h5⟩ | ⟨h1, h2⟩
        · left
          refine ⟨j + 1, by simp; omega, by simp; omega, by simp [h3], by simpa using h4, ?_⟩
          rw [h5, List.take_succ_cons, List.count_cons]
          by_cases hw : g = 10
          · simp [hw]; omega
          · simp [hw]; omega
        · right
          refine ⟨by simpa [Nat.succ_min_succ] using h1, ?_⟩
          rw [h2]
          simp only [List.length_cons, Nat.succ_min_succ, List.take_succ_cons, List.count_cons]
          by_cases hw : g = 10
          · simp [hw]; omega
          · simp [hw]

/-- C102: the output is accepted exactly if it is, byte by byte, the content of the file. -/
theorem C102_accepts (got : List Nat) (want : Option (List Nat)) : compareOut got want = none ↔ want = some got := by
  cases want with
  | none => simp [compareOut]
  | some want =>
    unfold compareOut
    simp only [Option.some.injEq]
    rcases compareLoop_spec want got 0 1 (if want.length ≠ got.length then some (min want.length got.length) else none) with
      ⟨j, h1, h2, h3, h4, h5⟩ | ⟨h1, h2⟩
    · rw [h5]
      simp only [reduceCtorEq, false_iff]
      intro e; subst e; exact h4 rfl
    · rw [h2]
      by_cases hl : want.length = got.length
      · simp only [hl, ne_eq, not_true_eq_false, if_false, true_iff]
        rw [hl, Nat.min_self, List.take_of_length_le (by omega), List.take_of_length_le (by omega)] at h1
        exact h1
      · simp only [ne_eq, hl, not_false_eq_true, if_true, reduceCtorEq, false_iff]
        intro e; exact hl (by rw [e])

/-- C102: the report names the first byte (counted from 1) that differs, or the one behind the shorter text.  The line is that of this byte, counted in
the expected output; it is one too many if a newline was expected at this place. -/
theorem C102_report (got want : List Nat) (line byte : Nat) (h : compareOut got (some want) = some (.differs line byte)) :
    1 ≤ byte ∧ want.take (byte - 1) = got.take (byte - 1) ∧ want[byte - 1]? ≠ got[byte - 1]? ∧
      line = 1 + (want.take (byte - 1)).count 10 + (if want[byte - 1]? = some 10 ∧ byte ≤ got.length then 1 else 0) := by
  unfold compareOut at h
  simp only at h
  rcases compareLoop_spec want got 0 1 (if want.length ≠ got.length then some (min want.length got.length) else none) with
    ⟨j, h1, h2, h3, h4, h5⟩ | ⟨h1, h2⟩
  · rw [h5] at h
    simp only [Option.some.injEq, OutReport.differs.injEq] at h
    obtain ⟨rfl, rfl⟩ := h
    refine ⟨by omega, by simpa using h3, by simpa using h4, ?_⟩
    simp only [Nat.zero_add, Nat.add_sub_cancel]
    rw [List.take_add_one, List.count_append, List.getElem?_eq_getElem h1]
    have : j + 1 ≤ got.length := h2
    by_cases hw : want[j] = 10
    · simp [hw, this]; omega
    · simp [hw]
  · rw [h2] at h
    by_cases hl : want.length = got.length
    · simp [hl] at h
    · simp only [ne_eq, hl, not_false_eq_true, if_true, Option.some.injEq, OutReport.differs.injEq] at h
      obtain ⟨rfl, rfl⟩ := h
      refine ⟨by omega, by simpa using h1, ?_, ?_⟩
      · simp only [Nat.add_sub_cancel]
        intro e
        rcases Nat.lt_or_ge want.length got.length with hlt | hge
        · rw [Nat.min_eq_left (by omega), List.getElem?_eq_none (by omega), List.getElem?_eq_getElem hlt] at e; cases e
        · rw [Nat.min_eq_right hge, List.getElem?_eq_none (l := got) (by omega), List.getElem?_eq_getElem (by omega)] at e; cases e
      · simp only [Nat.add_sub_cancel]
        rw [if_neg]
        · omega
        · rintro ⟨hw, hle⟩
          rcases Nat.lt_or_ge want.length got.length with hlt | hge
          · rw [Nat.min_eq_left (by omega), List.getElem?_eq_none (by omega)] at hw; cases hw
          · rw [Nat.min_eq_right hge] at hle; omega

/-- C102: a test passes exactly if the program ended without error and its output is the file `.out`, or with the error of the file `.err`; in
this case the output is not compared. -/
theorem C102_test (output : List Nat) (error : Option (List Nat)) (out err : Option (List Nat)) :
    testAplFile (output, error) out err = true ↔
      (error = none ∧ out = some output) ∨ ∃ e, error = some e ∧ err = some (e ++ [10]) := by
  cases error with
  | none =>
    simp only [testAplFile, Option.isNone_iff_eq_none, C102_accepts]
    simp
  | some e =>
    cases err with
    | none => simp [testAplFile, compareError]
    | some w =>
      simp only [testAplFile, compareError, beq_iff_eq, reduceCtorEq, false_and, false_or, Option.some.injEq]
      constructor
      · intro h; exact ⟨e, rfl, h.symm⟩
      · rintro ⟨_, rfl, h⟩; exact h.symm

/-- C102: the tests of a directory pass exactly if each of its programs passes, in whatever order the directory is read. -/
theorem C102_directory (isApl test : String → Bool) (files : List String) :
    aplTest isApl test files = true ↔ ∀ f ∈ files, isApl f = true → test f = true := by
  induction files with
  | nil => simp [aplTest]
  | cons f fs ih =>
    rw [aplTest]
    cases h1 : isApl f with
    | false => simp [ih, h1]
    | true =>
      cases h2 : test f with
      | false => simp [h1, h2]
      | true => simp [ih, h2]

/-- `1\n2\n` is expected: other bytes, a missing newline (reported in the next line), a missing end -/
example : compareOut [49, 10, 51, 10] (some [49, 10, 50, 10]) = some (.differs 2 3) ∧
    compareOut [49, 32, 50, 10] (some [49, 10, 50, 10]) = some (.differs 2 2) ∧
    compareOut [49, 10] (some [49, 10, 50, 10]) = some (.differs 2 3) ∧ compareOut [49, 10, 50, 10] (some [49, 10, 50, 10]) = none := by decide

end Iv
