import Verif.SpecScan
import Mathlib.Tactic.IntervalCases
/-
The scanner meets its specification.
-/
namespace Iv

/-! ### Numbers, names and strings with a backtick -/

theorem numChar_iff (c : Char) : numChar c = true ↔ InNumber c := by
  simp [numChar, InNumber, Digit, or_assoc]

theorem isDigit_iff (c : Char) : isDigit c = true ↔ Digit c := by simp [isDigit, Digit]

theorem scanNumber_append (cs : List Char) : (scanNumber cs).1 ++ (scanNumber cs).2 = cs := by
  induction cs with
  | nil => rfl
  | cons c cs ih => simp only [scanNumber]; split <;> simp [ih]

theorem scanNumber_all (cs : List Char) : ∀ c ∈ (scanNumber cs).1, InNumber c := by
  induction cs with
  | nil => simp [scanNumber]
  | cons c cs ih =>
    simp only [scanNumber]
    split
    · rename_i h
      intro d hd
      rcases List.mem_cons.1 hd with rfl | hd
      · exact (numChar_iff _).1 h
      · exact ih d hd
    · simp

theorem scanNumber_stop (cs : List Char) : ∀ c, (scanNumber cs).2.head? = some c → ¬ InNumber c := by
  induction cs with
  | nil => simp [scanNumber]
  | cons c cs ih =>
    simp only [scanNumber]
    split
    · exact ih
    · rename_i h
      intro d hd hn
      cases hd
      exact h ((numChar_iff _).2 hn)

theorem scanNumber_eq (w rest : List Char) (hw : ∀ c ∈ w, InNumber c) (hr : ∀ c, rest.head? = some c → ¬ InNumber c) :
    scanNumber (w ++ rest) = (w, rest) := by
  induction w with
  | nil =>
    cases rest with
    | nil => rfl
    | cons c cs =>
      have : ¬ numChar c = true := fun h => hr c rfl ((numChar_iff _).1 h)
      simp [scanNumber, this]
  | cons c w ih =>
    have h1 : numChar c = true := (numChar_iff _).2 (hw c (by simp))
    have h2 := ih (fun d hd => hw d (by simp [hd]))
    simp [scanNumber, h1, h2]

theorem tickEnd_iff (ctx : ScanCtx) (c : Char) : (ctx.space c || tickEnd c) = true ↔ EndsTick ctx c := by
  simp [tickEnd, EndsTick, or_assoc]

theorem readTick_append (ctx : ScanCtx) (cs : List Char) : (readTick ctx cs).1 ++ (readTick ctx cs).2 = cs := by
  induction cs with
  | nil => rfl
  | cons c cs ih => simp only [readTick]; split <;> simp [ih]

theorem readTick_all (ctx : ScanCtx) (cs : List Char) : ∀ c ∈ (readTick ctx cs).1, ¬ EndsTick ctx c := by
  induction cs with
  | nil => simp [readTick]
  | cons c cs ih =>
    simp only [readTick]
    split
    · simp
    · rename_i h
      intro d hd
      rcases List.mem_cons.1 hd with rfl | hd
      · exact fun hn => h ((tickEnd_iff ctx _).2 hn)
      · exact ih d hd

theorem readTick_stop (ctx : ScanCtx) (cs : List Char) : ∀ c, (readTick ctx cs).2.head? = some c → EndsTick ctx c := by
  induction cs with
  | nil => simp [readTick]
  | cons c cs ih =>
    simp only [readTick]
    split
    · rename_i h
      intro d hd
      cases hd
      exact (tickEnd_iff ctx _).1 h
    · exact ih

theorem readTick_eq (ctx : ScanCtx) (w rest : List Char) (hw : ∀ c ∈ w, ¬ EndsTick ctx c)
    (hr : ∀ c, rest.head? = some c → EndsTick ctx c) : readTick ctx (w ++ rest) = (w, rest) := by
  induction w with
  | nil =>
    cases rest with
    | nil => rfl
    | cons c cs =>
      have h := (tickEnd_iff ctx c).2 (hr c rfl)
      simp only [List.nil_append, readTick, h, if_true]
  | cons c w ih =>
    have h1 : ¬ (ctx.space c || tickEnd c) = true := fun h => hw c (by simp) ((tickEnd_iff ctx _).1 h)
    have h2 := ih (fun d hd => hw d (by simp [hd]))
    simp only [List.cons_append, readTick, h1, h2]
    rfl

/-! ### Single quotes -/

theorem consText_some (c : Char) (r : Option (List Char × List Char)) (w rest : List Char) (h : consText c r = some (w, rest)) :
    ∃ w', w = c :: w' ∧ r = some (w', rest) := by
  cases r with
  | none => simp [consText] at h
  | some p =>
    simp only [consText, Option.map_some, Option.some.injEq, Prod.mk.injEq] at h
    exact ⟨p.1, h.1.symm, by rw [← h.2]⟩

theorem readSingle_ok (cs w rest : List Char) (h : readSingle cs = some (w, rest)) :
    cs = doubled w ++ '\'' :: rest ∧ rest.head? ≠ some '\'' := by
  fun_induction readSingle cs generalizing w with
  | case1 => simp at h
  | case2 => simp at h; obtain ⟨rfl, rfl⟩ := h; simp [doubled]
  | case3 => simp at h
  | case4 cs ih =>
    obtain ⟨w', rfl, h'⟩ := consText_some _ _ _ _ h
    have := ih w' h'
    refine ⟨?_, this.2⟩
    simp only [doubled, if_true, List.cons_append]
    rw [this.1]
  | case5 d cs hd =>
    simp at h
    obtain ⟨rfl, rfl⟩ := h
    simp [doubled, hd]
  | case6 c d cs hc ih =>
    obtain ⟨w', rfl, h'⟩ := consText_some _ _ _ _ h
    have := ih w' h'
    refine ⟨?_, this.2⟩
    simp only [doubled, hc, if_false, List.cons_append]
    rw [this.1]

theorem readSingle_close (rest : List Char) (hr : rest.head? ≠ some '\'') : readSingle ('\'' :: rest) = some ([], rest) := by
  cases rest with
  | nil => rfl
  | cons d ds =>
    have : d ≠ '\'' := fun e => hr (by rw [e]; rfl)
    simp [readSingle, this]

theorem readSingle_eq (w rest : List Char) (hr : rest.head? ≠ some '\'') :
    readSingle (doubled w ++ '\'' :: rest) = some (w, rest) := by
  induction w with
  | nil => exact readSingle_close rest hr
  | cons c w ih =>
    by_cases hc : c = '\''
    · subst hc
      have : doubled ('\'' :: w) = '\'' :: '\'' :: doubled w := by simp [doubled]
      rw [this]
      simp only [List.cons_append, readSingle, if_true, ih]
      rfl
    · have e : doubled (c :: w) = c :: doubled w := by simp [doubled, hc]
      rw [e, List.cons_append]
      obtain ⟨d, ds, hd⟩ : ∃ d ds, doubled w ++ '\'' :: rest = d :: ds := by
        cases h : doubled w ++ '\'' :: rest with
        | nil => simp at h
        | cons d ds => exact ⟨d, ds, rfl⟩
      rw [hd] at ih ⊢
      simp only [readSingle, hc, if_false, ih]
      rfl

/-! ### Double quotes -/

theorem simpleEsc_iff (e x : Char) : simpleEsc e = some x ↔ (e, x) ∈ letterEscapes := by
  simp only [simpleEsc, letterEscapes]
  constructor
  · intro h
    repeat' split at h
    all_goals first | (cases h; subst_vars; decide) | (simp at h)
  · intro h
    simp only [List.mem_cons, Prod.mk.injEq, List.not_mem_nil, or_false] at h
    rcases h with ⟨rfl, rfl⟩ | ⟨rfl, rfl⟩ | ⟨rfl, rfl⟩ | ⟨rfl, rfl⟩ | ⟨rfl, rfl⟩ | ⟨rfl, rfl⟩ | ⟨rfl, rfl⟩ | ⟨rfl, rfl⟩ | ⟨rfl, rfl⟩ <;> decide

theorem hexLen_iff (e : Char) (n : Nat) (hn : n ≠ 0) : hexLen e = n ↔ (e, n) ∈ codeEscapes := by
  simp only [hexLen, codeEscapes, List.mem_cons, Prod.mk.injEq, List.not_mem_nil, or_false]
  constructor
  · intro h
    repeat' split at h
    all_goals simp_all
  · rintro (⟨rfl, rfl⟩ | ⟨rfl, rfl⟩ | ⟨rfl, rfl⟩) <;> decide

theorem char_ofNat_eq {c d : Char} (h : c.toNat = d.toNat) : c = d := Char.toNat_inj.1 h

theorem unhex_iff (c : Char) (v : Nat) : unhex c = some v ↔ HexDigit c v := by
  have conv : ∀ a b : Char, (a ≤ b) ↔ a.toNat ≤ b.toNat := fun a b => Iff.rfl
  constructor
  · intro h
    simp only [unhex, conv] at h
    have e : c = Char.ofNat c.toNat := (Char.ofNat_toNat c).symm
    generalize c.toNat = n at h e
    subst e
    split at h
    · rename_i hr
      have h1 : 48 ≤ n := hr.1
      have h2 : n ≤ 57 := hr.2
      have : v = n - 48 := by simpa using h.symm
      subst this
      interval_cases n <;> (left; rfl)
    · split at h
      · rename_i hr
        have h1 : 97 ≤ n := hr.1
        have h2 : n ≤ 102 := hr.2
        have : v = n - 97 + 10 := by simpa using h.symm
        subst this
        interval_cases n <;> (left; rfl)
      · split at h
        · rename_i hr
          have h1 : 65 ≤ n := hr.1
          have h2 : n ≤ 70 := hr.2
          have : v = n - 65 + 10 := by simpa using h.symm
          subst this
          interval_cases n <;> (right; rfl)
        · simp at h
  · intro h
    have hv : v < 16 := by
      rcases h with h | h
      · exact (List.getElem?_eq_some_iff.1 h).1
      · exact (List.getElem?_eq_some_iff.1 h).1
    rcases h with h | h <;> (interval_cases v <;> (simp at h; subst h; decide))

theorem unoct_iff (c : Char) (v : Nat) : unoct c = some v ↔ OctDigit c v := by
  have conv : ∀ a b : Char, (a ≤ b) ↔ a.toNat ≤ b.toNat := fun a b => Iff.rfl
  constructor
  · intro h
    simp only [unoct, conv] at h
    have e : c = Char.ofNat c.toNat := (Char.ofNat_toNat c).symm
    generalize c.toNat = n at h e
    subst e
    split at h
    · rename_i hr
      have h1 : 48 ≤ n := hr.1
      have h2 : n ≤ 55 := hr.2
      have : v = n - 48 := by simpa using h.symm
      subst this
      interval_cases n <;> rfl
    · simp at h
  · intro h
    have hv : v < 8 := (List.getElem?_eq_some_iff.1 h).1
    simp only [OctDigit] at h
    interval_cases v <;> (simp at h; subst h; decide)

/-- digits from the left -/
theorem unhexAll_num (ds : List Char) (pre : List Char) (v w : Nat) (hp : HexNum pre v) (h : unhexAll v ds = some w) :
    HexNum (pre ++ ds) w := by
  induction ds generalizing pre v with
  | nil => simp [unhexAll] at h; subst h; simpa using hp
  | cons c ds ih =>
    simp only [unhexAll] at h
    split at h
    · rename_i d hd
      have := ih (pre ++ [c]) (v * 16 + d) (.snoc _ _ _ _ hp ((unhex_iff _ _).1 hd)) h
      simpa using this
    · simp at h

theorem unhexAll_append (a b : List Char) (u : Nat) : unhexAll u (a ++ b) = (unhexAll u a).bind (fun v => unhexAll v b) := by
  induction a generalizing u with
  | nil => rfl
  | cons c a ih =>
    simp only [List.cons_append, unhexAll]
    split
    · exact ih _
    · rfl

theorem unhexAll_iff (ds : List Char) (v : Nat) : unhexAll 0 ds = some v ↔ HexNum ds v := by
  constructor
  · intro h
    simpa using unhexAll_num ds [] 0 v .nil h
  · intro h
    induction h with
    | nil => rfl
    | snoc ds c v d _ hd ih =>
      rw [unhexAll_append, ih]
      simp [unhexAll, (unhex_iff _ _).2 hd]

theorem codeChar_iff (v : Nat) (x : Char) : codeChar v = some x ↔ v.isValidChar ∧ x = Char.ofNat v := by
  simp only [codeChar]
  split
  · rename_i h; simp [h, eq_comm]
  · rename_i h; simp [h]

theorem byteCode_iff (v : Nat) (x : Char) : byteCode v = some x ↔ v ≤ 255 ∧ x = Char.ofNat v := by
  simp only [byteCode]
  split
  · rename_i h; simp; omega
  · rename_i h
    rw [codeChar_iff]
    refine and_congr_left (fun _ => ⟨fun _ => by omega, fun h => ?_⟩)
    left
    omega

theorem letterEscapes_oct {a : Char} {i : Nat} (h : OctDigit a i) : simpleEsc a = none ∧ hexLen a = 0 ∧ a ≠ '"' ∧ a ≠ '\\' := by
  have hv : i < 8 := (List.getElem?_eq_some_iff.1 h).1
  simp only [OctDigit] at h
  interval_cases i <;> (simp at h; subst h; decide)

theorem codeEscapes_letter {e : Char} {n : Nat} (h : (e, n) ∈ codeEscapes) : simpleEsc e = none ∧ n ≠ 0 := by
  simp only [codeEscapes, List.mem_cons, Prod.mk.injEq, List.not_mem_nil, or_false] at h
  rcases h with ⟨rfl, rfl⟩ | ⟨rfl, rfl⟩ | ⟨rfl, rfl⟩ <;> decide

theorem escape_ok (e : Char) (es : List Char) (x : Char) (rest : List Char) (h : escape e es = some (x, rest)) :
    ∃ t, e :: es = t ++ rest ∧ Escape t x ∧ rest.length ≤ es.length := by
  simp only [escape] at h
  split at h
  · rename_i y hy
    simp at h
    obtain ⟨rfl, rfl⟩ := h
    exact ⟨[e], rfl, .letter _ _ ((simpleEsc_iff _ _).1 hy), Nat.le_refl _⟩
  · split at h
    · rename_i hl
      split at h
      · simp at h
      · rename_i hlen
        simp only [Option.map_eq_some_iff, Option.bind_eq_some_iff, Prod.mk.injEq] at h
        obtain ⟨y, ⟨v, hv, hc⟩, rfl, rfl⟩ := h
        obtain ⟨hval, rfl⟩ := (codeChar_iff _ _).1 hc
        refine ⟨e :: es.take (hexLen e), by simp, .code e _ v ?_ ((unhexAll_iff _ _).1 hv) hval, by simp⟩
        rw [List.length_take, Nat.min_eq_left (by omega)]
        exact (hexLen_iff e _ hl).1 rfl
    · split at h
      · simp at h
      · rename_i hlen
        simp only [Option.map_eq_some_iff, Option.bind_eq_some_iff, Prod.mk.injEq] at h
        obtain ⟨y, ⟨v, hv, hc⟩, rfl, rfl⟩ := h
        obtain ⟨hle, rfl⟩ := (byteCode_iff _ _).1 hc
        match es, hlen with
        | b :: c :: es, _ =>
          simp only [List.take_succ_cons, List.take_zero, unoctAll] at hv
          split at hv
          · rename_i i hi
            split at hv
            · rename_i j hj
              split at hv
              · rename_i k hk
                simp at hv
                subst hv
                exact ⟨[e, b, c], rfl, .octal e b c i j k ((unoct_iff _ _).1 hi) ((unoct_iff _ _).1 hj) ((unoct_iff _ _).1 hk) hle, by simp; omega⟩
              · simp at hv
            · simp at hv
          · simp at hv
        | [], h => simp at h
        | [_], h => simp at h

theorem escape_eq (t : List Char) (x : Char) (h : Escape t x) (rest : List Char) :
    ∃ e es, t = e :: es ∧ escape e (es ++ rest) = some (x, rest) := by
  cases h with
  | letter e x h =>
    refine ⟨e, [], rfl, ?_⟩
    simp [escape, (simpleEsc_iff _ _).2 h]
  | code e ds v hl hn hv =>
    refine ⟨e, ds, rfl, ?_⟩
    have hs := codeEscapes_letter hl
    have hh := (hexLen_iff e _ hs.2).2 hl
    simp only [escape, hs.1, hh, hs.2, List.length_append, List.take_left, List.drop_left, (unhexAll_iff _ _).2 hn, Option.bind_some,
      (codeChar_iff _ _).2 ⟨hv, rfl⟩, Option.map_some]
    simp [hs.2]
  | octal a b c i j k ha hb hc hle =>
    refine ⟨a, [b, c], rfl, ?_⟩
    have hs := letterEscapes_oct ha
    have e3 : unoctAll 0 [a, b, c] = some ((i * 8 + j) * 8 + k) := by
      simp [unoctAll, (unoct_iff _ _).2 ha, (unoct_iff _ _).2 hb, (unoct_iff _ _).2 hc]
    simp [escape, hs.1, hs.2.1, e3, (byteCode_iff _ _).2 ⟨hle, rfl⟩]

theorem unquote_ok (n : Nat) (src w : List Char) (h : unquote n src = some w) : Spells src w := by
  induction n generalizing src w with
  | zero =>
    cases src with
    | nil => simp [unquote] at h; subst h; exact .nil
    | cons => simp [unquote] at h
  | succ n ih =>
    cases src with
    | nil => simp [unquote] at h; subst h; exact .nil
    | cons c cs =>
      rw [unquote.eq_def] at h
      simp only at h
      split at h
      · simp at h
      · rename_i h1
        split at h
        · rename_i h2
          simp only [Option.map_eq_some_iff] at h
          obtain ⟨w', hw, rfl⟩ := h
          exact .plain _ _ _ (fun e => h1 (.inl e)) h2 (fun e => h1 (.inr e)) (ih _ _ hw)
        · rename_i h2
          have : c = '\\' := by simpa using h2
          subst this
          split at h
          · simp at h
          · rename_i e es
            split at h
            · simp at h
            · rename_i x rest hx
              simp only [Option.map_eq_some_iff] at h
              obtain ⟨w', hw, rfl⟩ := h
              obtain ⟨t, ht, he, _⟩ := escape_ok _ _ _ _ hx
              rw [ht]
              exact .escape t x rest w' he (ih _ _ hw)

theorem unquote_eq (src w : List Char) (h : Spells src w) (n : Nat) (hn : src.length ≤ n) : unquote n src = some w := by
  induction h generalizing n with
  | nil => cases n <;> rfl
  | plain c s w h1 h2 h3 _ ih =>
    cases n with
    | zero => simp at hn
    | succ n =>
      rw [unquote.eq_def]
      simp [h1, h2, h3, ih n (by simpa using hn)]
  | escape t x s w ht _ ih =>
    obtain ⟨e, es, rfl, he⟩ := escape_eq t x ht s
    cases n with
    | zero => simp at hn
    | succ n =>
      have : unquote n s = some w := ih n (by simp at hn; omega)
      rw [List.cons_append, List.cons_append, unquote]
      simp [he, this]

/-- the characters of an escape after the first one are neither quotes nor backslashes -/
theorem hexNum_plain (ds : List Char) (v : Nat) (h : HexNum ds v) : ∀ c ∈ ds, c ≠ '"' ∧ c ≠ '\\' := by
  induction h with
  | nil => simp
  | snoc ds c v d _ hd ih =>
    intro x hx
    rcases List.mem_append.1 hx with hx | hx
    · exact ih x hx
    · have : x = c := by simpa using hx
      subst this
      have hv : d < 16 := by
        rcases hd with h | h
        · exact (List.getElem?_eq_some_iff.1 h).1
        · exact (List.getElem?_eq_some_iff.1 h).1
      rcases hd with h | h <;> (interval_cases d <;> (simp at h; subst h; decide))

theorem escape_plain (t : List Char) (x : Char) (h : Escape t x) : ∃ e es, t = e :: es ∧ ∀ c ∈ es, c ≠ '"' ∧ c ≠ '\\' := by
  cases h with
  | letter e x h => exact ⟨e, [], rfl, by simp⟩
  | code e ds v hl hn hv => exact ⟨e, ds, rfl, hexNum_plain ds v hn⟩
  | octal a b c i j k ha hb hc hle =>
    refine ⟨a, [b, c], rfl, ?_⟩
    intro x hx
    rcases List.mem_cons.1 hx with rfl | hx
    · exact ⟨(letterEscapes_oct hb).2.2.1, (letterEscapes_oct hb).2.2.2⟩
    · have : x = c := by simpa using hx
      subst this
      exact ⟨(letterEscapes_oct hc).2.2.1, (letterEscapes_oct hc).2.2.2⟩

theorem readDouble_plain (es s : List Char) (h : ∀ c ∈ es, c ≠ '"' ∧ c ≠ '\\') (src rest : List Char)
    (hs : readDouble false s = some (src, rest)) : readDouble false (es ++ s) = some (es ++ src, rest) := by
  induction es with
  | nil => exact hs
  | cons c es ih =>
    have hc := h c (by simp)
    have := ih (fun d hd => h d (by simp [hd]))
    simp [readDouble, hc.1, hc.2, this, consText]

theorem readDouble_eq (src w rest : List Char) (h : Spells src w) : readDouble false (src ++ '"' :: rest) = some (src, rest) := by
  induction h with
  | nil => simp [readDouble]
  | plain c s w h1 h2 _ _ ih => simp [readDouble, h1, h2, ih, consText]
  | escape t x s w ht _ ih =>
    obtain ⟨e, es, rfl, he⟩ := escape_plain t x ht
    have := readDouble_plain es _ he _ _ ih
    rw [List.cons_append, List.cons_append, List.cons_append, readDouble]
    simp only [List.cons_append, List.append_assoc, readDouble]
    by_cases h2 : e = '\\'
    · subst h2
      simp [this, consText]
    · simp [h2, this, consText]

theorem readDouble_split (q : Bool) (cs src rest : List Char) (h : readDouble q cs = some (src, rest)) : cs = src ++ '"' :: rest := by
  induction cs generalizing q src with
  | nil => simp [readDouble] at h
  | cons c cs ih =>
    simp only [readDouble] at h
    split at h
    · obtain ⟨w', rfl, h'⟩ := consText_some _ _ _ _ h
      rw [ih _ _ h']; rfl
    · split at h
      · obtain ⟨w', rfl, h'⟩ := consText_some _ _ _ _ h
        rw [ih _ _ h']; rfl
      · split at h
        · rename_i hq
          simp at h
          obtain ⟨rfl, rfl⟩ := h
          rw [hq.2]; rfl
        · obtain ⟨w', rfl, h'⟩ := consText_some _ _ _ _ h
          rw [ih _ _ h']; rfl

/-! ### Literals -/

theorem scanString_ok (ctx : ScanCtx) (q : Char) (hq : q = '"' ∨ q = '\'' ∨ q = '`') (cs : List Char) (t : Token) (rest : List Char)
    (h : scanString ctx q cs = .ok (t, rest)) : ∃ text, q :: cs = text ++ rest ∧ Literal ctx text t rest := by
  simp only [scanString] at h
  split at h
  · rename_i e
    subst e
    simp only [Except.ok.injEq, Prod.mk.injEq] at h
    obtain ⟨rfl, rfl⟩ := h
    exact ⟨'`' :: (readTick ctx cs).1, by simp [readTick_append], .tick _ _ (readTick_all ctx cs) (readTick_stop ctx cs)⟩
  · split at h
    · rename_i e
      subst e
      split at h
      · rename_i w r hr
        simp only [Except.ok.injEq, Prod.mk.injEq] at h
        obtain ⟨rfl, rfl⟩ := h
        obtain ⟨rfl, hh⟩ := readSingle_ok _ _ _ hr
        exact ⟨_, by simp, .chars w r hh⟩
      · simp at h
    · rename_i h1 h2
      have : q = '"' := by rcases hq with h | h | h <;> first | exact h | contradiction
      subst this
      split at h
      · simp at h
      · rename_i src r hr
        split at h
        · rename_i w hw
          simp only [Except.ok.injEq, Prod.mk.injEq] at h
          obtain ⟨rfl, rfl⟩ := h
          have e := readDouble_split _ _ _ _ hr
          subst e
          exact ⟨_, by simp, .quoted src w r (unquote_ok _ _ _ hw)⟩
        · simp at h

theorem scanString_eq (ctx : ScanCtx) (text : List Char) (t : Token) (rest : List Char) (h : Literal ctx text t rest) :
    ∃ q cs, text ++ rest = q :: cs ∧ (q = '"' ∨ q = '\'' ∨ q = '`') ∧ scanString ctx q cs = .ok (t, rest) := by
  cases h with
  | chars w _ hr =>
    refine ⟨'\'', doubled w ++ '\'' :: rest, by simp, by simp, ?_⟩
    simp [scanString, readSingle_eq w rest hr]
  | quoted src w _ hs =>
    refine ⟨'"', src ++ '"' :: rest, by simp, by simp, ?_⟩
    simp [scanString, readDouble_eq src w rest hs, unquote_eq src w hs _ (Nat.le_refl _)]
  | tick w _ hw hr =>
    refine ⟨'`', w ++ rest, by simp, by simp, ?_⟩
    simp [scanString, readTick_eq ctx w rest hw hr]

/-! ### Names -/

theorem varFirst_iff (ctx : ScanCtx) (c : Char) : varChar ctx true c = true ↔ FirstInName ctx c := by
  simp [varChar, FirstInName, or_assoc]

theorem varNext_iff (ctx : ScanCtx) (c : Char) : varChar ctx false c = true ↔ InName ctx c := by
  simp [varChar, InName, or_assoc]

theorem scanIdent_append (ctx : ScanCtx) (first arrow : Bool) (cs : List Char) :
    (scanIdent ctx first arrow cs).1 ++ (scanIdent ctx first arrow cs).2 = cs := by
  induction cs generalizing first arrow with
  | nil => rfl
  | cons c cs ih =>
    simp only [scanIdent]
    split
    · simp [ih]
    · split <;> simp [ih]

/-- the characters of a name after its first one, and after an arrow -/
theorem scanIdent_arrow (ctx : ScanCtx) (cs : List Char) : (∀ d ∈ (scanIdent ctx false true cs).1, InName ctx d) ∧
    (∀ d, (scanIdent ctx false true cs).2.head? = some d → ¬ InName ctx d) := by
  induction cs with
  | nil => simp [scanIdent]
  | cons c cs ih =>
    simp only [scanIdent]
    split
    · rename_i h
      refine ⟨fun d hd => ?_, ih.2⟩
      rcases List.mem_cons.1 hd with rfl | hd
      · exact (varNext_iff ctx _).1 h
      · exact ih.1 d hd
    · rename_i h
      simp only [Bool.true_eq_false, and_false, if_false]
      refine ⟨by simp, fun d hd hn => ?_⟩
      cases hd
      exact h ((varNext_iff ctx _).2 hn)

theorem scanIdent_next (ctx : ScanCtx) (cs : List Char) :
    ((∀ d ∈ (scanIdent ctx false false cs).1, InName ctx d) ∧
      (∀ d, (scanIdent ctx false false cs).2.head? = some d → ¬ InName ctx d ∧ d ≠ '→')) ∨
    (∃ w v, (scanIdent ctx false false cs).1 = w ++ '→' :: v ∧ (∀ d ∈ w, InName ctx d) ∧ ¬ InName ctx '→' ∧ (∀ d ∈ v, InName ctx d) ∧
      (∀ d, (scanIdent ctx false false cs).2.head? = some d → ¬ InName ctx d)) := by
  induction cs with
  | nil => left; simp [scanIdent]
  | cons c cs ih =>
    simp only [scanIdent]
    split
    · rename_i h
      have hc := (varNext_iff ctx _).1 h
      rcases ih with ih | ⟨w, v, h1, h2, h3, h4, h5⟩
      · left
        refine ⟨fun d hd => ?_, ih.2⟩
        rcases List.mem_cons.1 hd with rfl | hd
        · exact hc
        · exact ih.1 d hd
      · right
        refine ⟨c :: w, v, by simp [h1], fun d hd => ?_, h3, h4, h5⟩
        rcases List.mem_cons.1 hd with rfl | hd
        · exact hc
        · exact h2 d hd
    · rename_i h
      have hc : ¬ InName ctx c := fun hn => h ((varNext_iff ctx _).2 hn)
      split
      · rename_i ha
        right
        have := scanIdent_arrow ctx cs
        refine ⟨[], (scanIdent ctx false true cs).1, by simp [ha.1], by simp, ha.1 ▸ hc, this.1, this.2⟩
      · rename_i ha
        left
        refine ⟨by simp, fun d hd => ?_⟩
        cases hd
        exact ⟨hc, fun e => ha ⟨e, trivial⟩⟩

theorem scanIdent_stop (ctx : ScanCtx) (arrow : Bool) (rest : List Char)
    (hr : ∀ d, rest.head? = some d → ¬ InName ctx d ∧ (arrow = true ∨ d ≠ '→')) : scanIdent ctx false arrow rest = ([], rest) := by
  cases rest with
  | nil => rfl
  | cons d ds =>
    have h := hr d rfl
    have h1 : ¬ varChar ctx false d = true := fun e => h.1 ((varNext_iff ctx _).1 e)
    have h2 : ¬ (d = '→' ∧ arrow = false) := by
      rintro ⟨e1, e2⟩
      rcases h.2 with h | h
      · rw [e2] at h; simp at h
      · exact h e1
    simp [scanIdent, h1, h2]

theorem scanIdent_run (ctx : ScanCtx) (arrow : Bool) (w s : List Char) (hw : ∀ d ∈ w, InName ctx d) :
    scanIdent ctx false arrow (w ++ s) = (w ++ (scanIdent ctx false arrow s).1, (scanIdent ctx false arrow s).2) := by
  induction w with
  | nil => rfl
  | cons c w ih =>
    have hc : varChar ctx false c = true := (varNext_iff ctx _).2 (hw c (by simp))
    have := ih (fun d hd => hw d (by simp [hd]))
    simp [scanIdent, hc, this]

/-! ### Tokens -/

theorem startsNumber_iff (c : Char) (cs : List Char) : startsNumber c cs = true ↔ BeginsNumber (c :: cs) := by
  cases cs with
  | nil => simp [startsNumber, BeginsNumber, isDigit_iff]
  | cons d ds => simp [startsNumber, BeginsNumber, isDigit_iff, or_assoc]

theorem not_begins (c : Char) (cs : List Char) (h1 : isDigit c = false) (h2 : c ≠ '¯') (h3 : c ≠ '.') : ¬ startsNumber c cs = true := by
  simp [startsNumber, h1, h2, h3]

theorem punct_iff (c : Char) (t : Token) : punct c = some t ↔ ∃ y, (c, y) ∈ punctuation ∧ t = ⟨y, String.ofList [c]⟩ := by
  simp only [punct, punctuation]
  constructor
  · intro h
    repeat' split at h
    all_goals first | (simp only [Option.some.injEq] at h; subst_vars; exact ⟨_, by simp, rfl⟩) | (simp at h)
  · rintro ⟨y, h, rfl⟩
    simp only [List.mem_cons, Prod.mk.injEq, List.not_mem_nil, or_false] at h
    rcases h with ⟨rfl, rfl⟩ | ⟨rfl, rfl⟩ | ⟨rfl, rfl⟩ | ⟨rfl, rfl⟩ | ⟨rfl, rfl⟩ | ⟨rfl, rfl⟩ | ⟨rfl, rfl⟩ | ⟨rfl, rfl⟩ | ⟨rfl, rfl⟩ |
      ⟨rfl, rfl⟩ <;> rfl

theorem noLiteral_of (c : Char) (cs : List Char) (h1 : ¬ (c = '"' ∨ c = '\'' ∨ c = '`')) (h2 : ¬ startsNumber c cs = true) :
    NoLiteral (c :: cs) := by
  refine ⟨fun d hd => ?_, fun h => h2 ((startsNumber_iff _ _).2 h)⟩
  cases hd
  simpa using h1

theorem noLiteral_iff (c : Char) (cs : List Char) : NoLiteral (c :: cs) ↔ ¬ (c = '"' ∨ c = '\'' ∨ c = '`') ∧ ¬ startsNumber c cs = true := by
  refine ⟨fun h => ⟨?_, fun e => h.2 ((startsNumber_iff _ _).1 e)⟩, fun h => noLiteral_of c cs h.1 h.2⟩
  have := h.1 c rfl
  simpa using this

/-- what is found is a lexeme after blanks -/
theorem nextToken_ok (ctx : ScanCtx) (cs : List Char) (t : Token) (rest : List Char) (h : nextToken ctx cs = .ok (some (t, rest))) :
    rest.length < cs.length ∧ ∀ ts, Lexes ctx rest ts → Lexes ctx cs (t :: ts) := by
  have key : ∀ text, cs = text ++ rest → text ≠ [] → Lexeme ctx text t rest →
      rest.length < cs.length ∧ ∀ ts, Lexes ctx rest ts → Lexes ctx cs (t :: ts) := by
    intro text e hne hl
    subst e
    refine ⟨?_, fun ts h => .token _ _ _ _ hl h⟩
    have := List.length_pos_iff.2 hne
    rw [List.length_append]; omega
  induction cs with
  | nil => simp [nextToken] at h
  | cons c cs ih =>
    simp only [nextToken] at h
    split at h
    · rename_i hq
      cases hs : scanString ctx c cs with
      | error e => rw [hs] at h; simp [bind, Except.bind] at h
      | ok p =>
        rw [hs] at h
        simp [bind, Except.bind] at h
        subst h
        obtain ⟨text, e, hl⟩ := scanString_ok ctx c hq cs _ _ hs
        refine key text e ?_ (.literal _ _ _ hl)
        cases hl <;> simp
    · rename_i hq
      split at h
      · rename_i hn
        simp only [Except.ok.injEq, Option.some.injEq, Prod.mk.injEq] at h
        obtain ⟨rfl, rfl⟩ := h
        have hb := (startsNumber_iff _ _).1 hn
        refine key _ (scanNumber_append _).symm ?_ (.number _ _ ?_ (scanNumber_all _) (scanNumber_stop _))
        · have : numChar c = true := by
            rw [numChar_iff]
            rcases hb with h | h | h
            · exact .inl h
            · exact .inr (.inr (.inr (.inr h)))
            · exact .inr (.inr (.inr (.inl h.1)))
          simp [scanNumber, this]
        · rw [scanNumber_append]; exact hb
      · rename_i hn
        have hl := noLiteral_of c cs hq hn
        split at h
        · rename_i sy hs
          simp only [Except.ok.injEq, Option.some.injEq, Prod.mk.injEq] at h
          obtain ⟨rfl, rfl⟩ := h
          exact key [c] rfl (by simp) (.symbol c sy cs hl hs)
        · rename_i hs
          split at h
          · rename_i hv
            simp only [Except.ok.injEq, Option.some.injEq, Prod.mk.injEq] at h
            have e1 : scanIdent ctx true false (c :: cs) = (c :: (scanIdent ctx false false cs).1, (scanIdent ctx false false cs).2) := by
              simp [scanIdent, hv]
            rw [e1] at h
            simp only at h
            obtain ⟨rfl, rfl⟩ := h
            have ha := scanIdent_append ctx false false cs
            have hf := (varFirst_iff ctx c).1 hv
            rcases scanIdent_next ctx cs with hx | ⟨w, v, h1, h2, h3, h4, h5⟩
            · refine key _ (by simp [ha]) (by simp) (.name c _ _ ?_ hs hf hx.1 hx.2)
              rw [List.cons_append, ha]; exact hl
            · have hk : Lexeme ctx (c :: w ++ '→' :: v) ⟨.identifier, String.ofList (c :: (scanIdent ctx false false cs).1)⟩
                  (scanIdent ctx false false cs).2 := by
                rw [h1]
                refine .qualified c w v _ ?_ hs hf h2 h3 h4 h5
                rw [List.cons_append, List.cons_append, ← h1, ha]; exact hl
              exact key (c :: w ++ '→' :: v) (by rw [List.cons_append, List.cons_append, ← h1, ha]) (by simp) hk
          · rename_i hv
            have hf : ¬ FirstInName ctx c := fun e => hv ((varFirst_iff ctx c).2 e)
            split at h
            · rename_i t' hp
              simp only [Except.ok.injEq, Option.some.injEq, Prod.mk.injEq] at h
              obtain ⟨rfl, rfl⟩ := h
              obtain ⟨y, hy, rfl⟩ := (punct_iff _ _).1 hp
              exact key [c] rfl (by simp) (.punct c y cs hl hs hf hy)
            · split at h
              · rename_i hb
                have := ih h (fun text e hne hx => by
                  subst e
                  refine ⟨?_, fun ts h => .token _ _ _ _ hx h⟩
                  have := List.length_pos_iff.2 hne
                  rw [List.length_append]; omega)
                refine ⟨by simp; omega, fun ts h => .blank c cs _ (by simpa using hb) hs hf (this.2 ts h)⟩
              · split at h <;> simp at h

theorem nextToken_none (ctx : ScanCtx) (cs : List Char) (h : nextToken ctx cs = .ok none) : Lexes ctx cs [] := by
  induction cs with
  | nil => exact .done
  | cons c cs ih =>
    simp only [nextToken] at h
    split at h
    · cases hs : scanString ctx c cs with
      | error e => rw [hs] at h; simp [bind, Except.bind] at h
      | ok p => rw [hs] at h; simp [bind, Except.bind] at h
    · split at h
      · simp at h
      · split at h
        · simp at h
        · rename_i hs
          split at h
          · simp at h
          · rename_i hv
            have hf : ¬ FirstInName ctx c := fun e => hv ((varFirst_iff ctx c).2 e)
            split at h
            · simp at h
            · split at h
              · rename_i hb
                exact .blank c cs _ (by simpa using hb) hs hf (ih h)
              · split at h
                · rename_i hc
                  subst hc
                  exact .comment cs hs hf
                · simp at h

theorem lexLoop_ok (ctx : ScanCtx) (n : Nat) (cs : List Char) (ts : List Token) (h : lexLoop ctx n cs = .ok ts) : Lexes ctx cs ts := by
  induction n generalizing cs ts with
  | zero => simp [lexLoop] at h
  | succ n ih =>
    simp only [lexLoop] at h
    cases hs : nextToken ctx cs with
    | error e => rw [hs] at h; simp [bind, Except.bind] at h
    | ok p =>
      rw [hs] at h
      simp only [bind, Except.bind] at h
      cases p with
      | none =>
        simp at h
        subst h
        exact nextToken_none ctx cs hs
      | some p =>
        obtain ⟨t, rest⟩ := p
        simp only at h
        cases hr : lexLoop ctx n rest with
        | error e => rw [hr] at h; simp at h
        | ok ts' =>
          rw [hr] at h
          simp at h
          subst h
          exact (nextToken_ok ctx cs t rest hs).2 ts' (ih _ _ hr)

theorem nextToken_literal (ctx : ScanCtx) (text : List Char) (t : Token) (rest : List Char) (h : Literal ctx text t rest) :
    nextToken ctx (text ++ rest) = .ok (some (t, rest)) := by
  obtain ⟨q, cs, e, hq, hs⟩ := scanString_eq ctx text t rest h
  rw [e, nextToken, if_pos hq, hs]
  rfl

theorem nextToken_lexeme (ctx : ScanCtx) (text : List Char) (t : Token) (rest : List Char) (h : Lexeme ctx text t rest) :
    nextToken ctx (text ++ rest) = .ok (some (t, rest)) := by
  cases h with
  | literal _ _ _ h => exact nextToken_literal ctx text t rest h
  | number w _ hb hw hr =>
    have e := scanNumber_eq text rest hw hr
    cases hc : text ++ rest with
    | nil => rw [hc] at hb; exact absurd hb id
    | cons c cs =>
      rw [hc] at hb e
      have hn := (startsNumber_iff c cs).2 hb
      have hq : ¬ (c = '"' ∨ c = '\'' ∨ c = '`') := by
        rintro (rfl | rfl | rfl) <;> exact absurd hn (not_begins _ _ (by decide) (by decide) (by decide))
      rw [nextToken, if_neg hq, if_pos hn, e]
  | symbol c s _ hl hs =>
    obtain ⟨h1, h2⟩ := (noLiteral_iff _ _).1 hl
    simp only [List.cons_append, List.nil_append]
    rw [nextToken, if_neg h1, if_neg h2, hs]
  | name c w _ hl hs hf hw hr =>
    rw [List.cons_append] at hl ⊢
    obtain ⟨h1, h2⟩ := (noLiteral_iff _ _).1 hl
    have hv := (varFirst_iff ctx c).2 hf
    rw [nextToken, if_neg h1, if_neg h2, hs]
    simp only [hv, if_true]
    have : scanIdent ctx true false (c :: (w ++ rest)) = (c :: w, rest) := by
      simp [scanIdent, hv, scanIdent_run ctx false w rest hw,
        scanIdent_stop ctx false rest (fun d hd => ⟨(hr d hd).1, .inr (hr d hd).2⟩)]
    rw [this]
  | qualified c w v _ hl hs hf hw ha hv' hr =>
    rw [List.cons_append, List.cons_append] at hl ⊢
    obtain ⟨h1, h2⟩ := (noLiteral_iff _ _).1 hl
    have hv := (varFirst_iff ctx c).2 hf
    rw [nextToken, if_neg h1, if_neg h2, hs]
    simp only [hv, if_true]
    have ha' : ¬ varChar ctx false '→' = true := fun e => ha ((varNext_iff ctx _).1 e)
    have : scanIdent ctx true false (c :: (w ++ '→' :: v ++ rest)) = (c :: (w ++ '→' :: v), rest) := by
      rw [List.append_assoc, List.cons_append]
      have e1 : scanIdent ctx false false ('→' :: (v ++ rest)) = ('→' :: v, rest) := by
        rw [scanIdent, if_neg ha', if_pos ⟨rfl, rfl⟩]
        simp [scanIdent_run ctx true v rest hv', scanIdent_stop ctx true rest (fun d hd => ⟨hr d hd, .inl rfl⟩)]
      rw [scanIdent, if_pos hv, scanIdent_run ctx false w _ hw, e1]
    rw [this]
  | punct c y _ hl hs hf hp =>
    obtain ⟨h1, h2⟩ := (noLiteral_iff _ _).1 hl
    have hv : ¬ varChar ctx true c = true := fun e => hf ((varFirst_iff ctx c).1 e)
    simp only [List.cons_append, List.nil_append]
    rw [nextToken, if_neg h1, if_neg h2, hs]
    simp only [hv, if_false]
    rw [(punct_iff c _).2 ⟨y, hp, rfl⟩]
    rfl

theorem blank_next (ctx : ScanCtx) (c : Char) (cs : List Char) (hb : c ∈ [' ', '\r', '\t']) (hs : ctx.symbol c = none)
    (hf : ¬ FirstInName ctx c) : nextToken ctx (c :: cs) = nextToken ctx cs := by
  have hv : ¬ varChar ctx true c = true := fun e => hf ((varFirst_iff ctx c).1 e)
  have hb' : c = ' ' ∨ c = '\r' ∨ c = '\t' := by simpa using hb
  have h1 : ¬ (c = '"' ∨ c = '\'' ∨ c = '`') := by rcases hb' with rfl | rfl | rfl <;> decide
  have h2 : ¬ startsNumber c cs = true := by
    rcases hb' with rfl | rfl | rfl <;> exact not_begins _ _ (by decide) (by decide) (by decide)
  have h3 : punct c = none := by rcases hb' with rfl | rfl | rfl <;> rfl
  rw [nextToken, if_neg h1, if_neg h2, hs]
  simp only [hv, h3, if_pos hb']
  rfl

theorem comment_next (ctx : ScanCtx) (cs : List Char) (hs : ctx.symbol '⍝' = none) (hf : ¬ FirstInName ctx '⍝') :
    nextToken ctx ('⍝' :: cs) = .ok none := by
  have hv : ¬ varChar ctx true '⍝' = true := fun e => hf ((varFirst_iff ctx _).1 e)
  have h2 : ¬ startsNumber '⍝' cs = true := not_begins _ _ (by decide) (by decide) (by decide)
  rw [nextToken, if_neg (by decide), if_neg h2, hs]
  simp only [hv, if_false]
  rfl

theorem lexLoop_eq (ctx : ScanCtx) (cs : List Char) (ts : List Token) (h : Lexes ctx cs ts) (n : Nat) (hn : cs.length < n) :
    lexLoop ctx n cs = .ok ts := by
  induction h generalizing n with
  | done =>
    cases n with
    | zero => simp at hn
    | succ n => rfl
  | comment cs hs hf =>
    cases n with
    | zero => simp at hn
    | succ n => rw [lexLoop, comment_next ctx cs hs hf]; rfl
  | blank c cs ts hb hs hf _ ih =>
    cases n with
    | zero => simp at hn
    | succ n =>
      rw [lexLoop, blank_next ctx c cs hb hs hf]
      exact ih (n + 1) (by simp at hn; omega)
  | token text t rest ts hl _ ih =>
    cases n with
    | zero => simp at hn
    | succ n =>
      have e := nextToken_lexeme ctx text t rest hl
      have hlen := (nextToken_ok ctx _ t rest e).1
      rw [lexLoop, e]
      have := ih n (by omega)
      simp only [bind, Except.bind, this]

theorem lexLoop_iff (ctx : ScanCtx) (cs : List Char) (ts : List Token) :
    lexLoop ctx (cs.length + 1) cs = .ok ts ↔ Lexes ctx cs ts :=
  ⟨lexLoop_ok ctx _ cs ts, fun h => lexLoop_eq ctx cs ts h _ (Nat.lt_succ_self _)⟩

end Iv
