import Verif.Model.BigText
import Verif.Props.Big
import Verif.Props.Format
/-
C88: numbers of the big tower as text and back.
-/
namespace Iv
variable {O : Type}

/- ## Specification -/

/-- the value of a sequence of decimal digits -/
def decimal (ds : List Char) : Nat := ds.foldl (fun v c => 10 * v + (c.toNat - '0'.toNat)) 0

/-- the text of an integer: the decimal numeral, with a high minus in front if it is negative -/
def intNumeral (i : Int) : List Char := if i < 0 then '¯' :: Nat.toDigits 10 i.natAbs else Nat.toDigits 10 i.natAbs

/- ## Proof -/

theorem natText_toDigits (u : Nat) : natText false 10 u = Nat.toDigits 10 u := by
  have h1 := (C71_text 0 (u : Int)).1 (by decide) (by decide)
  have h2 := intText_plain 0 (by decide) (by decide) (u : Int)
  rw [if_neg (by omega)] at h1 h2
  rw [h2] at h1
  simpa using h1

theorem natText_plain (u : Nat) : ∀ c ∈ natText false 10 u, Digit c := by
  refine natText_rec false 10 (by decide) (fun u t => ∀ c ∈ t, Digit c) ?_ ?_ u
  · intro u hu c hc
    rw [List.mem_singleton.1 hc]; exact digitChar_digit false u hu
  · intro u _ ih c hc
    rcases List.mem_append.1 hc with h | h
    · exact ih c h
    · rw [List.mem_singleton.1 h]; exact digitChar_digit false _ (Nat.mod_lt _ (by decide))

theorem digit_ne {c : Char} (h : Digit c) : c ≠ '-' ∧ c ≠ '+' ∧ c ≠ '¯' ∧ c ≠ '/' ∧ c ≠ 'r' ∧ c ≠ '.' ∧ c ≠ 'e' := by
  refine ⟨?_, ?_, ?_, ?_, ?_, ?_, ?_⟩ <;> rintro rfl <;> unfold Digit at h <;> revert h <;> decide

theorem signText_eq (i : Int) : signText false 10 i = if i < 0 then '-' :: natText false 10 i.natAbs else natText false 10 i.natAbs := rfl

theorem bigIntText_eq (i : Int) : bigIntText i = if i < 0 then '¯' :: natText false 10 i.natAbs else natText false 10 i.natAbs := by
  rw [bigIntText, signText_eq]
  by_cases h : i < 0
  · simp only [if_pos h]
  · simp only [if_neg h]
    split
    · rename_i cs e
      exact absurd rfl (digit_ne (natText_plain i.natAbs '-' (by rw [e]; simp))).1
    · rfl

theorem bigIntText_intText (i : Int) : bigIntText i = intText 0 i := by
  rw [bigIntText_eq, intText_plain 0 (by decide) (by decide)]

theorem bigIntText_low (i : Int) : lowMinusAll (bigIntText i) = signText false 10 i := by
  have hl := fun u => unhigh_none (natText false 10 u) (fun c hc => (digit_ne (natText_plain u c hc)).2.2.1)
  rw [bigIntText_eq, lowMinusAll, signText_eq]
  split
  · rw [List.map_cons, hl]; rfl
  · exact hl _

theorem digits1_natText (u : Nat) : digits1 (natText false 10 u) = some u := by
  rw [digits1, if_neg (natText_ne false 10 (by decide) (by decide) u), digitsVal_natText false 10 (by decide) (by decide)]

/-- what a function of sign and digits gives for the text of an integer -/
theorem setInt_plain (f : List Char → Option Nat) (g : List Char → Option Int) (u : Nat) (cs : List Char) (hf : f cs = some u)
    (hcs : ∀ c ∈ cs, Digit c)
    (hg : ∀ s, g s = match s with
      | '-' :: cs => (f cs).map (fun u => -(u : Int))
      | '+' :: cs => (f cs).map (fun u => (u : Int))
      | cs => (f cs).map (fun u => (u : Int))) : g ('-' :: cs) = some (-(u : Int)) ∧ g cs = some (u : Int) := by
  constructor
  · rw [hg]; simp [hf]
  · rw [hg]
    split
    · exact absurd rfl (digit_ne (hcs '-' (by simp))).1
    · exact absurd rfl (digit_ne (hcs '+' (by simp))).2.1
    · rw [hf]; rfl

theorem setInt10_signText (i : Int) : setInt10 (signText false 10 i) = some i := by
  obtain ⟨h1, h2⟩ := setInt_plain digits1 setInt10 i.natAbs _ (digits1_natText _) (natText_plain _) (fun s => by rw [setInt10.eq_def]; rfl)
  rw [signText_eq]
  split
  · rw [h1]; congr 1; omega
  · rw [h2]; congr 1; omega

theorem setInt0_signText (i : Int) : setInt0 (signText false 10 i) = some i := by
  obtain ⟨h1, h2⟩ := setInt_plain parseUint setInt0 i.natAbs _ (parseUint_natText _) (natText_plain _) (fun s => by rw [setInt0.eq_def]; rfl)
  rw [signText_eq]
  split
  · rw [h1]; congr 1; omega
  · rw [h2]; congr 1; omega

theorem parseInt_big (i : Int) (h : ¬ I64 i) : parseInt (bigIntText i) = none := by
  have hu : parseInt (bigIntText i) = parseInt64 (signText false 10 i) := congrArg parseInt64 (bigIntText_low i)
  rw [hu, signText_eq]
  unfold I64 at h
  split
  · rw [parseInt64, parseUint_natText, Option.bind_some, if_pos (by omega)]
  · rw [parseInt64_plain _ (fun c hc => ⟨(digit_ne (natText_plain _ c hc)).1, (digit_ne (natText_plain _ c hc)).2.1⟩), parseUint_natText, Option.bind_some,
      if_pos (by omega)]

/-- The order in which the tower asks: native integers, big integers, rationals. -/
theorem parseBig_eq (s : List Char) (h : s ≠ "1b".toList ∧ s ≠ "0b".toList) :
    parseBig s = match parseInt s with
      | some i => some (.int i)
      | none => match parseBigInt s with
        | some i => some (bigI i)
        | none => (parseRat s).map bigR := by
  rw [parseBig, parseNumber, if_neg h.1, if_neg h.2]
  cases parseInt s with
  | some i => rfl
  | none =>
    have h0 : ∀ e : TextEnv BigV Empty, e.numParse = bigParse → parseClass e s 2 0 = match parseBigInt s with
        | some i => some (bigI i)
        | none => (parseRat s).map bigR := by
      intro e he
      simp only [parseClass, he, bigParse]
      cases parseBigInt s with
      | some i => rfl
      | none => cases hr : parseRat s <;> simp [bigParse, hr]
    exact h0 _ rfl

theorem bool_texts (s : List Char) (c : Char) (hc : c ∈ s) (h : c ∉ "10b".toList) : s ≠ "1b".toList ∧ s ≠ "0b".toList := by
  constructor <;> rintro rfl <;> revert hc h <;> simp <;> grind

theorem digitsVal_bad (base : Nat) (v : Nat) (s : List Char) (c : Char) (hc : c ∈ s) (h : ∀ d, digitVal c = some d → ¬ d < base) : digitsVal base v s = none := by
  induction s generalizing v with
  | nil => cases hc
  | cons x xs ih =>
    rw [digitsVal]
    rcases List.mem_cons.1 hc with rfl | hc
    · cases hd : digitVal c with
      | none => rfl
      | some d => simp only; rw [if_neg (h d hd)]
    · cases hd : digitVal x with
      | none => rfl
      | some d =>
        simp only
        by_cases hb : d < base
        · rw [if_pos hb]; exact ih _ hc
        · rw [if_neg hb]

theorem digits1_bad (s : List Char) (c : Char) (hc : c ∈ s) (h : ∀ d, digitVal c = some d → ¬ d < 16) : digits1 s = none := by
  rw [digits1]
  split
  · rfl
  · exact digitsVal_bad 10 0 s c hc (fun d hd hlt => h d hd (by omega))

theorem parseUint_bad (s : List Char) (c : Char) (hc : c ∈ s) (h : ∀ d, digitVal c = some d → ¬ d < 16) (h0 : c ∉ ['0', 'b', 'B', 'o', 'O', 'x', 'X']) : parseUint s = none := by
  have key : ∀ base, base ≤ 16 → ∀ t, c ∈ t → digitsVal base 0 t = none :=
    fun base hb t ht => digitsVal_bad base 0 t c ht (fun d hd hlt => h d hd (by omega))
  simp only [List.mem_cons, List.not_mem_nil, or_false, not_or] at h0
  obtain ⟨a0, a1, a2, a3, a4, a5, a6⟩ := h0
  rw [parseUint.eq_def]
  split
  · rfl
  all_goals refine key _ (by decide) _ ?_
  all_goals (try simp only [List.mem_cons] at hc ⊢); grind

theorem setInt_bad (f : List Char → Option Nat) (g : List Char → Option Int) (P : List Char → Prop) (s : List Char) (hf : ∀ t, P t → f t = none) (hP : P s)
    (hP' : ∀ c t, P (c :: t) → (c = '-' ∨ c = '+') → P t)
    (hg : ∀ s, g s = match s with
      | '-' :: cs => (f cs).map (fun u => -(u : Int))
      | '+' :: cs => (f cs).map (fun u => (u : Int))
      | cs => (f cs).map (fun u => (u : Int))) : g s = none := by
  rw [hg]
  split
  · rw [hf _ (hP' _ _ hP (.inl rfl))]; rfl
  · rw [hf _ (hP' _ _ hP (.inr rfl))]; rfl
  · rw [hf _ hP]; rfl

/-- a text with a character that is not part of an integer -/
theorem not_integer (s : List Char) (c : Char) (hc : c ∈ s) (h : ∀ d, digitVal c = some d → ¬ d < 16)
    (h0 : c ∉ ['0', 'b', 'B', 'o', 'O', 'x', 'X', '-', '+', '¯']) : parseInt s = none ∧ parseBigInt s = none := by
  have hc' : c ∈ lowMinusAll s := by
    refine List.mem_map.2 ⟨c, hc, if_neg ?_⟩
    rintro rfl; exact h0 (by decide)
  have h1 : c ≠ '-' ∧ c ≠ '+' := by constructor <;> rintro rfl <;> exact h0 (by decide)
  have h2 : c ∉ ['0', 'b', 'B', 'o', 'O', 'x', 'X'] := by simp at h0 ⊢; grind
  constructor
  · show parseInt64 (lowMinusAll s) = none
    rw [parseInt64.eq_def]
    split
    · rename_i cs e
      rw [e] at hc'
      rw [parseUint_bad cs c (by rcases List.mem_cons.1 hc' with e | h; exact absurd e h1.1; exact h) h h2]; rfl
    · rename_i cs e
      rw [e] at hc'
      rw [parseUint_bad cs c (by rcases List.mem_cons.1 hc' with e | h; exact absurd e h1.2; exact h) h h2]; rfl
    · rw [parseUint_bad _ c hc' h h2]; rfl
  · refine setInt_bad digits1 setInt10 (fun t => c ∈ t) _ (fun t ht => digits1_bad t c ht h) hc' ?_ (fun s => by rw [setInt10.eq_def]; rfl)
    intro d t ht hd
    rcases List.mem_cons.1 ht with e | ht
    · subst e; rcases hd with rfl | rfl
      · exact absurd rfl h1.1
      · exact absurd rfl h1.2
    · exact ht

theorem cutSlash_append (a b : List Char) (h : ∀ c ∈ a, c ≠ '/') : cutSlash (a ++ '/' :: b) = some (a, b) := by
  induction a with
  | nil => simp [cutSlash]
  | cons c cs ih =>
    rw [List.cons_append, cutSlash, if_neg (h c (by simp)), ih (fun d hd => h d (by simp [hd]))]; rfl

theorem cutSlash_none (s : List Char) (h : ∀ c ∈ s, c ≠ '/') : cutSlash s = none := by
  induction s with
  | nil => rfl
  | cons c cs ih => rw [cutSlash, if_neg (h c (by simp)), ih (fun d hd => h d (by simp [hd]))]; rfl

theorem replaceFirst_append (x y : Char) (a b : List Char) (h : ∀ c ∈ a, c ≠ x) : replaceFirst x y (a ++ x :: b) = a ++ y :: b := by
  induction a with
  | nil => simp [replaceFirst]
  | cons c cs ih => rw [List.cons_append, replaceFirst, if_neg (h c (by simp)), ih (fun d hd => h d (by simp [hd]))]; rfl

theorem replaceFirst_none (x y : Char) (s : List Char) (h : ∀ c ∈ s, c ≠ x) : replaceFirst x y s = s := by
  induction s with
  | nil => rfl
  | cons c cs ih => rw [replaceFirst, if_neg (h c (by simp)), ih (fun d hd => h d (by simp [hd]))]

theorem signText_chars (i : Int) : ∀ c ∈ signText false 10 i, Digit c ∨ c = '-' := by
  intro c hc
  rw [signText_eq] at hc
  split at hc
  · rcases List.mem_cons.1 hc with rfl | hc
    · exact .inr rfl
    · exact .inl (natText_plain _ c hc)
  · exact .inl (natText_plain _ c hc)

theorem signText_ne (i : Int) : ∀ c ∈ signText false 10 i, c ≠ '/' ∧ c ≠ 'r' := by
  intro c hc
  rcases signText_chars i c hc with h | rfl
  · exact ⟨(digit_ne h).2.2.2.1, (digit_ne h).2.2.2.2.1⟩
  · decide

theorem parseRat_fraction (n : Int) (d : Nat) : parseRat (bigIntText n ++ 'r' :: natText false 10 d) = if d = 0 then none else some ((n : ℚ) / d) := by
  have hl : lowMinusAll (bigIntText n ++ 'r' :: natText false 10 d) = signText false 10 n ++ 'r' :: natText false 10 d := by
    rw [lowMinusAll, List.map_append, List.map_cons, if_neg (by decide), unhigh_none _ (fun c hc => (digit_ne (natText_plain d c hc)).2.2.1)]
    exact congrArg (· ++ _) (bigIntText_low n)
  rw [parseRat, hl, replaceFirst_append 'r' '/' _ _ (fun c hc => (signText_ne n c hc).2), setRat, cutSlash_append _ _ (fun c hc => (signText_ne n c hc).1)]
  simp only
  rw [setFraction, setInt0_signText, parseUint_natText]

theorem ratText_eq (q : ℚ) : ratText q = bigIntText q.num ++ if q.den = 1 then [] else 'r' :: natText false 10 q.den := by
  have hh : highMinusAll (goRatText q) = bigIntText q.num ++ '/' :: natText false 10 q.den := by
    have hd : ∀ u, (natText false 10 u).map (fun c => if c = '-' then '¯' else c) = natText false 10 u := by
      intro u
      refine (List.map_congr_left (fun c hc => if_neg (digit_ne (natText_plain u c hc)).1)).trans (List.map_id' _)
    rw [highMinusAll, goRatText, List.map_append, List.map_cons, if_neg (by decide), hd, bigIntText_eq, signText_eq]
    congr 1
    split
    · rw [List.map_cons, hd]; rfl
    · exact hd _
  rw [ratText, hh]
  by_cases h1 : q.den = 1
  · have h2 : natText false 10 q.den = ['1'] := by rw [h1]; decide
    rw [h2, if_pos h1, if_pos]
    · rw [show bigIntText q.num ++ ['/', '1'] = (bigIntText q.num ++ ['/']) ++ ['1'] by simp, List.dropLast_concat, List.dropLast_concat, List.append_nil]
    · rw [endsOne]; simp
  · rw [if_neg h1, if_neg]
    · refine replaceFirst_append '/' 'r' _ _ ?_
      intro c hc
      rw [bigIntText_eq] at hc
      split at hc
      · rcases List.mem_cons.1 hc with rfl | hc
        · decide
        · exact (digit_ne (natText_plain _ c hc)).2.2.2.1
      · exact (digit_ne (natText_plain _ c hc)).2.2.2.1
    · intro he
      rw [endsOne, beq_iff_eq] at he
      obtain ⟨ds, d, hds⟩ : ∃ ds d, natText false 10 q.den = ds ++ [d] := by
        rcases List.eq_nil_or_concat (natText false 10 q.den) with h | ⟨ds, d, h⟩
        · exact absurd h (natText_ne false 10 (by decide) (by decide) _)
        · exact ⟨ds, d, by simpa using h⟩
      have hds' := hds
      rcases List.eq_nil_or_concat ds with rfl | ⟨es, e, he'⟩
      · simp only [List.nil_append] at hds
        rw [hds] at he
        have : d = '1' := by
          rw [show bigIntText q.num ++ '/' :: [d] = (bigIntText q.num) ++ ['/', d] from rfl] at he
          simp at he
          exact he
        apply h1
        have hv := digitsVal_natText false 10 (by decide) (by decide) q.den
        rw [hds, this] at hv
        have : digitsVal 10 0 ['1'] = some 1 := by decide
        rw [this] at hv
        injection hv with hv; exact hv.symm
      · have he'' : ds = es ++ [e] := by simpa using he'
        rw [hds, he''] at he
        have : e = '/' := by
          rw [show bigIntText q.num ++ '/' :: (es ++ [e] ++ [d]) = (bigIntText q.num ++ '/' :: es) ++ [e, d] by simp] at he
          rw [List.drop_left' (by simp; omega)] at he
          injection he
        exact (digit_ne (natText_plain q.den e (by rw [hds, he'']; simp))).2.2.2.1 this

/- ## Theorems -/

/-- The text of a number: the decimal numeral of an integer; numerator and denominator in lowest terms, with the letter r between them. -/
theorem C88_text (i : Int) (q : ℚ) :
    bigText (.int i) = intNumeral i ∧
    (q.den = 1 → bigText (.rat q) = intNumeral q.num) ∧
    (q.den ≠ 1 → bigText (.rat q) = intNumeral q.num ++ 'r' :: Nat.toDigits 10 q.den) := by
  have h : ∀ i, bigIntText i = intNumeral i := by
    intro i
    rw [bigIntText_eq, intNumeral, natText_toDigits]
  refine ⟨h i, fun h1 => ?_, fun h1 => ?_⟩
  · show ratText q = _
    rw [ratText_eq, if_pos h1, h, List.append_nil]
  · show ratText q = _
    rw [ratText_eq, if_neg h1, h, natText_toDigits]

/-- An integer is read back from its text: as a native integer if it has 64 bits, otherwise as a big integer. -/
theorem C88_integer (i : Int) : parseBig (bigText (.int i)) = some (if -2 ^ 63 ≤ i ∧ i < 2 ^ 63 then .int i else bigI i) := by
  show parseBig (bigIntText i) = _
  have hb : bigIntText i ≠ "1b".toList ∧ bigIntText i ≠ "0b".toList := by
    have key : ∀ x : Char, ∃ c ∈ [x, 'b'], ¬ Digit c ∧ c ≠ '¯' := fun x => ⟨'b', by simp, by unfold Digit; decide, by decide⟩
    have : ∀ x : Char, bigIntText i ≠ [x, 'b'] := by
      intro x e
      obtain ⟨c, hc, h1, h2⟩ := key x
      rw [← e, bigIntText_eq] at hc
      split at hc
      · rcases List.mem_cons.1 hc with h | h
        · exact h2 h
        · exact h1 (natText_plain _ c h)
      · exact h1 (natText_plain _ c hc)
    exact ⟨this '1', this '0'⟩
  rw [parseBig_eq _ hb]
  by_cases h : I64 i
  · have : parseInt (bigIntText i) = some i := by rw [bigIntText_intText]; exact parseInt_intText 0 (by decide) (by decide) i h
    rw [this, if_pos (by unfold I64 at h; omega)]
  · have h2 : parseBigInt (bigIntText i) = some i := by rw [parseBigInt, bigIntText_low, setInt10_signText]
    rw [parseInt_big i h, h2, if_neg (by unfold I64 at h; omega)]

/-- A fraction: an integer, the letter r, and a denominator without sign.  The denominator must not be zero. -/
theorem C88_fraction (n : Int) (d : Nat) :
    parseBig (intNumeral n ++ 'r' :: Nat.toDigits 10 d) = if d = 0 then none else some (bigR ((n : ℚ) / d)) := by
  have he : intNumeral n ++ 'r' :: Nat.toDigits 10 d = bigIntText n ++ 'r' :: natText false 10 d := by
    rw [bigIntText_eq, intNumeral, natText_toDigits, natText_toDigits]
  have hr : 'r' ∈ bigIntText n ++ 'r' :: natText false 10 d := by simp
  obtain ⟨h1, h2⟩ := not_integer _ 'r' hr (by decide) (by decide)
  rw [he, parseBig_eq _ (bool_texts _ 'r' hr (by decide)), h1, h2, parseRat_fraction]
  by_cases hd : d = 0 <;> simp [hd]

/-- Every number is read back from its text as a number with the same value; a number that is no integer as the same rational. -/
theorem C88_round_trip (v : BigV) :
    ∃ x, parseBig (bigText v) = some x ∧ IsNum x ∧ bigVal x = (match v with | .int n => (n : ℚ) | .rat q => q) ∧
      (∀ q : ℚ, v = .rat q → q.den ≠ 1 → x = bigR q) := by
  cases v with
  | int n =>
    refine ⟨_, C88_integer n, ?_, ?_, fun q e => by cases e⟩
    · split
      · rename_i h; exact .int n (by unfold I64; omega)
      · exact .bigInt n
    · split <;> rfl
  | rat q =>
    obtain ⟨_, h1, h2⟩ := C88_text 0 q
    by_cases hd : q.den = 1
    · refine ⟨if -2 ^ 63 ≤ q.num ∧ q.num < 2 ^ 63 then .int q.num else bigI q.num, ?_, ?_, ?_, fun q' e hq => by cases e; exact absurd hd hq⟩
      · rw [h1 hd, ← (C88_text q.num 0).1]; exact C88_integer q.num
      · split
        · rename_i h; exact .int _ (by unfold I64; omega)
        · exact .bigInt _
      · have : (q.num : ℚ) = q := by
          conv_rhs => rw [← Rat.num_div_den q, hd]
          simp
        split <;> exact this
    · refine ⟨bigR q, ?_, .rat q, rfl, fun q' e _ => by cases e; rfl⟩
      rw [h2 hd, C88_fraction, if_neg q.den_nz, Rat.num_div_den]

theorem digitVal_digit {c : Char} (h : Digit c) : digitVal c = some (c.toNat - '0'.toNat) ∧ c.toNat - '0'.toNat < 10 := by
  unfold Digit at h
  refine ⟨if_pos h, ?_⟩
  have h2 : c.toNat ≤ '9'.toNat := h.2
  have : '9'.toNat = 57 := rfl
  have : '0'.toNat = 48 := rfl
  omega

theorem digitsVal_decimal (ds : List Char) (h : ∀ c ∈ ds, Digit c) (v : Nat) :
    digitsVal 10 v ds = some (ds.foldl (fun v c => 10 * v + (c.toNat - '0'.toNat)) v) := by
  induction ds generalizing v with
  | nil => rfl
  | cons c cs ih =>
    obtain ⟨h1, h2⟩ := digitVal_digit (h c (by simp))
    rw [digitsVal, h1]
    simp only
    rw [if_pos h2, ih (fun d hd => h d (by simp [hd])), List.foldl_cons, Nat.mul_comm v 10]

theorem digits1_decimal (ds : List Char) (hne : ds ≠ []) (h : ∀ c ∈ ds, Digit c) : digits1 ds = some (decimal ds) := by
  rw [digits1, if_neg hne, digitsVal_decimal ds h]; rfl

theorem isDec_iff (c : Char) : isDec c = true ↔ Digit c := by
  rw [isDec, Bool.and_eq_true, decide_eq_true_iff, decide_eq_true_iff]; rfl

theorem takeWhile_digits (ds rest : List Char) (h : ∀ c ∈ ds, Digit c) (hr : ∀ c, rest.head? = some c → ¬ Digit c) :
    (ds ++ rest).takeWhile isDec = ds ∧ (ds ++ rest).dropWhile isDec = rest := by
  induction ds with
  | nil =>
    cases rest with
    | nil => exact ⟨rfl, rfl⟩
    | cons c cs =>
      have : ¬ isDec c = true := fun h => hr c rfl ((isDec_iff c).1 h)
      simp [this]
  | cons c cs ih =>
    have hc := (isDec_iff c).2 (h c (by simp))
    obtain ⟨h1, h2⟩ := ih (fun d hd => h d (by simp [hd]))
    simp [hc, h1, h2]

/-- the exponent of a decimal fraction: none, or the letter e (or E) and an integer -/
inductive ExpText : List Char → Int → Prop
  | none : ExpText [] 0
  | some (c : Char) (e : Int) : c = 'e' ∨ c = 'E' → ExpText (c :: intNumeral e) e

theorem scanExp_text (t : List Char) (e : Int) (h : ExpText t e) : scanExp (lowMinusAll t) = some e := by
  cases h with
  | none => rfl
  | some c e hc =>
    have h1 : lowMinusAll (intNumeral e) = signText false 10 e := by rw [← (C88_text e 0).1]; exact bigIntText_low e
    rcases hc with rfl | rfl
    · show scanExp ('e' :: lowMinusAll (intNumeral e)) = _
      rw [h1, scanExp, setInt10_signText]
    · show scanExp ('E' :: lowMinusAll (intNumeral e)) = _
      rw [h1, scanExp, setInt10_signText]

theorem exp_chars (t : List Char) (e : Int) (h : ExpText t e) : (∀ c ∈ lowMinusAll t, c ≠ '/' ∧ c ≠ 'r') ∧ ∀ c, (lowMinusAll t).head? = some c → ¬ Digit c := by
  cases h with
  | none => exact ⟨by simp [lowMinusAll], by simp [lowMinusAll]⟩
  | some c e hc =>
    have h1 : lowMinusAll (intNumeral e) = signText false 10 e := by rw [← (C88_text e 0).1]; exact bigIntText_low e
    have h2 : lowMinusAll (c :: intNumeral e) = c :: signText false 10 e := by
      rw [← h1, lowMinusAll, List.map_cons, if_neg (by rcases hc with rfl | rfl <;> decide)]; rfl
    rw [h2]
    constructor
    · intro d hd
      rcases List.mem_cons.1 hd with rfl | hd
      · rcases hc with rfl | rfl <;> decide
      · exact signText_ne e d hd
    · intro d hd
      simp only [List.head?_cons, Option.some.injEq] at hd
      subst hd
      rcases hc with rfl | rfl <;> unfold Digit <;> decide

theorem exp_head (t : List Char) (e : Int) (h : ExpText t e) : ∀ c, (lowMinusAll t).head? = some c → c = 'e' ∨ c = 'E' := by
  cases h with
  | none => simp [lowMinusAll]
  | some c e hc =>
    intro d hd
    rw [lowMinusAll, List.map_cons, List.head?_cons, if_neg (by rcases hc with rfl | rfl <;> decide)] at hd
    injection hd with hd
    exact hd ▸ hc

theorem decimalSyntax_dot (a b t : List Char) (e : Int) (ha : ∀ c ∈ a, Digit c) (hb : ∀ c ∈ b, Digit c) (hne : a ++ b ≠ []) (ht : ExpText t e) :
    decimalSyntax (a ++ '.' :: (b ++ lowMinusAll t)) = some (decimal (a ++ b), e - b.length) := by
  obtain ⟨p1, p2⟩ := takeWhile_digits a ('.' :: (b ++ lowMinusAll t)) ha (by intro c hc; simp at hc; subst hc; unfold Digit; decide)
  obtain ⟨p3, p4⟩ := takeWhile_digits b (lowMinusAll t) hb (exp_chars t e ht).2
  rw [decimalSyntax, p1, p2, decimalRest, p3, p4, decimalOf, scanExp_text t e ht,
    digits1_decimal (a ++ b) hne (fun c hc => (List.mem_append.1 hc).elim (ha c) (hb c))]

theorem decimalSyntax_plain (a t : List Char) (e : Int) (ha : ∀ c ∈ a, Digit c) (hne : a ≠ []) (ht : ExpText t e) :
    decimalSyntax (a ++ lowMinusAll t) = some (decimal a, e) := by
  obtain ⟨p1, p2⟩ := takeWhile_digits a (lowMinusAll t) ha (exp_chars t e ht).2
  have h : decimalRest a (lowMinusAll t) = decimalOf a [] (lowMinusAll t) := by
    rw [decimalRest.eq_def]
    split
    · rename_i cs heq
      have := (exp_head t e ht) '.' (by rw [heq]; rfl)
      simp at this
    · rfl
  rw [decimalSyntax, p1, p2, h, decimalOf, scanExp_text t e ht, List.append_nil, digits1_decimal a hne ha]
  simp

/-- A decimal fraction has exactly the value that is written: `0.1` is one tenth.  There may be a high minus and an exponent; the digits in front of
or behind the dot may be left out.  (Exponents beyond a million are rejected.) -/
theorem C88_decimal (neg : Bool) (a b t : List Char) (e : Int) (ha : ∀ c ∈ a, Digit c) (hb : ∀ c ∈ b, Digit c) (hne : a ++ b ≠ []) (ht : ExpText t e)
    (he : (e - b.length).natAbs ≤ 1000000) :
    parseBig ((if neg then ['¯'] else []) ++ a ++ '.' :: b ++ t) =
      some (bigR ((if neg then -1 else 1) * ((decimal (a ++ b) : ℚ) * (10 : ℚ) ^ (e - b.length)))) := by
  have hdot : '.' ∈ (if neg then ['¯'] else []) ++ a ++ '.' :: b ++ t := by simp
  obtain ⟨h1, h2⟩ := not_integer _ '.' hdot (by decide) (by decide)
  rw [parseBig_eq _ (bool_texts _ '.' hdot (by decide)), h1, h2]
  have hlow : ∀ ds : List Char, (∀ c ∈ ds, Digit c) → lowMinusAll ds = ds := fun ds h => unhigh_none ds (fun c hc => (digit_ne (h c hc)).2.2.1)
  have hl : lowMinusAll ((if neg then ['¯'] else []) ++ a ++ '.' :: b ++ t) = (if neg then ['-'] else []) ++ (a ++ '.' :: (b ++ lowMinusAll t)) := by
    have h3 := hlow a ha
    have h4 := hlow b hb
    simp only [lowMinusAll, List.map_append, List.map_cons] at h3 h4 ⊢
    rw [h3, h4]
    cases neg <;> simp
  obtain ⟨hx1, hx2⟩ := exp_chars t e ht
  have hmem : ∀ c ∈ (if neg then ['-'] else []) ++ (a ++ '.' :: (b ++ lowMinusAll t)), c ≠ '/' ∧ c ≠ 'r' := by
    intro c hc
    simp only [List.mem_append, List.mem_cons] at hc
    rcases hc with hc | hc | rfl | hc | hc
    · have : c = '-' := by cases neg <;> simp at hc; exact hc
      subst this; decide
    · exact ⟨(digit_ne (ha c hc)).2.2.2.1, (digit_ne (ha c hc)).2.2.2.2.1⟩
    · decide
    · exact ⟨(digit_ne (hb c hc)).2.2.2.1, (digit_ne (hb c hc)).2.2.2.2.1⟩
    · exact hx1 c hc
  have hdec : setDecimal (a ++ '.' :: (b ++ lowMinusAll t)) = some ((decimal (a ++ b) : ℚ) * (10 : ℚ) ^ (e - b.length)) := by
    rw [setDecimal, decimalSyntax_dot a b t e ha hb hne ht, Option.bind_some, ratOfDecimal]
    split
    · rename_i h0; rw [h0]; simp
    · rw [if_neg (by omega)]
  have hrat : parseRat ((if neg then ['¯'] else []) ++ a ++ '.' :: b ++ t) = some ((if neg then -1 else 1) * ((decimal (a ++ b) : ℚ) * (10 : ℚ) ^ (e - b.length))) := by
    rw [parseRat, hl, replaceFirst_none 'r' '/' _ (fun c hc => (hmem c hc).2), setRat, cutSlash_none _ (fun c hc => (hmem c hc).1)]
    simp only
    cases neg with
    | true =>
      show setSigned ('-' :: (a ++ '.' :: (b ++ lowMinusAll t))) = _
      rw [setSigned, hdec]; simp
    | false =>
      show setSigned (a ++ '.' :: (b ++ lowMinusAll t)) = _
      rw [setSigned.eq_def]
      split
      · rename_i cs heq
        exfalso
        cases a with
        | nil => cases heq
        | cons x xs => injection heq with hx _; exact (digit_ne (ha x (by simp))).1 hx
      · rename_i cs heq
        exfalso
        cases a with
        | nil => cases heq
        | cons x xs => injection heq with hx _; exact (digit_ne (ha x (by simp))).2.1 hx
      · rw [hdec]; simp
  rw [hrat]; rfl

/-- Every displayed number can be typed in: it is scanned as one number token with its text. -/
theorem C88_token (ctx : ScanCtx) (v : BigV) : scanLine ctx (bigText v) = .ok [⟨.number, String.ofList (bigText v)⟩] := by
  have hin : (∀ c ∈ bigText v, InNumber c) ∧ BeginsNumber (bigText v) := by
    obtain ⟨n, w, hw, hv⟩ : ∃ (n : Int) (w : List Char), (∀ c ∈ w, InNumber c) ∧ bigText v = bigIntText n ++ w := by
      cases v with
      | int n => exact ⟨n, [], by simp, by simp [bigText]⟩
      | rat q =>
        refine ⟨q.num, _, ?_, ratText_eq q⟩
        intro c hc
        split at hc
        · cases hc
        · rcases List.mem_cons.1 hc with rfl | hc
          · exact .inr (.inl (by decide))
          · exact .inl (natText_plain _ c hc)
    obtain ⟨h1, h2, h3⟩ := intText_number 0 (by decide) n
    rw [← bigIntText_intText] at h1 h2 h3
    rw [hv]
    refine ⟨fun c hc => (List.mem_append.1 hc).elim (h2 c) (hw c), ?_⟩
    cases ht : bigIntText n with
    | nil => exact absurd ht h1
    | cons c cs =>
      rw [ht] at h3
      rcases h3 with h | h | ⟨h, d, hd, hd'⟩
      · exact .inl h
      · exact .inr (.inl h)
      · refine .inr (.inr ⟨h, d, ?_, hd'⟩)
        cases cs with
        | nil => cases hd
        | cons x xs => exact hd
  rw [C49_scan]
  refine ⟨[⟨.number, String.ofList (bigText v)⟩], ?_, ?_⟩
  · have := Lexes.token (ctx := ctx) (bigText v) _ [] [] (.number _ [] (by simpa using hin.2) hin.1 (fun c hc => by cases hc)) .done
    simpa using this
  · exact .plain _ (fun _ _ _ e => by cases e)

/- ## Examples -/

example : bigText (.int (-12345678901234567890)) = "¯12345678901234567890".toList := by decide +kernel
example : parseBig "¯12345678901234567890".toList = some (bigI (-12345678901234567890)) := by decide +kernel
example : parseBig "¯120".toList = some (.int (-120)) := by decide +kernel

/-- `¯6r4` is ¯3r2 -/
example : parseBig "¯6r4".toList = some (bigR (-3 / 2)) := by
  have := C88_fraction (-6) 4
  rw [if_neg (by decide)] at this
  refine Eq.trans ?_ (this.trans ?_)
  · exact congrArg parseBig (by decide)
  · norm_num

/-- `1.25e¯1` is exactly one eighth -/
example : parseBig "1.25e¯1".toList = some (bigR (1 / 8)) := by
  have := C88_decimal false ['1'] ['2', '5'] ('e' :: intNumeral (-1)) (-1) (by unfold Digit; decide) (by unfold Digit; decide) (by decide) (.some 'e' (-1) (.inl rfl)) (by decide)
  refine Eq.trans ?_ (this.trans ?_)
  · exact congrArg parseBig (by decide)
  · have : decimal (['1'] ++ ['2', '5']) = 125 := by decide
    rw [this]
    norm_num

end Iv
