import Verif.Model.NumText
import Verif.Props.BigText
/-
C89: number literals of the default tower.
-/
namespace Iv
variable {F : Type}

/- ## Specification -/

/-- A decimal number as it is written: a high minus, digits with or without a dot, an exponent.  Its value is `m` times ten to the power `k`, negated if
`neg`. -/
inductive DecimalText : List Char → (neg : Bool) → (m : Nat) → (k : Int) → Prop
  | whole (neg : Bool) (a t : List Char) (e : Int) : (∀ c ∈ a, Digit c) → a ≠ [] → ExpText t e →
      DecimalText ((if neg then ['¯'] else []) ++ a ++ t) neg (decimal a) e
  | dot (neg : Bool) (a b t : List Char) (e : Int) : (∀ c ∈ a, Digit c) → (∀ c ∈ b, Digit c) → a ++ b ≠ [] → ExpText t e →
      DecimalText ((if neg then ['¯'] else []) ++ a ++ '.' :: b ++ t) neg (decimal (a ++ b)) (e - b.length)

/-- the text denotes the floating point number nearest to its decimal value -/
def Writes' (env : FloatEnv F) (s : List Char) (x : F) : Prop := ∃ neg m k, DecimalText s neg m k ∧ env.round neg ((m : ℚ) * (10 : ℚ) ^ k) = some x

/- ## Proof -/

/-- the characters of a decimal number -/
def DecChar (c : Char) : Prop := Digit c ∨ c = '.' ∨ c = 'e' ∨ c = 'E' ∨ c = '¯'

theorem exp_decChar (t : List Char) (e : Int) (h : ExpText t e) : ∀ c ∈ t, DecChar c := by
  cases h with
  | none => simp
  | some c e hc =>
    intro d hd
    rcases List.mem_cons.1 hd with rfl | hd
    · rcases hc with rfl | rfl <;> simp [DecChar]
    · rw [← (C88_text e 0).1] at hd
      change d ∈ bigIntText e at hd
      rw [bigIntText_eq] at hd
      split at hd
      · rcases List.mem_cons.1 hd with rfl | hd
        · simp [DecChar]
        · exact .inl (natText_plain _ d hd)
      · exact .inl (natText_plain _ d hd)

theorem sign_decChar (neg : Bool) : ∀ c ∈ (if neg then ['¯'] else [] : List Char), DecChar c := by
  intro c hc; cases neg <;> simp at hc; subst hc; simp [DecChar]

theorem decimal_chars {s : List Char} {neg : Bool} {m : Nat} {k : Int} (h : DecimalText s neg m k) : ∀ c ∈ s, DecChar c := by
  cases h with
  | whole _ a t _ ha hne ht =>
    intro c hc
    simp only [List.mem_append] at hc
    rcases hc with (hc | hc) | hc
    · exact sign_decChar neg c hc
    · exact .inl (ha c hc)
    · exact exp_decChar t _ ht c hc
  | dot _ a b t e ha hb hne ht =>
    intro c hc
    simp only [List.mem_append, List.mem_cons] at hc
    rcases hc with ((hc | hc) | (rfl | hc)) | hc
    · exact sign_decChar neg c hc
    · exact .inl (ha c hc)
    · simp [DecChar]
    · exact .inl (hb c hc)
    · exact exp_decChar t _ ht c hc

theorem decimal_digit {s : List Char} {neg : Bool} {m : Nat} {k : Int} (h : DecimalText s neg m k) : ∃ c ∈ s, Digit c := by
  cases h with
  | whole _ a t _ ha hne ht =>
    obtain ⟨c, cs, rfl⟩ := List.exists_cons_of_ne_nil hne
    exact ⟨c, by simp, ha c (by simp)⟩
  | dot _ a b t e ha hb hne ht =>
    obtain ⟨c, cs, hc⟩ := List.exists_cons_of_ne_nil hne
    have hm : c ∈ a ++ b := by rw [hc]; simp
    refine ⟨c, ?_, (List.mem_append.1 hm).elim (ha c) (hb c)⟩
    simp only [List.mem_append, List.mem_cons]
    rcases List.mem_append.1 hm with h | h
    · exact .inl (.inl (.inr h))
    · exact .inl (.inr (.inr h))

theorem digit_range {c : Char} (h : Digit c) : 48 ≤ c.toNat ∧ c.toNat ≤ 57 := by
  unfold Digit at h
  exact ⟨h.1, h.2⟩

theorem lowerChar_digit {c : Char} (h : Digit c) : lowerChar c = c := by
  rw [lowerChar, if_neg]
  rintro ⟨h1, _⟩
  have h1 : 65 ≤ c.toNat := h1
  have := digit_range h
  omega

/-- a text with a digit, or with a character that is not in the special words -/
theorem special_none (env : FloatEnv F) (s : List Char) (c : Char) (hc : c ∈ s) (h : lowerChar c ∉ "-+infinityna".toList) : specialOf env s = none := by
  have hm : lowerChar c ∈ s.map lowerChar := List.mem_map_of_mem hc
  generalize s.map lowerChar = l at hm
  have key : ∀ cs : List Char, lowerChar c ∈ cs → cs ≠ "inf".toList ∧ cs ≠ "infinity".toList ∧ cs ≠ "nan".toList := by
    intro cs hcs
    have hn : lowerChar c ∉ ['-', '+', 'i', 'n', 'f', 'i', 'n', 'i', 't', 'y', 'n', 'a'] := h
    refine ⟨?_, ?_, ?_⟩ <;> rintro rfl <;> apply hn
    · have : lowerChar c ∈ ['i', 'n', 'f'] := hcs
      simp at this ⊢; grind
    · have : lowerChar c ∈ ['i', 'n', 'f', 'i', 'n', 'i', 't', 'y'] := hcs
      simp at this ⊢; grind
    · have : lowerChar c ∈ ['n', 'a', 'n'] := hcs
      simp at this ⊢; grind
  have hs : lowerChar c ≠ '-' ∧ lowerChar c ≠ '+' := by
    constructor <;> intro e <;> rw [e] at h <;> exact h (by decide)
  unfold specialOf
  have hl : ∀ l : List Char, lowerChar c ∈ l → (match l with
      | '-' :: cs => if cs = "inf".toList ∨ cs = "infinity".toList then some (env.inf true) else none
      | '+' :: cs => if cs = "inf".toList ∨ cs = "infinity".toList then some (env.inf false) else none
      | cs => if cs = "inf".toList ∨ cs = "infinity".toList then some (env.inf false) else if cs = "nan".toList then some env.nan else none) = none := by
    intro l hm
    split
    · obtain ⟨h1, h2, _⟩ := key _ ((List.mem_cons.1 hm).resolve_left hs.1)
      rw [if_neg (not_or.2 ⟨h1, h2⟩)]
    · obtain ⟨h1, h2, _⟩ := key _ ((List.mem_cons.1 hm).resolve_left hs.2)
      rw [if_neg (not_or.2 ⟨h1, h2⟩)]
    · obtain ⟨h1, h2, h3⟩ := key _ hm
      rw [if_neg (not_or.2 ⟨h1, h2⟩), if_neg h3]
  exact hl _ (List.mem_map_of_mem hc)

theorem lowMinus_digit {c : Char} {s : List Char} (h : Digit c) (hc : c ∈ s) : c ∈ lowMinusAll s :=
  List.mem_map.2 ⟨c, hc, if_neg (digit_ne h).2.2.1⟩

theorem special_digit (env : FloatEnv F) (s : List Char) (c : Char) (hc : c ∈ s) (h : Digit c) : specialOf env s = none := by
  refine special_none env s c hc ?_
  rw [lowerChar_digit h]
  have := digit_range h
  intro hm
  have hm : c ∈ ['-', '+', 'i', 'n', 'f', 'i', 'n', 'i', 't', 'y', 'n', 'a'] := hm
  simp only [List.mem_cons, List.not_mem_nil, or_false] at hm
  rcases hm with rfl | rfl | rfl | rfl | rfl | rfl | rfl | rfl | rfl | rfl | rfl | rfl <;> revert this <;> decide

theorem lowMinus_digits (ds : List Char) (h : ∀ c ∈ ds, Digit c) : lowMinusAll ds = ds := unhigh_none ds (fun c hc => (digit_ne (h c hc)).2.2.1)

theorem lowMinus_append (a b : List Char) : lowMinusAll (a ++ b) = lowMinusAll a ++ lowMinusAll b := List.map_append

theorem readDecimal_sign (env : FloatEnv F) (neg : Bool) (s : List Char) (p : Nat × Int) (hs : decimalSyntax s = some p) (h : ∀ c, s.head? = some c → c ≠ '-' ∧ c ≠ '+') :
    readDecimal env ((if neg then ['-'] else []) ++ s) = roundDecimal env neg p := by
  cases neg with
  | true =>
    show readDecimal env ('-' :: s) = _
    rw [readDecimal, hs]; rfl
  | false =>
    show readDecimal env s = _
    rw [readDecimal.eq_def]
    split
    · exact absurd rfl (h '-' rfl).1
    · exact absurd rfl (h '+' rfl).2
    · rw [hs]; rfl

theorem low_sign (neg : Bool) : lowMinusAll (if neg then ['¯'] else []) = if neg then ['-'] else [] := by cases neg <;> decide

theorem exp_last (t : List Char) (e : Int) (h : ExpText t e) (hne : t ≠ []) : (lowMinusAll t).getLast? ≠ some '.' := by
  intro hl
  have hm := List.mem_of_getLast? hl
  cases h with
  | none => exact hne rfl
  | some c e hc =>
    have h1 : lowMinusAll (intNumeral e) = signText false 10 e := by rw [← (C88_text e 0).1]; exact bigIntText_low e
    have h2 : lowMinusAll (c :: intNumeral e) = c :: signText false 10 e := by
      rw [← h1, lowMinusAll, List.map_cons, if_neg (by rcases hc with rfl | rfl <;> decide)]; rfl
    rw [h2] at hm
    rcases List.mem_cons.1 hm with h | h
    · rcases hc with rfl | rfl <;> revert h <;> decide
    · rcases signText_chars e '.' h with h | h
      · exact (digit_ne h).2.2.2.2.2.1 rfl
      · revert h; decide

theorem trimDot_of (s : List Char) (h : s.getLast? ≠ some '.') : trimDot s = s := if_neg h

/-- Reading a decimal number gives the nearest floating point number. -/
theorem parseFloat_decimal (env : FloatEnv F) {s : List Char} {neg : Bool} {m : Nat} {k : Int} (h : DecimalText s neg m k) :
    parseFloat env s = env.round neg ((m : ℚ) * (10 : ℚ) ^ k) := by
  have fin : ∀ (a t : List Char) (e : Int), (∀ c ∈ a, Digit c) → a ≠ [] → ExpText t e →
      goParseFloat env ((if neg then ['-'] else []) ++ (a ++ lowMinusAll t)) = env.round neg ((decimal a : ℚ) * (10 : ℚ) ^ e) := by
    intro a t e ha hne ht
    obtain ⟨c, cs, rfl⟩ := List.exists_cons_of_ne_nil hne
    rw [goParseFloat, special_digit env _ c (by simp) (ha c (by simp))]
    simp only
    rw [readDecimal_sign env neg _ _ (decimalSyntax_plain _ t e ha hne ht) (by
      intro d hd; simp at hd; subst hd; exact ⟨(digit_ne (ha _ (by simp))).1, (digit_ne (ha _ (by simp))).2.1⟩)]
    rfl
  have notdot : ∀ (l : List Char), (∀ c ∈ l, Digit c) → l.getLast? ≠ some '.' := by
    intro l hl h
    exact (digit_ne (hl '.' (List.mem_of_getLast? h))).2.2.2.2.2.1 rfl
  cases h with
  | whole _ a t _ ha hne ht =>
    have hl : lowMinusAll ((if neg then ['¯'] else []) ++ a ++ t) = (if neg then ['-'] else []) ++ (a ++ lowMinusAll t) := by
      rw [lowMinus_append, lowMinus_append, low_sign, lowMinus_digits a ha, List.append_assoc]
    rw [parseFloat, hl, trimDot_of]
    · exact fin a t k ha hne ht
    · rw [List.getLast?_append, List.getLast?_append]
      by_cases h0 : t = []
      · subst h0
        have : (lowMinusAll []).getLast? = none := rfl
        rw [this]
        have hn := notdot a ha
        cases ha' : a.getLast? with
        | none => exact absurd (List.getLast?_eq_none_iff.1 ha') hne
        | some c => rw [ha'] at hn; simpa using hn
      · have hn := exp_last t k ht h0
        cases ht' : (lowMinusAll t).getLast? with
        | none =>
          have := List.getLast?_eq_none_iff.1 ht'
          exact absurd (List.map_eq_nil_iff.1 this) h0
        | some c => rw [ht'] at hn; simpa using hn
  | dot _ a b t e ha hb hne ht =>
    have hl : lowMinusAll ((if neg then ['¯'] else []) ++ a ++ '.' :: b ++ t) = (if neg then ['-'] else []) ++ (a ++ '.' :: (b ++ lowMinusAll t)) := by
      have : lowMinusAll ('.' :: b) = '.' :: b := by
        rw [lowMinusAll, List.map_cons, if_neg (by decide)]; exact congrArg _ (lowMinus_digits b hb)
      rw [lowMinus_append, lowMinus_append, lowMinus_append, low_sign, lowMinus_digits a ha, this]
      simp
    rw [parseFloat, hl]
    by_cases h0 : b ++ lowMinusAll t = []
    · obtain ⟨h1, h2⟩ := List.append_eq_nil_iff.1 h0
      have ht0 : t = [] := List.map_eq_nil_iff.1 h2
      subst h1 ht0
      have e0 : e = 0 := by cases ht; rfl
      subst e0
      have ha0 : a ≠ [] := by simpa using hne
      have : trimDot ((if neg then ['-'] else []) ++ (a ++ '.' :: ([] ++ lowMinusAll []))) = (if neg then ['-'] else []) ++ (a ++ lowMinusAll []) := by
        have hx : (if neg then ['-'] else []) ++ (a ++ '.' :: ([] ++ lowMinusAll [])) = ((if neg then ['-'] else []) ++ a) ++ ['.'] := by
          simp [lowMinusAll]
        rw [hx, trimDot, if_pos (by simp), List.dropLast_concat]
        simp [lowMinusAll]
      rw [this, fin a [] 0 ha ha0 .none]
      simp
    · rw [trimDot_of]
      · obtain ⟨c, hc, hd⟩ : ∃ c ∈ a ++ b, Digit c := by
          obtain ⟨c, cs, hc⟩ := List.exists_cons_of_ne_nil hne
          have hm : c ∈ a ++ b := by rw [hc]; simp
          exact ⟨c, hm, (List.mem_append.1 hm).elim (ha c) (hb c)⟩
        rw [goParseFloat, special_digit env _ c (by simp only [List.mem_append, List.mem_cons] at hc ⊢; grind) hd]
        simp only
        rw [readDecimal_sign env neg _ _ (decimalSyntax_dot a b t e ha hb hne ht)]
        · rfl
        · intro d hd
          cases a with
          | nil => simp at hd; subst hd; decide
          | cons x xs => simp at hd; subst hd; exact ⟨(digit_ne (ha _ (by simp))).1, (digit_ne (ha _ (by simp))).2.1⟩
      · rw [List.getLast?_append, List.getLast?_append, List.getLast?_cons_of_ne_nil h0, List.getLast?_append]
        by_cases h1 : t = []
        · subst h1
          have : (lowMinusAll []).getLast? = none := rfl
          rw [this]
          have hn := notdot b hb
          cases hb' : b.getLast? with
          | none =>
            have := List.getLast?_eq_none_iff.1 hb'
            subst this; exact absurd rfl h0
          | some c => rw [hb'] at hn; simpa using hn
        · have hn := exp_last t e ht h1
          cases ht' : (lowMinusAll t).getLast? with
          | none =>
            have := List.getLast?_eq_none_iff.1 ht'
            exact absurd (List.map_eq_nil_iff.1 this) h1
          | some c => rw [ht'] at hn; simpa using hn

theorem takeWhile_mem {α : Type} (p : α → Bool) (l : List α) (c : α) (h : c ∈ l.takeWhile p) : p c = true := by
  induction l with
  | nil => cases h
  | cons x xs ih =>
    rw [List.takeWhile_cons] at h
    split at h
    · rename_i hx
      rcases List.mem_cons.1 h with rfl | h
      · exact hx
      · exact ih h
    · cases h

/-- a text with a character that is in no decimal number -/
theorem decimalSyntax_bad (s : List Char) (c : Char) (hc : c ∈ s) (h : ¬ Digit c) (h2 : c ∉ ['.', 'e', 'E', '-', '+']) : decimalSyntax s = none := by
  have hsplit : ∀ l : List Char, c ∈ l → c ∈ l.dropWhile isDec := by
    intro l hl
    rw [← List.takeWhile_append_dropWhile (p := isDec) (l := l)] at hl
    rcases List.mem_append.1 hl with h' | h'
    · exact absurd ((isDec_iff c).1 (takeWhile_mem isDec l c h')) h
    · exact h'
  have hexp : ∀ l : List Char, c ∈ l → scanExp l = none := by
    intro l hl
    have hset : ∀ t, c ∈ t → setInt10 t = none := by
      intro t ht
      refine setInt_bad digits1 setInt10 (fun t => c ∈ t) t ?_ ht ?_ (fun s => by rw [setInt10.eq_def]; rfl)
      · intro t ht
        rw [digits1]
        split
        · rfl
        · refine digitsVal_bad 10 0 t c ht ?_
          intro d hd hlt
          rw [digitVal] at hd
          split at hd
          · rename_i hdig; exact h hdig
          · split at hd
            · injection hd with hd; omega
            · split at hd
              · injection hd with hd; omega
              · cases hd
      · intro d t ht hd
        rcases List.mem_cons.1 ht with e | ht
        · subst e; rcases hd with rfl | rfl <;> exact absurd (by decide) h2
        · exact ht
    rw [scanExp.eq_def]
    split
    · cases hl
    · refine hset _ ((List.mem_cons.1 hl).resolve_left ?_); rintro rfl; exact h2 (by decide)
    · refine hset _ ((List.mem_cons.1 hl).resolve_left ?_); rintro rfl; exact h2 (by decide)
    · rfl
  have hof : ∀ a b rest, c ∈ rest → decimalOf a b rest = none := by
    intro a b rest hr
    rw [decimalOf, hexp rest hr]
    cases digits1 (a ++ b) <;> rfl
  rw [decimalSyntax, decimalRest.eq_def]
  have := hsplit s hc
  split
  · rename_i cs heq
    rw [heq] at this
    refine hof _ _ _ (hsplit cs ((List.mem_cons.1 this).resolve_left ?_)); rintro rfl; exact h2 (by decide)
  · exact hof _ _ _ this

theorem readDecimal_bad (env : FloatEnv F) (s : List Char) (c : Char) (hc : c ∈ s) (h : ¬ Digit c) (h2 : c ∉ ['.', 'e', 'E', '-', '+']) : readDecimal env s = none := by
  have h3 : c ≠ '-' ∧ c ≠ '+' := by constructor <;> rintro rfl <;> exact h2 (by decide)
  rw [readDecimal.eq_def]
  split
  · rw [decimalSyntax_bad _ c ((List.mem_cons.1 hc).resolve_left h3.1) h h2]; rfl
  · rw [decimalSyntax_bad _ c ((List.mem_cons.1 hc).resolve_left h3.2) h h2]; rfl
  · rw [decimalSyntax_bad _ c hc h h2]; rfl

/-- a text with a digit and with a letter other than e -/
theorem parseFloat_bad (env : FloatEnv F) (s : List Char) (c d : Char) (hc : c ∈ s) (h : ¬ Digit c) (h2 : c ∉ ['.', 'e', 'E', '-', '+', '¯']) (hd : d ∈ s) (hdd : Digit d) :
    parseFloat env s = none := by
  have trim : ∀ x : Char, x ≠ '.' → x ∈ lowMinusAll s → x ∈ trimDot (lowMinusAll s) := by
    intro x hx hm
    rw [trimDot]
    split
    · rename_i hl
      have := List.dropLast_append_getLast? '.' hl
      rw [← this] at hm
      rcases List.mem_append.1 hm with h | h
      · exact h
      · exact absurd (List.mem_singleton.1 h) hx
    · exact hm
  have hc' : c ∈ lowMinusAll s := List.mem_map.2 ⟨c, hc, if_neg (by rintro rfl; exact h2 (by decide))⟩
  rw [parseFloat, goParseFloat, special_digit env _ d (trim d (digit_ne hdd).2.2.2.2.2.1 (lowMinus_digit hdd hd)) hdd]
  simp only
  exact readDecimal_bad env _ c (trim c (by rintro rfl; exact h2 (by decide)) hc') h (by simp at h2 ⊢; grind)

theorem cutAt_append (x : Char) (a b : List Char) (h : ∀ c ∈ a, c ≠ x) : cutAt x (a ++ x :: b) = some (a, b) := by
  induction a with
  | nil => simp [cutAt]
  | cons c cs ih => rw [List.cons_append, cutAt, if_neg (h c (by simp)), ih (fun d hd => h d (by simp [hd]))]; rfl

theorem cutAt_none (x : Char) (s : List Char) (h : ∀ c ∈ s, c ≠ x) : cutAt x s = none := by
  induction s with
  | nil => rfl
  | cons c cs ih => rw [cutAt, if_neg (h c (by simp)), ih (fun d hd => h d (by simp [hd]))]; rfl

theorem decChar_ne {c : Char} (h : DecChar c) (x : Char) (hx : ¬ DecChar x) : c ≠ x := by rintro rfl; exact hx h

theorem not_decChar : ¬ DecChar 'a' ∧ ¬ DecChar 'J' ∧ ¬ DecChar 'j' ∧ ¬ DecChar 'x' ∧ ¬ DecChar 'b' := by
  unfold DecChar Digit; decide

/-- numbers that are no integers: in a text of decimal characters and letters without prefixes, one character that is no digit -/
theorem not_int64 (s : List Char) (c : Char) (hc : c ∈ s) (hnd : ¬ Digit c) (hs : ∀ d ∈ s, d ∉ ['b', 'B', 'o', 'O', 'x', 'X', '+', '-']) (hm : c ≠ '¯') : parseInt s = none := by
  have hlow : ∀ d ∈ lowMinusAll s, d ∉ ['b', 'B', 'o', 'O', 'x', 'X', '+'] := by
    intro d hd
    obtain ⟨e, he, rfl⟩ := List.mem_map.1 hd
    split
    · decide
    · have := hs e he; simp at this ⊢; grind
  have hc' : c ∈ lowMinusAll s := List.mem_map.2 ⟨c, hc, if_neg hm⟩
  have hcm : c ≠ '-' := by rintro rfl; exact hs _ hc (by decide)
  have hval : ∀ base, base ≤ 10 → ∀ t : List Char, c ∈ t → digitsVal base 0 t = none := by
    intro base hb t ht
    refine digitsVal_bad base 0 t c ht ?_
    intro d hd hlt
    rw [digitVal] at hd
    split at hd
    · rename_i hdig; exact hnd hdig
    · split at hd
      · injection hd with hd; omega
      · split at hd
        · injection hd with hd; omega
        · cases hd
  have h0 : c ≠ '0' := by rintro rfl; exact hnd (by unfold Digit; decide)
  have huint : ∀ t : List Char, c ∈ t → (∀ d ∈ t, d ∉ ['b', 'B', 'o', 'O', 'x', 'X', '+']) → parseUint t = none := by
    intro t ht hb
    rw [parseUint.eq_def]
    split
    · rfl
    · exact absurd (by decide) (hb 'b' (by simp))
    · exact absurd (by decide) (hb 'B' (by simp))
    · exact absurd (by decide) (hb 'o' (by simp))
    · exact absurd (by decide) (hb 'O' (by simp))
    · exact absurd (by decide) (hb 'x' (by simp))
    · exact absurd (by decide) (hb 'X' (by simp))
    · exact hval 8 (by decide) _ ((List.mem_cons.1 ht).resolve_left h0)
    · exact hval 10 (by decide) _ ht
  show parseInt64 (lowMinusAll s) = none
  rw [parseInt64.eq_def]
  split
  · rename_i cs heq
    rw [heq] at hc' hlow
    rw [huint cs ((List.mem_cons.1 hc').resolve_left hcm) (fun d hd => hlow d (by simp [hd]))]; rfl
  · rename_i cs heq
    rw [heq] at hlow
    exact absurd (by decide) (hlow '+' (by simp))
  · rw [huint _ hc' hlow]; rfl

/-- The order in which the tower asks. -/
theorem parseDef_eq (env : FloatEnv F) (time : List Char → Option Int) (s : List Char) (h : s ≠ "1b".toList ∧ s ≠ "0b".toList) :
    parseDef env time s = match parseInt s with
      | some i => some (.int i)
      | none => match parseFloat env s with
        | some x => some (.num 0 (.float x))
        | none => match parseComplex env s with
          | some p => some (.num 1 (.cplx p.1 p.2))
          | none => (time s).map (fun t => .num 2 (.time t)) := by
  rw [parseDef, parseNumber, if_neg h.1, if_neg h.2]
  cases parseInt s with
  | some i => rfl
  | none =>
    simp only [parseClass, defParse]
    cases parseFloat env s with
    | some x => rfl
    | none =>
      cases parseComplex env s with
      | some p => rfl
      | none => cases ht : time s <;> simp [defParse, ht]

theorem decChar_prefix {d : Char} (h : DecChar d) : d ∉ ['b', 'B', 'o', 'O', 'x', 'X', '+', '-'] := by
  intro hm
  simp only [List.mem_cons, List.not_mem_nil, or_false] at hm
  rcases hm with rfl | rfl | rfl | rfl | rfl | rfl | rfl | rfl <;> revert h <;> unfold DecChar Digit <;> decide

theorem bool_text_dec (s : List Char) (h : ∀ c ∈ s, c ≠ 'b') : s ≠ "1b".toList ∧ s ≠ "0b".toList := by
  constructor <;> rintro rfl <;> exact h 'b' (by decide) rfl

/- ## Theorems -/

/-- A decimal number with a dot or an exponent is a floating point number: the one nearest to the value that is written. -/
theorem C89_float (env : FloatEnv F) (time : List Char → Option Int) (s : List Char) (x : F) (h : Writes' env s x) (hd : '.' ∈ s ∨ 'e' ∈ s ∨ 'E' ∈ s) :
    parseDef env time s = some (.num 0 (.float x)) := by
  obtain ⟨neg, m, k, ht, hr⟩ := h
  have hc := decimal_chars ht
  have hn : parseInt s = none := by
    rcases hd with h | h | h
    · exact not_int64 s _ h (by unfold Digit; decide) (fun d hd => decChar_prefix (hc d hd)) (by decide)
    · exact not_int64 s _ h (by unfold Digit; decide) (fun d hd => decChar_prefix (hc d hd)) (by decide)
    · exact not_int64 s _ h (by unfold Digit; decide) (fun d hd => decChar_prefix (hc d hd)) (by decide)
  rw [parseDef_eq env time s (bool_text_dec s (fun c hm => decChar_ne (hc c hm) 'b' not_decChar.2.2.2.2)), hn, parseFloat_decimal env ht, hr]

/-- A whole number that does not fit into 64 bits is the nearest floating point number. -/
theorem C89_large (env : FloatEnv F) (time : List Char → Option Int) (i : Int) (hi : ¬ (-2 ^ 63 ≤ i ∧ i < 2 ^ 63)) (x : F)
    (h : env.round (decide (i < 0)) (i.natAbs : ℚ) = some x) : parseDef env time (intNumeral i) = some (.num 0 (.float x)) := by
  have htd : ∀ u : Nat, decimal (Nat.toDigits 10 u) = u := by
    intro u
    have h1 := digits1_decimal (natText false 10 u) (natText_ne false 10 (by decide) (by decide) u) (natText_plain u)
    rw [digits1_natText, natText_toDigits] at h1
    injection h1 with h1; exact h1.symm
  have hdt : DecimalText (intNumeral i) (decide (i < 0)) i.natAbs 0 := by
    have hd : ∀ c ∈ Nat.toDigits 10 i.natAbs, Digit c := by rw [← natText_toDigits]; exact natText_plain _
    have hne : Nat.toDigits 10 i.natAbs ≠ [] := by rw [← natText_toDigits]; exact natText_ne false 10 (by decide) (by decide) _
    have := DecimalText.whole (decide (i < 0)) _ [] 0 hd hne .none
    rw [htd] at this
    rw [intNumeral]
    by_cases h : i < 0 <;> simpa [h] using this
  have hc := decimal_chars hdt
  have hp : parseInt (intNumeral i) = none := by
    rw [← (C88_text i 0).1]
    exact parseInt_big i (by unfold I64; omega)
  rw [parseDef_eq env time _ (bool_text_dec _ (fun c hm => decChar_ne (hc c hm) 'b' not_decChar.2.2.2.2)), hp, parseFloat_decimal env hdt]
  simp only [zpow_zero, mul_one]
  rw [h]

/-- Two decimal numbers with J or j between them are a complex number with these parts. -/
theorem C89_complex (env : FloatEnv F) (time : List Char → Option Int) (p q : List Char) (re im : F) (hp : Writes' env p re) (hq : Writes' env q im)
    (j : Char) (hj : j = 'J' ∨ j = 'j') : parseDef env time (p ++ j :: q) = some (.num 1 (.cplx re im)) := by
  obtain ⟨n1, m1, k1, t1, r1⟩ := hp
  obtain ⟨n2, m2, k2, t2, r2⟩ := hq
  have hc1 := decimal_chars t1
  have hc2 := decimal_chars t2
  have hmem : ∀ x : Char, ¬ DecChar x → x ≠ j → ∀ c ∈ p ++ j :: q, c ≠ x := by
    intro x hx hxj c hc
    rcases List.mem_append.1 hc with h | h
    · exact decChar_ne (hc1 c h) x hx
    · rcases List.mem_cons.1 h with rfl | h
      · exact fun e => hxj e.symm
      · exact decChar_ne (hc2 c h) x hx
  have hjd : ¬ Digit j := by rcases hj with rfl | rfl <;> unfold Digit <;> decide
  obtain ⟨d, hd1, hd2⟩ := decimal_digit t1
  have hpre : ∀ d ∈ p ++ j :: q, d ∉ ['b', 'B', 'o', 'O', 'x', 'X', '+', '-'] := by
    intro d hd
    rcases List.mem_append.1 hd with h | h
    · exact decChar_prefix (hc1 d h)
    · rcases List.mem_cons.1 h with rfl | h
      · rcases hj with rfl | rfl <;> decide
      · exact decChar_prefix (hc2 d h)
  have hint : parseInt (p ++ j :: q) = none := not_int64 _ j (by simp) hjd hpre (by rcases hj with rfl | rfl <;> decide)
  have hflt : parseFloat env (p ++ j :: q) = none :=
    parseFloat_bad env _ j d (by simp) hjd (by rcases hj with rfl | rfl <;> decide) (by simp [hd1]) hd2
  have htwo : parseTwo env (fun x y => (x, y)) p q = some (re, im) := by
    rw [parseTwo, parseFloat_decimal env t1, r1]
    simp only
    rw [parseFloat_decimal env t2, r2]
  have hcx : parseComplex env (p ++ j :: q) = some (re, im) := by
    rw [parseComplex, cutAt_none 'a' _ (hmem 'a' not_decChar.1 (by rcases hj with rfl | rfl <;> decide)), parseRect]
    simp only
    rcases hj with rfl | rfl
    · rw [cutAt_append 'J' p q (fun c hc => decChar_ne (hc1 c hc) 'J' not_decChar.2.1)]
      exact htwo
    · rw [cutAt_none 'J' _ (hmem 'J' not_decChar.2.1 (by decide)), cutAt_append 'j' p q (fun c hc => decChar_ne (hc1 c hc) 'j' not_decChar.2.2.1)]
      exact htwo
  rw [parseDef_eq env time _ (bool_text_dec _ (hmem 'b' not_decChar.2.2.2.2 (by rcases hj with rfl | rfl <;> decide))), hint, hflt, hcx]

/-- Two decimal numbers with the letter a between them are a complex number in polar form; for the angles 0, 90, 180 and 270 degrees the parts are exact. -/
theorem C89_polar (env : FloatEnv F) (time : List Char → Option Int) (p q : List Char) (mag deg : F) (hp : Writes' env p mag) (hq : Writes' env q deg)
    (hz : ∀ n ∈ [(0 : Int), 90, 180, 270], ∀ m ∈ [(0 : Int), 90, 180, 270], env.eqInt deg n = true → env.eqInt deg m = true → n = m) :
    ∃ re im, parseDef env time (p ++ 'a' :: q) = some (.num 1 (.cplx re im)) ∧
      (env.eqInt deg 0 = true → re = mag ∧ im = env.zero) ∧ (env.eqInt deg 90 = true → re = env.zero ∧ im = mag) ∧
      (env.eqInt deg 180 = true → re = env.neg mag ∧ im = env.zero) ∧ (env.eqInt deg 270 = true → re = env.zero ∧ im = env.neg mag) ∧
      ((∀ n ∈ [(0 : Int), 90, 180, 270], env.eqInt deg n = false) → (re, im) = env.rect mag deg) := by
  obtain ⟨n1, m1, k1, t1, r1⟩ := hp
  obtain ⟨n2, m2, k2, t2, r2⟩ := hq
  have hc1 := decimal_chars t1
  have hc2 := decimal_chars t2
  have hmem : ∀ x : Char, ¬ DecChar x → x ≠ 'a' → ∀ c ∈ p ++ 'a' :: q, c ≠ x := by
    intro x hx hxj c hc
    rcases List.mem_append.1 hc with h | h
    · exact decChar_ne (hc1 c h) x hx
    · rcases List.mem_cons.1 h with rfl | h
      · exact fun e => hxj e.symm
      · exact decChar_ne (hc2 c h) x hx
  obtain ⟨d, hd1, hd2⟩ := decimal_digit t1
  have hpre : ∀ d ∈ p ++ 'a' :: q, d ∉ ['b', 'B', 'o', 'O', 'x', 'X', '+', '-'] := by
    intro d hd
    rcases List.mem_append.1 hd with h | h
    · exact decChar_prefix (hc1 d h)
    · rcases List.mem_cons.1 h with rfl | h
      · decide
      · exact decChar_prefix (hc2 d h)
  have hint : parseInt (p ++ 'a' :: q) = none := not_int64 _ 'a' (by simp) (by unfold Digit; decide) hpre (by decide)
  have hflt : parseFloat env (p ++ 'a' :: q) = none :=
    parseFloat_bad env _ 'a' d (by simp) (by unfold Digit; decide) (by decide) (by simp [hd1]) hd2
  have hcx : parseComplex env (p ++ 'a' :: q) = some (polar env mag deg) := by
    rw [parseComplex, cutAt_append 'a' p q (fun c hc => decChar_ne (hc1 c hc) 'a' not_decChar.1)]
    simp only
    rw [parseTwo, parseFloat_decimal env t1, r1]
    simp only
    rw [parseFloat_decimal env t2, r2]
  refine ⟨(polar env mag deg).1, (polar env mag deg).2, ?_, ?_, ?_, ?_, ?_, ?_⟩
  · rw [parseDef_eq env time _ (bool_text_dec _ (hmem 'b' not_decChar.2.2.2.2 (by decide))), hint, hflt, hcx]
  · intro h; rw [polar, if_pos h]; exact ⟨rfl, rfl⟩
  · intro h
    have h0 : env.eqInt deg 0 ≠ true := fun e => by have := hz 0 (by simp) 90 (by simp) e h; omega
    rw [polar, if_neg h0, if_pos h]; exact ⟨rfl, rfl⟩
  · intro h
    have h0 : env.eqInt deg 0 ≠ true := fun e => by have := hz 0 (by simp) 180 (by simp) e h; omega
    have h1 : env.eqInt deg 90 ≠ true := fun e => by have := hz 90 (by simp) 180 (by simp) e h; omega
    rw [polar, if_neg h0, if_neg h1, if_pos h]; exact ⟨rfl, rfl⟩
  · intro h
    have h0 : env.eqInt deg 0 ≠ true := fun e => by have := hz 0 (by simp) 270 (by simp) e h; omega
    have h1 : env.eqInt deg 90 ≠ true := fun e => by have := hz 90 (by simp) 270 (by simp) e h; omega
    have h2 : env.eqInt deg 180 ≠ true := fun e => by have := hz 180 (by simp) 270 (by simp) e h; omega
    rw [polar, if_neg h0, if_neg h1, if_neg h2, if_pos h]; exact ⟨rfl, rfl⟩
  · intro h
    have h' : ∀ n ∈ [(0 : Int), 90, 180, 270], env.eqInt deg n ≠ true := fun n hn e => by rw [h n hn] at e; cases e
    rw [polar, if_neg (h' 0 (by simp)), if_neg (h' 90 (by simp)), if_neg (h' 180 (by simp)), if_neg (h' 270 (by simp))]

/-- A complex number whose parts can be read back is read back as the same complex number, for every precision down to ¯1. -/
theorem C89_complex_round_trip (env : FloatEnv F) (time : List Char → Option Int) (pp : Int) (h : -1 ≤ pp) (re im : F)
    (h1 : Writes' env (floatText env pp re) re) (h2 : Writes' env (floatText env pp im) im) :
    parseDef env time (complexText env pp re im) = some (.num 1 (.cplx re im)) := by
  have ht : complexText env pp re im = floatText env pp re ++ 'J' :: floatText env pp im := by
    rw [complexText, floatText, floatText, if_neg (show ¬ pp = -2 by omega)]
    unfold minusOf
    rw [if_neg (show ¬ pp < -1 by omega), if_neg (show ¬ pp < -1 by omega), if_neg (show ¬ pp < -1 by omega)]
    simp [highMinusAll]
  rw [ht]
  exact C89_complex env time _ _ re im h1 h2 'J' (.inl rfl)

/- ## Exceptions -/

/-- Two dots at the end are accepted: `2..` is two. -/
theorem C89_two_dots (env : FloatEnv F) (time : List Char → Option Int) (x : F) (h : env.round false (2 * 10 ^ (0 : Int)) = some x) :
    parseDef env time "2..".toList = some (.num 0 (.float x)) := by
  have h1 : parseFloat env "2..".toList = env.round false (((2 : Nat) : ℚ) * 10 ^ (0 : Int)) := rfl
  rw [parseDef_eq env time _ (by decide), show parseInt "2..".toList = none by decide, h1, Nat.cast_ofNat, h]

/-- The word inf after a high minus is a number: minus infinity. -/
theorem C89_infinity (env : FloatEnv F) (time : List Char → Option Int) : parseDef env time "¯Inf".toList = some (.num 0 (.float (env.inf true))) := by
  have h1 : parseFloat env "¯Inf".toList = some (env.inf true) := rfl
  rw [parseDef_eq env time _ (by decide), show parseInt "¯Inf".toList = none by decide, h1]

/-- For PP below ¯1 a negative floating point number is written with a plain minus, which is no part of a number: the scanner does not read it back.
(A negative integer is always written with a high minus, also in JSON.) -/
theorem C89_json_minus (env : FloatEnv F) (pp : Int) (h : pp < -1) (x : F) (cs : List Char) (hx : env.text none x = '-' :: cs) :
    ∃ cs, floatText env pp x = '-' :: cs ∧ ¬ InNumber '-' := by
  refine ⟨cs, ?_, by unfold InNumber Digit; decide⟩
  rw [floatText, precOf, if_pos (by omega), hx, minusOf, if_pos h]

/- ## Example: exact arithmetic in place of floating point numbers -/

namespace NumDemo

/-- floating point numbers that are exact, with two digits after the dot -/
def env : FloatEnv ℚ where
  round := fun neg q => some (if neg then -q else q)
  inf := fun _ => 0
  nan := 0
  neg := fun q => -q
  eqInt := fun q n => decide (q = n)
  zero := 0
  rect := fun f d => (f * d, f)
  text := fun _ q => signText false 10 q.num ++ ['.', '0']

theorem writes_half : Writes' env "1.5".toList (3 / 2) := by
  refine ⟨false, _, _, .dot false ['1'] ['5'] [] 0 (by unfold Digit; decide) (by unfold Digit; decide) (by decide) .none, ?_⟩
  show some _ = some _
  congr 1
  have : decimal (['1'] ++ ['5']) = 15 := by decide
  rw [this]; norm_num

theorem writes_neg : Writes' env "¯2e3".toList (-2000) := by
  refine ⟨true, _, _, .whole true ['2'] ['e', '3'] 3 (by unfold Digit; decide) (by decide) (.some 'e' 3 (.inl rfl)), ?_⟩
  show some _ = some _
  congr 1
  have : decimal ['2'] = 2 := by decide
  rw [this]; norm_num

theorem writes_ninety : Writes' env "90".toList 90 := by
  refine ⟨false, _, _, .whole false ['9', '0'] [] 0 (by unfold Digit; decide) (by decide) .none, ?_⟩
  show some _ = some _
  congr 1
  have : decimal ['9', '0'] = 90 := by decide
  rw [this]; norm_num

example : parseDef env (fun _ => none) "1.5".toList = some (.num 0 (.float (3 / 2))) := C89_float env _ _ _ writes_half (by decide)

example : parseDef env (fun _ => none) "1.5J¯2e3".toList = some (.num 1 (.cplx (3 / 2) (-2000))) :=
  C89_complex env _ "1.5".toList "¯2e3".toList _ _ writes_half writes_neg 'J' (.inl rfl)

example : parseDef env (fun _ => none) "1.5a90".toList = some (.num 1 (.cplx 0 (3 / 2))) := by
  obtain ⟨re, im, h1, _, h2, _⟩ := C89_polar env (fun _ => none) "1.5".toList "90".toList _ _ writes_half writes_ninety (by
    intro n hn m hm h1 h2
    have h1 : (90 : ℚ) = n := of_decide_eq_true h1
    have h2 : (90 : ℚ) = m := of_decide_eq_true h2
    exact_mod_cast h1.symm.trans h2)
  obtain ⟨rfl, rfl⟩ := h2 (show decide ((90 : ℚ) = ((90 : Int) : ℚ)) = true from decide_eq_true (by norm_num))
  exact h1

/-- the hypotheses of the round trip are met -/
example : Writes' env (floatText env 0 (-3)) (-3) ∧ Writes' env (floatText env 0 7) 7 := by
  have h1 : floatText env 0 (-3) = "¯3.0".toList := by decide +kernel
  have h2 : floatText env 0 7 = "7.0".toList := by decide +kernel
  rw [h1, h2]
  constructor
  · refine ⟨true, _, _, .dot true ['3'] ['0'] [] 0 (by unfold Digit; decide) (by unfold Digit; decide) (by decide) .none, ?_⟩
    show some _ = some _
    congr 1
    have : decimal (['3'] ++ ['0']) = 30 := by decide
    rw [this]; norm_num
  · refine ⟨false, _, _, .dot false ['7'] ['0'] [] 0 (by unfold Digit; decide) (by unfold Digit; decide) (by decide) .none, ?_⟩
    show some _ = some _
    congr 1
    have : decimal (['7'] ++ ['0']) = 70 := by decide
    rw [this]; norm_num

example : parseDef env (fun _ => none) (intNumeral (-2 ^ 64)) = some (.num 0 (.float (-(2 ^ 64)))) := by
  refine C89_large env _ (-2 ^ 64) (by norm_num) _ ?_
  show some _ = some _
  congr 1

end NumDemo

end Iv
