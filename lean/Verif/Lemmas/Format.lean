import Verif.Model.Format
import Verif.SpecScan
import Verif.Lemmas.Scan
import Verif.Lemmas.Shape
import Mathlib.Tactic.IntervalCases
/-
Lemmas about the texts of numbers, strings and arrays.
-/
namespace Iv
variable {V O : Type}

/- ## Digits -/

theorem digitVal_digitChar (up : Bool) (d : Nat) (h : d < 16) : digitVal (digitChar up d) = some d := by
  cases up <;> interval_cases d <;> decide

theorem digitChar_number (up : Bool) (d : Nat) (h : d < 16) : InNumber (digitChar up d) := by
  rw [← numChar_iff]
  cases up <;> interval_cases d <;> decide

theorem digitChar_zero (up : Bool) (d : Nat) (h : d < 16) : digitChar up d = '0' ↔ d = 0 := by
  cases up <;> interval_cases d <;> decide

theorem digitChar_digit (up : Bool) (d : Nat) (h : d < 10) : Digit (digitChar up d) := by
  rw [← isDigit_iff]
  cases up <;> interval_cases d <;> decide

theorem digitsLoop_acc (up : Bool) (base n u : Nat) (acc : List Char) :
    digitsLoop up base n u acc = digitsLoop up base n u [] ++ acc := by
  induction n generalizing u acc with
  | zero => rfl
  | succ n ih =>
    rw [digitsLoop, digitsLoop]
    by_cases h : u < base
    · rw [if_pos h, if_pos h]; rfl
    · rw [if_neg h, if_neg h, ih, ih (u / base) [_], List.append_assoc]; rfl

theorem digitsLoop_fuel (up : Bool) (base : Nat) (hb : 2 ≤ base) (n m u : Nat) (hn : u < n) (hm : u < m) :
    digitsLoop up base n u [] = digitsLoop up base m u [] := by
  induction n generalizing u m with
  | zero => omega
  | succ n ih =>
    cases m with
    | zero => omega
    | succ m =>
      rw [digitsLoop, digitsLoop]
      by_cases h : u < base
      · rw [if_pos h, if_pos h]
      · rw [if_neg h, if_neg h, digitsLoop_acc, digitsLoop_acc _ _ m]
        have : u / base < u := Nat.div_lt_self (by omega) (by omega)
        rw [ih m (u / base) (by omega) (by omega)]

theorem natText_small (up : Bool) (base u : Nat) (h : u < base) : natText up base u = [digitChar up u] := by
  rw [natText, digitsLoop, if_pos h]

theorem natText_step (up : Bool) (base u : Nat) (hb : 2 ≤ base) (h : ¬ u < base) :
    natText up base u = natText up base (u / base) ++ [digitChar up (u % base)] := by
  have : u / base < u := Nat.div_lt_self (by omega) (by omega)
  rw [natText, digitsLoop, if_neg h, digitsLoop_acc, digitsLoop_fuel up base hb u (u / base + 1) (u / base) this (by omega)]
  rfl

theorem natText_rec (up : Bool) (base : Nat) (hb : 2 ≤ base) (P : Nat → List Char → Prop)
    (h1 : ∀ u, u < base → P u [digitChar up u])
    (h2 : ∀ u, ¬ u < base → P (u / base) (natText up base (u / base)) → P u (natText up base (u / base) ++ [digitChar up (u % base)]))
    (u : Nat) : P u (natText up base u) := by
  induction u using Nat.strongRecOn with
  | ind u ih =>
    by_cases h : u < base
    · rw [natText_small _ _ _ h]; exact h1 u h
    · rw [natText_step _ _ _ hb h]
      exact h2 u h (ih _ (Nat.div_lt_self (by omega) (by omega)))

theorem digitsVal_append (base v : Nat) (a b : List Char) :
    digitsVal base v (a ++ b) = (digitsVal base v a).bind (fun w => digitsVal base w b) := by
  induction a generalizing v with
  | nil => rfl
  | cons c cs ih =>
    rw [List.cons_append, digitsVal, digitsVal]
    cases digitVal c with
    | none => rfl
    | some d =>
      simp only
      by_cases h : d < base
      · rw [if_pos h, if_pos h, ih]
      · rw [if_neg h, if_neg h]; rfl

theorem digitsVal_natText (up : Bool) (base : Nat) (hb : 2 ≤ base) (hb' : base ≤ 16) (u : Nat) : digitsVal base 0 (natText up base u) = some u := by
  refine natText_rec up base hb (fun u t => digitsVal base 0 t = some u) ?_ ?_ u
  · intro u hu
    rw [digitsVal, digitVal_digitChar up u (by omega)]
    simp only
    rw [if_pos hu, digitsVal, Nat.zero_mul, Nat.zero_add]
  · intro u _ ih
    have hm : u % base < base := Nat.mod_lt _ (by omega)
    rw [digitsVal_append, ih, Option.bind_some, digitsVal, digitVal_digitChar up _ (by omega)]
    simp only
    rw [if_pos hm, digitsVal, Nat.div_add_mod' u base]

theorem natText_number (up : Bool) (base : Nat) (hb : 2 ≤ base) (hb' : base ≤ 16) (u : Nat) : ∀ c ∈ natText up base u, InNumber c := by
  refine natText_rec up base hb (fun u t => ∀ c ∈ t, InNumber c) ?_ ?_ u
  · intro u hu c hc
    rw [List.mem_singleton.1 hc]; exact digitChar_number up u (by omega)
  · intro u _ ih c hc
    rcases List.mem_append.1 hc with h | h
    · exact ih c h
    · have hm : u % base < base := Nat.mod_lt _ (by omega)
      rw [List.mem_singleton.1 h]; exact digitChar_number up _ (by omega)

/-- the text starts with a digit, which is not zero except for the number zero -/
theorem natText_head (up : Bool) (base : Nat) (hb : 2 ≤ base) (hb' : base ≤ 16) (u : Nat) :
    ∃ d cs, d < base ∧ natText up base u = digitChar up d :: cs ∧ (u ≠ 0 → d ≠ 0) := by
  refine natText_rec up base hb (fun u t => ∃ d cs, d < base ∧ t = digitChar up d :: cs ∧ (u ≠ 0 → d ≠ 0)) ?_ ?_ u
  · intro u hu
    exact ⟨u, [], hu, rfl, id⟩
  · rintro u hu ⟨d, cs, h1, h2, h3⟩
    refine ⟨d, cs ++ [digitChar up (u % base)], h1, by rw [h2]; rfl, fun _ => h3 ?_⟩
    have := Nat.div_pos (Nat.le_of_not_lt hu) (by omega : 0 < base)
    omega

theorem natText_ne (up : Bool) (base : Nat) (hb : 2 ≤ base) (hb' : base ≤ 16) (u : Nat) : natText up base u ≠ [] := by
  obtain ⟨d, cs, _, h, _⟩ := natText_head up base hb hb' u
  rw [h]; simp

theorem number_not_minus (c : Char) (h : InNumber c) : c ≠ '-' ∧ c ≠ '+' := by
  refine ⟨?_, ?_⟩ <;> rintro rfl <;> rw [← numChar_iff] at h <;> revert h <;> decide

theorem digit_not_high (up : Bool) (d : Nat) (h : d < 16) : digitChar up d ≠ '¯' := by
  cases up <;> interval_cases d <;> decide

theorem natText_not_high (up : Bool) (base : Nat) (hb : 2 ≤ base) (hb' : base ≤ 16) (u : Nat) : ∀ c ∈ natText up base u, c ≠ '¯' := by
  refine natText_rec up base hb (fun u t => ∀ c ∈ t, c ≠ '¯') ?_ ?_ u
  · intro u hu c hc
    rw [List.mem_singleton.1 hc]; exact digit_not_high up u (by omega)
  · intro u _ ih c hc
    rcases List.mem_append.1 hc with h | h
    · exact ih c h
    · have hm : u % base < base := Nat.mod_lt _ (by omega)
      rw [List.mem_singleton.1 h]; exact digit_not_high up _ (by omega)

theorem highMinus_none (s : List Char) (h : ∀ c ∈ s, c ≠ '-') : highMinus s = s := by
  induction s with
  | nil => rfl
  | cons c cs ih =>
    rw [highMinus, if_neg (h c List.mem_cons_self), ih (fun d hd => h d (List.mem_cons_of_mem _ hd))]

theorem unhigh_none (s : List Char) (h : ∀ c ∈ s, c ≠ '¯') : s.map (fun c => if c = '¯' then '-' else c) = s := by
  induction s with
  | nil => rfl
  | cons c cs ih =>
    rw [List.map_cons, if_neg (h c List.mem_cons_self), ih (fun d hd => h d (List.mem_cons_of_mem _ hd))]

theorem parseUint_dec (c : Char) (cs : List Char) (h : c ≠ '0') : parseUint (c :: cs) = digitsVal 10 0 (c :: cs) := by
  rw [parseUint.eq_def]
  split <;> first | rfl | (rename_i e; cases e; try exact absurd rfl h) | skip
  all_goals first | rfl | exact absurd rfl h

theorem parseUint_oct (c : Char) (cs : List Char) (h : c ∉ ['b', 'B', 'o', 'O', 'x', 'X']) : parseUint ('0' :: c :: cs) = digitsVal 8 0 (c :: cs) := by
  rw [parseUint.eq_def]
  split
  all_goals first
    | (rename_i e; cases e; done)
    | (rename_i e; cases e; exact absurd (by decide) h)
    | (rename_i e; cases e; rfl)
    | (rename_i h' e; cases e; exact absurd rfl h')

theorem parseInt64_plain (s : List Char) (h : ∀ c ∈ s, c ≠ '-' ∧ c ≠ '+') :
    parseInt64 s = (parseUint s).bind (fun u => if u ≥ 2 ^ 63 then none else some (u : Int)) := by
  rw [parseInt64.eq_def]
  split
  · exact absurd rfl (h '-' List.mem_cons_self).1
  · exact absurd rfl (h '+' List.mem_cons_self).2
  · rfl

theorem intText_plain (pp : Int) (h8 : pp ≠ -8) (h16 : pp ≠ -16) (i : Int) :
    intText pp i = if i < 0 then '¯' :: natText false 10 i.natAbs else natText false 10 i.natAbs := by
  rw [intText, if_neg h8, if_neg h16, signText]
  split
  · rw [highMinus, if_pos rfl]
  · exact highMinus_none _ (fun c hc => (number_not_minus c (natText_number false 10 (by decide) (by decide) _ c hc)).1)

theorem parseUint_natText (u : Nat) : parseUint (natText false 10 u) = some u := by
  by_cases h : u = 0
  · subst h; decide
  · obtain ⟨d, cs, h1, h2, h3⟩ := natText_head false 10 (by decide) (by decide) u
    have := digitsVal_natText false 10 (by decide) (by decide) u
    rw [h2] at this ⊢
    rw [parseUint_dec _ _ (fun e => h3 h ((digitChar_zero false d (by omega)).1 e)), this]

theorem parseInt_intText (pp : Int) (h8 : pp ≠ -8) (h16 : pp ≠ -16) (i : Int) (hi : I64 i) : parseInt (intText pp i) = some i := by
  have hn := natText_number false 10 (by decide) (by decide) i.natAbs
  have hh := natText_not_high false 10 (by decide) (by decide) i.natAbs
  obtain ⟨hi1, hi2⟩ := hi
  rw [intText_plain pp h8 h16]
  by_cases h : i < 0
  · rw [if_pos h, parseInt, List.map_cons, if_pos rfl, unhigh_none _ hh, parseInt64, parseUint_natText, Option.bind_some, if_neg (by omega)]
    congr 1; omega
  · rw [if_neg h, parseInt, unhigh_none _ hh, parseInt64_plain _ (fun c hc => number_not_minus c (hn c hc)), parseUint_natText, Option.bind_some,
      if_neg (by omega)]
    congr 1; omega

theorem oct_head (d : Nat) (h : d < 8) : digitChar false d ∉ ['b', 'B', 'o', 'O', 'x', 'X'] := by
  interval_cases d <;> decide

theorem intText_special (pp : Int) (hp : pp = -8 ∨ pp = -16) (i : Int) (h0 : 0 ≤ i) :
    intText pp i = if pp = -8 then '0' :: natText false 8 i.natAbs else '0' :: 'x' :: natText true 16 i.natAbs := by
  have h8 := highMinus_none ('0' :: natText false 8 i.natAbs) (by
    intro c hc
    rcases List.mem_cons.1 hc with rfl | hc
    · decide
    · exact (number_not_minus c (natText_number false 8 (by decide) (by decide) _ c hc)).1)
  have h16 := highMinus_none ('0' :: 'x' :: natText true 16 i.natAbs) (by
    intro c hc
    rcases List.mem_cons.1 hc with rfl | hc
    · decide
    rcases List.mem_cons.1 hc with rfl | hc
    · decide
    · exact (number_not_minus c (natText_number true 16 (by decide) (by decide) _ c hc)).1)
  have hn : ¬ i < 0 := by omega
  rw [intText, signText, signText, if_neg hn, if_neg hn]
  rcases hp with rfl | rfl
  · rw [if_pos rfl, if_pos rfl, h8]
  · rw [if_neg (by decide), if_pos rfl, if_neg (by decide), h16]

theorem parseInt_special (pp : Int) (hp : pp = -8 ∨ pp = -16) (i : Int) (h0 : 0 ≤ i) (hi : I64 i) : parseInt (intText pp i) = some i := by
  obtain ⟨_, hi2⟩ := hi
  rw [intText_special pp hp i h0]
  rcases hp with rfl | rfl
  · have hn := natText_number false 8 (by decide) (by decide) i.natAbs
    have hh := natText_not_high false 8 (by decide) (by decide) i.natAbs
    rw [if_pos rfl, parseInt, List.map_cons, unhigh_none _ hh, if_neg (by decide), parseInt64_plain]
    · obtain ⟨d, cs, h1, h2, h3⟩ := natText_head false 8 (by decide) (by decide) i.natAbs
      have := digitsVal_natText false 8 (by decide) (by decide) i.natAbs
      rw [h2] at this ⊢
      rw [parseUint_oct _ _ (oct_head d h1), this, Option.bind_some, if_neg (by omega)]
      congr 1; omega
    · intro c hc
      rcases List.mem_cons.1 hc with rfl | hc
      · decide
      · exact number_not_minus c (hn c hc)
  · have hn := natText_number true 16 (by decide) (by decide) i.natAbs
    have hh := natText_not_high true 16 (by decide) (by decide) i.natAbs
    rw [if_neg (by decide), parseInt, List.map_cons, List.map_cons, unhigh_none _ hh, if_neg (by decide), if_neg (by decide), parseInt64_plain]
    · obtain ⟨d, cs, h1, h2, h3⟩ := natText_head true 16 (by decide) (by decide) i.natAbs
      have := digitsVal_natText true 16 (by decide) (by decide) i.natAbs
      rw [h2] at this ⊢
      rw [parseUint, this, Option.bind_some, if_neg (by omega)]
      congr 1; omega
    · intro c hc
      rcases List.mem_cons.1 hc with rfl | hc
      · decide
      rcases List.mem_cons.1 hc with rfl | hc
      · decide
      · exact number_not_minus c (hn c hc)

/-- the text of a number for PP ¯8 or ¯16: its sign is in the middle -/
theorem parseInt_negative (pp : Int) (hp : pp = -8 ∨ pp = -16) (i : Int) (h0 : i < 0) : parseInt (intText pp i) = none := by
  have h16 := natText_not_high true 16 (by decide) (by decide) i.natAbs
  have h8 := natText_not_high false 8 (by decide) (by decide) i.natAbs
  rw [intText, signText, signText, if_pos h0, if_pos h0]
  rcases hp with rfl | rfl
  · rw [if_pos rfl]
    have : highMinus ('0' :: '-' :: natText false 8 i.natAbs) = '0' :: '¯' :: natText false 8 i.natAbs := by
      rw [highMinus, if_neg (by decide), highMinus, if_pos rfl]
    rw [this, parseInt, List.map_cons, List.map_cons, unhigh_none _ h8, if_neg (by decide), if_pos rfl]
    have e : parseInt64 ('0' :: '-' :: natText false 8 i.natAbs) = (parseUint ('0' :: '-' :: natText false 8 i.natAbs)).bind (fun u => if u ≥ 2 ^ 63 then none else some (u : Int)) := by
      rw [parseInt64]
      all_goals (intro cs e; cases e)
    rw [e, parseUint_oct _ _ (by decide)]
    rfl
  · rw [if_neg (by decide), if_pos rfl]
    have : highMinus ('0' :: 'x' :: '-' :: natText true 16 i.natAbs) = '0' :: 'x' :: '¯' :: natText true 16 i.natAbs := by
      rw [highMinus, if_neg (by decide), highMinus, if_neg (by decide), highMinus, if_pos rfl]
    rw [this, parseInt, List.map_cons, List.map_cons, List.map_cons, unhigh_none _ h16, if_neg (by decide), if_neg (by decide), if_pos rfl]
    have e : parseInt64 ('0' :: 'x' :: '-' :: natText true 16 i.natAbs) = (parseUint ('0' :: 'x' :: '-' :: natText true 16 i.natAbs)).bind (fun u => if u ≥ 2 ^ 63 then none else some (u : Int)) := by
      rw [parseInt64]
      all_goals (intro cs e; cases e)
    rw [e, parseUint]
    rfl

/- ## Quoted strings -/

theorem hexDigit_digitChar (d : Nat) (h : d < 16) : HexDigit (digitChar false d) d := by
  interval_cases d <;> (left; decide)

theorem hexNum_hexDigits (k v : Nat) (h : v < 16 ^ k) : HexNum (hexDigits k v) v := by
  induction k generalizing v with
  | zero =>
    have : v = 0 := by simpa using h
    subst this; exact .nil
  | succ k ih =>
    rw [hexDigits]
    have h1 : v / 16 < 16 ^ k := by rw [Nat.div_lt_iff_lt_mul (by decide)]; rw [Nat.pow_succ] at h; exact h
    have := HexNum.snoc (hexDigits k (v / 16)) (digitChar false (v % 16)) (v / 16) (v % 16) (ih _ h1) (hexDigit_digitChar _ (Nat.mod_lt _ (by decide)))
    rwa [Nat.div_add_mod' v 16] at this

theorem hexDigits_length (k v : Nat) : (hexDigits k v).length = k := by
  induction k generalizing v with
  | zero => rfl
  | succ k ih => rw [hexDigits, List.length_append, ih]; rfl

theorem char_lt (c : Char) : c.toNat < 16 ^ 8 := by
  have h := c.valid
  have : c.toNat = c.val.toNat := rfl
  rw [this]
  rcases h with h | h
  · have : c.val.toNat < 0xd800 := h; omega
  · have : c.val.toNat < 0x110000 := h.2; omega

theorem escape_hex (e : Char) (k : Nat) (he : (e, k) ∈ codeEscapes) (c : Char) (hc : c.toNat < 16 ^ k) : Escape (e :: hexDigits k c.toNat) c := by
  have := Escape.code e (hexDigits k c.toNat) c.toNat (by rw [hexDigits_length]; exact he) (hexNum_hexDigits k _ hc) c.valid
  rwa [Char.ofNat_toNat] at this

theorem escapeRune_spec (c : Char) : ∃ t, escapeRune c = '\\' :: t ∧ Escape t c := by
  unfold escapeRune
  split
  · subst c; exact ⟨['a'], rfl, .letter _ _ (by decide)⟩
  split
  · subst c; exact ⟨['b'], rfl, .letter _ _ (by decide)⟩
  split
  · subst c; exact ⟨['f'], rfl, .letter _ _ (by decide)⟩
  split
  · subst c; exact ⟨['n'], rfl, .letter _ _ (by decide)⟩
  split
  · subst c; exact ⟨['r'], rfl, .letter _ _ (by decide)⟩
  split
  · subst c; exact ⟨['t'], rfl, .letter _ _ (by decide)⟩
  split
  · subst c; exact ⟨['v'], rfl, .letter _ _ (by decide)⟩
  split
  · rename_i h
    exact ⟨_, rfl, escape_hex 'x' 2 (by decide) c (by omega)⟩
  split
  · rename_i h
    exact ⟨_, rfl, escape_hex 'u' 4 (by decide) c (by omega)⟩
  · exact ⟨_, rfl, escape_hex 'U' 8 (by decide) c (char_lt c)⟩

/-- a quoted string spells the string -/
theorem quote_spells (print : Char → Bool) (hp : print '\n' = false) (s : List Char) : Spells (s.flatMap (quoteRune print)) s := by
  induction s with
  | nil => exact .nil
  | cons c cs ih =>
    rw [List.flatMap_cons, quoteRune]
    split
    · rename_i h
      refine Spells.escape [c] c _ _ (.letter _ _ ?_) ih
      rcases h with rfl | rfl <;> decide
    · rename_i h
      split
      · rename_i hpr
        refine Spells.plain c _ _ (fun e => h (.inl e)) (fun e => h (.inr e)) ?_ ih
        rintro rfl
        rw [hp] at hpr; cases hpr
      · obtain ⟨t, e, ht⟩ := escapeRune_spec c
        rw [e]
        exact Spells.escape t c _ _ ht ih

end Iv
