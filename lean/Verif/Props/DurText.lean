import Verif.Model.DurText
import Verif.Props.TimeText
import Verif.Props.Time
import Mathlib.Tactic.IntervalCases
/-
C91: durations as text and back.
-/
namespace Iv
variable {F : Type}

/- ## Specification -/

/-- the units and their nanoseconds -/
def durUnits : List (List Char × Nat) :=
  [(['h'], 3600 * 10 ^ 9), (['m'], 60 * 10 ^ 9), (['s'], 10 ^ 9), (['m', 's'], 10 ^ 6), (['u', 's'], 10 ^ 3), (['µ', 's'], 10 ^ 3), (['n', 's'], 1)]

/-- A number with a unit.  The fraction must be a whole number of nanoseconds, digit by digit. -/
inductive PartText : List Char → Nat → Prop
  | whole (a u : List Char) (k : Nat) : (∀ c ∈ a, Digit c) → a ≠ [] → (u, k) ∈ durUnits → PartText (a ++ u) (decimal a * k)
  | dot (a b u : List Char) (k : Nat) : (∀ c ∈ a, Digit c) → (∀ c ∈ b, Digit c) → a ++ b ≠ [] → (u, k) ∈ durUnits → 10 ^ b.length ∣ k →
      PartText (a ++ '.' :: b ++ u) (decimal a * k + decimal b * (k / 10 ^ b.length))

/-- Durations as they are written: numbers with units, whose sum it is. -/
inductive DurText : List Char → Nat → Prop
  | one (s : List Char) (n : Nat) : PartText s n → DurText s n
  | more (s r : List Char) (n m : Nat) : PartText s n → DurText r m → DurText (s ++ r) (n + m)

/-- the product of a fraction and its unit is exact, if it is a whole number (floating point numbers have 53 bits, a unit has less than 42) -/
def ExactMul (mul : Nat → Nat → Nat → Nat) : Prop := ∀ f unit scale, scale ∣ unit → f < scale → unit ≤ 3600 * 10 ^ 9 → mul f unit scale = f * (unit / scale)

/-- the text with a sign -/
def signed (neg : Bool) (s : List Char) : List Char := if neg then '¯' :: s else s

/- ## Proof -/

theorem leadingInt_digits (a rest : List Char) (ha : ∀ c ∈ a, Digit c) (hr : ∀ c, rest.head? = some c → ¬ Digit c) (x : Nat)
    (hx : x * 10 ^ a.length + decimal a ≤ 2 ^ 63) : leadingInt x (a ++ rest) = some (x * 10 ^ a.length + decimal a, rest) := by
  induction a generalizing x with
  | nil =>
    have h0 : decimal [] = 0 := rfl
    cases rest with
    | nil => simp [leadingInt, h0]
    | cons c cs =>
      have : ¬ isDec c = true := fun h => hr c rfl ((isDec_iff c).1 h)
      simp [leadingInt, this, h0]
  | cons c a ih =>
    have hc := (isDec_iff c).2 (ha c (by simp))
    have e1 : decimal (c :: a) = decVal c * 10 ^ a.length + decimal a := by
      have := decimal_append [c] a
      simpa [decimal, decVal] using this
    have e2 : x * 10 ^ (c :: a).length + decimal (c :: a) = (x * 10 + decVal c) * 10 ^ a.length + decimal a := by
      rw [e1, List.length_cons, pow_succ]; ring
    rw [e2] at hx ⊢
    have hp : 1 ≤ 10 ^ a.length := Nat.one_le_pow _ _ (by decide)
    have hb : x * 10 + decVal c ≤ 2 ^ 63 := by
      have : (x * 10 + decVal c) * 1 ≤ (x * 10 + decVal c) * 10 ^ a.length := Nat.mul_le_mul_left _ hp
      omega
    rw [List.cons_append, leadingInt, if_pos hc, if_neg (by omega), if_neg (by omega)]
    exact ih (fun d hd => ha d (by simp [hd])) _ hx

theorem leadingFraction_digits (a rest : List Char) (ha : ∀ c ∈ a, Digit c) (hr : ∀ c, rest.head? = some c → ¬ Digit c) (x sc : Nat)
    (hx : x * 10 ^ a.length + decimal a < 2 ^ 63) : leadingFraction x sc false (a ++ rest) = (x * 10 ^ a.length + decimal a, sc * 10 ^ a.length, rest) := by
  induction a generalizing x sc with
  | nil =>
    have h0 : decimal [] = 0 := rfl
    cases rest with
    | nil => simp [leadingFraction, h0]
    | cons c cs =>
      have : ¬ isDec c = true := fun h => hr c rfl ((isDec_iff c).1 h)
      simp [leadingFraction, this, h0]
  | cons c a ih =>
    have hc := (isDec_iff c).2 (ha c (by simp))
    have e1 : decimal (c :: a) = decVal c * 10 ^ a.length + decimal a := by
      have := decimal_append [c] a
      simpa [decimal, decVal] using this
    have e2 : x * 10 ^ (c :: a).length + decimal (c :: a) = (x * 10 + decVal c) * 10 ^ a.length + decimal a := by
      rw [e1, List.length_cons, pow_succ]; ring
    rw [e2] at hx ⊢
    have hp : 1 ≤ 10 ^ a.length := Nat.one_le_pow _ _ (by decide)
    have hb : x * 10 + decVal c < 2 ^ 63 := by
      have : (x * 10 + decVal c) * 1 ≤ (x * 10 + decVal c) * 10 ^ a.length := Nat.mul_le_mul_left _ hp
      omega
    rw [List.cons_append, leadingFraction, if_pos hc, if_neg (by simp), if_neg (by omega), if_neg (by omega)]
    rw [ih (fun d hd => ha d (by simp [hd])) _ _ hx, List.length_cons, pow_succ]
    congr 2; ring

/-- what follows a part: nothing, or a number -/
def NextPart (rest : List Char) : Prop := ∀ c, rest.head? = some c → Digit c ∨ c = '.'

theorem unit_facts {u : List Char} {k : Nat} (h : (u, k) ∈ durUnits) : unitMap u = some k ∧ (∀ c ∈ u, inUnit c = true) ∧ u ≠ [] ∧ 1 ≤ k ∧ k ≤ 3600 * 10 ^ 9 ∧
    (∃ c ∈ u, ¬ Digit c ∧ c ∉ ['.', 'e', 'E', '-', '+', '¯', 'T']) ∧ (∀ c ∈ u, c ∉ ['b', 'B', 'o', 'O', 'x', 'X', '+', '-', 'a', 'J', 'j', '¯', 'T']) := by
  simp only [durUnits, List.mem_cons, List.not_mem_nil, or_false, Prod.mk.injEq] at h
  rcases h with ⟨rfl, rfl⟩ | ⟨rfl, rfl⟩ | ⟨rfl, rfl⟩ | ⟨rfl, rfl⟩ | ⟨rfl, rfl⟩ | ⟨rfl, rfl⟩ | ⟨rfl, rfl⟩ <;>
    refine ⟨by decide, by decide, by decide, by decide, by decide, ?_, by decide⟩ <;>
    first
    | exact ⟨'h', by decide, by unfold Digit; decide, by decide⟩
    | exact ⟨'s', by decide, by unfold Digit; decide, by decide⟩
    | exact ⟨'m', by decide, by unfold Digit; decide, by decide⟩

theorem inUnit_next {c : Char} (h : Digit c ∨ c = '.') : inUnit c = false := by
  rcases h with h | rfl
  · simp [inUnit, (isDec_iff c).2 h]
  · decide

theorem unit_not {c : Char} (h : inUnit c = true) : ¬ Digit c ∧ c ≠ '.' := by
  constructor
  · intro hd; rw [inUnit_next (.inl hd)] at h; exact absurd h (by simp)
  · intro hd; rw [inUnit_next (.inr hd)] at h; exact absurd h (by simp)

theorem take_unit {u rest : List Char} (hu : ∀ c ∈ u, inUnit c = true) (hr : NextPart rest) :
    (u ++ rest).takeWhile inUnit = u ∧ (u ++ rest).dropWhile inUnit = rest := by
  induction u with
  | nil =>
    cases rest with
    | nil => exact ⟨rfl, rfl⟩
    | cons c cs => simp [inUnit_next (hr c rfl)]
  | cons c u ih =>
    obtain ⟨h1, h2⟩ := ih (fun d hd => hu d (by simp [hd]))
    have hc := hu c (by simp)
    rw [List.cons_append, List.takeWhile_cons_of_pos hc, List.dropWhile_cons_of_pos hc, h1, h2]; exact ⟨rfl, rfl⟩

theorem unit_head {u rest : List Char} (hu : ∀ c ∈ u, inUnit c = true) (hne : u ≠ []) : ∀ c, (u ++ rest).head? = some c → ¬ Digit c ∧ c ≠ '.' := by
  obtain ⟨c, u, rfl⟩ := List.exists_cons_of_ne_nil hne
  intro d hd
  simp at hd; subst hd
  exact unit_not (hu _ (by simp))

theorem optFraction_none (s : List Char) (h : ∀ c, s.head? = some c → c ≠ '.') : optFraction s = (0, 1, false, s) := by
  unfold optFraction
  split
  · exact absurd rfl (h '.' rfl)
  · rfl

/-- one part is read, and its value is the one of the specification -/
theorem durPart_text (mul : Nat → Nat → Nat → Nat) (hm : ExactMul mul) {s : List Char} {n : Nat} (h : PartText s n) (hn : n ≤ 2 ^ 63) (rest : List Char)
    (hr : NextPart rest) : durPart mul (s ++ rest) = some (n, rest) := by
  have fin : ∀ (a u : List Char) (k : Nat) (ys : List Char), (∀ c ∈ a, Digit c) → (u, k) ∈ durUnits → decimal a ≤ 2 ^ 63 →
      (∀ c, ys.head? = some c → ¬ Digit c) → (∀ c, (a ++ ys).head? = some c → c = '.' ∨ Digit c) → a ++ ys ≠ [] →
      durPart mul (a ++ ys) = durPart2 mul (decide (a ≠ [])) (decimal a) ys := by
    intro a u k ys ha hu hd hy hh hne
    have hl := leadingInt_digits a ys ha hy 0 (by omega)
    obtain ⟨c, cs, e⟩ := List.exists_cons_of_ne_nil hne
    rw [e] at hl hh ⊢
    rw [durPart, if_pos ((hh c rfl).imp id (isDec_iff c).2), hl]
    simp only [Nat.zero_mul, Nat.zero_add]
    rw [← e]
    congr 1
    simp only [List.length_append, ne_eq]
    by_cases h0 : a = []
    · simp [h0]
    · have := List.length_pos_iff.2 h0
      simp [h0]
  cases h with
  | whole a u k ha hne hu =>
    obtain ⟨hmap, hin, hune, hk1, hk2, -⟩ := unit_facts hu
    have hh := unit_head (rest := rest) hin hune
    have hda : decimal a ≤ 2 ^ 63 := le_trans (by have := Nat.mul_le_mul_left (decimal a) hk1; omega) hn
    rw [List.append_assoc, fin a u k _ ha hu hda (fun c hc => (hh c hc).1) (fun c hc => by
      obtain ⟨x, xs, rfl⟩ := List.exists_cons_of_ne_nil hne
      simp at hc; subst hc; exact .inr (ha _ (by simp))) (by simp [hne])]
    rw [durPart2, optFraction_none _ (fun c hc => (hh c hc).2)]
    obtain ⟨e1, e2⟩ := take_unit hin hr
    simp only [e1, e2, hmap, hne, ne_eq, not_false_iff, decide_true, Bool.not_true, Bool.false_and]
    rw [if_neg (by simp), unitValue, if_neg, if_neg (by omega)]
    · rfl
    · rw [Nat.not_lt, Nat.le_div_iff_mul_le hk1]; exact hn
  | dot a b u k ha hb hne hu hdvd =>
    obtain ⟨hmap, hin, hune, hk1, hk2, -⟩ := unit_facts hu
    have hh := unit_head (rest := rest) hin hune
    have hda : decimal a ≤ 2 ^ 63 := le_trans (by have := Nat.mul_le_mul_left (decimal a) hk1; omega) hn
    have hble : 10 ^ b.length ≤ k := Nat.le_of_dvd hk1 hdvd
    have hblt := decimal_lt b hb
    have e : a ++ '.' :: b ++ u ++ rest = a ++ '.' :: (b ++ (u ++ rest)) := by simp
    rw [e, fin a u k _ ha hu hda (by intro c hc; simp at hc; subst hc; unfold Digit; decide) (fun c hc => by
      cases a with
      | nil => simp at hc; exact .inl hc.symm
      | cons x xs => simp at hc; subst hc; exact .inr (ha _ (by simp))) (by simp)]
    have hopt : optFraction ('.' :: (b ++ (u ++ rest))) = (decimal b, 10 ^ b.length, decide (b ≠ []), u ++ rest) := by
      have := leadingFraction_digits b (u ++ rest) hb (fun c hc => (hh c hc).1) 0 1 (by omega)
      simp only [optFraction, this, Nat.zero_mul, Nat.zero_add, Nat.one_mul]
      congr 3
      by_cases h0 : b = []
      · simp [h0]
      · have := List.length_pos_iff.2 h0
        simp [h0]
    rw [durPart2, hopt]
    obtain ⟨e1, e2⟩ := take_unit hin hr
    simp only [e1, e2, hmap]
    rw [if_neg (by
      intro h
      simp at h
      exact hne (by simp [h.1, h.2]))]
    rw [unitValue, if_neg]
    · by_cases h0 : decimal b > 0
      · rw [if_pos h0, hm _ _ _ hdvd hblt hk2, if_neg (by omega)]; rfl
      · rw [if_neg h0]
        have : decimal b = 0 := by omega
        simp [this]
    · rw [Nat.not_lt, Nat.le_div_iff_mul_le hk1]; omega

theorem part_head {s : List Char} {n : Nat} (h : PartText s n) : NextPart s ∧ s ≠ [] := by
  cases h with
  | whole a u k ha hne hu =>
    obtain ⟨x, xs, rfl⟩ := List.exists_cons_of_ne_nil hne
    exact ⟨fun c hc => by simp at hc; subst hc; exact .inl (ha _ (by simp)), by simp⟩
  | dot a b u k ha hb hne hu hd =>
    refine ⟨fun c hc => ?_, by simp⟩
    cases a with
    | nil => simp at hc; exact .inr hc.symm
    | cons x xs => simp at hc; subst hc; exact .inl (ha _ (by simp))

theorem dur_head {s : List Char} {n : Nat} (h : DurText s n) : NextPart s ∧ s ≠ [] := by
  cases h with
  | one s n h => exact part_head h
  | more s r n m h _ =>
    obtain ⟨h1, h2⟩ := part_head h
    obtain ⟨x, xs, rfl⟩ := List.exists_cons_of_ne_nil h2
    exact ⟨fun c hc => h1 c (by simpa using hc), by simp⟩

theorem durLoop_text (mul : Nat → Nat → Nat → Nat) (hm : ExactMul mul) {s : List Char} {n : Nat} (h : DurText s n) : ∀ (fuel d : Nat), s.length ≤ fuel →
    d + n ≤ 2 ^ 63 → durLoop mul fuel d s = some (d + n) := by
  have hstep : ∀ (fuel d n : Nat) (s r : List Char), PartText s n → NextPart r → s.length + r.length ≤ fuel → d + n ≤ 2 ^ 63 →
      ∃ m, r.length ≤ m ∧ durLoop mul fuel d (s ++ r) = durLoop mul m (d + n) r := by
    intro fuel d n s r hp hr hl hd
    obtain ⟨c, cs, rfl⟩ := List.exists_cons_of_ne_nil (part_head hp).2
    have hpt := durPart_text mul hm hp (by omega) r hr
    obtain ⟨m, rfl⟩ : ∃ m, fuel = m + 1 := ⟨fuel - 1, by simp at hl; omega⟩
    refine ⟨m, by simp at hl; omega, ?_⟩
    rw [List.cons_append] at hpt ⊢
    rw [durLoop, hpt]
    simp only
    rw [if_neg (by omega)]
  induction h with
  | one s n hp =>
    intro fuel d hl hd
    obtain ⟨m, -, e⟩ := hstep fuel d n s [] hp (by simp [NextPart]) (by simpa using hl) hd
    rw [List.append_nil] at e
    rw [e]; cases m <;> rfl
  | more s r n m hp hr ih =>
    intro fuel d hl hd
    obtain ⟨j, hj, e⟩ := hstep fuel d n s r hp (dur_head hr).1 (by simpa using hl) (by omega)
    rw [e, ih j (d + n) hj (by omega), Nat.add_assoc]

theorem part_unit {s : List Char} {n : Nat} (h : PartText s n) : (∃ c ∈ s, ¬ Digit c ∧ c ∉ ['.', 'e', 'E', '-', '+', '¯', 'T']) ∧ (∃ c ∈ s, Digit c) ∧
    (∀ c ∈ s, c ∉ ['b', 'B', 'o', 'O', 'x', 'X', '+', '-', 'a', 'J', 'j', '¯', 'T']) := by
  have hdig : ∀ c, Digit c ∨ c = '.' → c ∉ ['b', 'B', 'o', 'O', 'x', 'X', '+', '-', 'a', 'J', 'j', '¯', 'T'] := by
    intro c hc hm
    simp only [List.mem_cons, List.not_mem_nil, or_false] at hm
    rcases hm with rfl | rfl | rfl | rfl | rfl | rfl | rfl | rfl | rfl | rfl | rfl | rfl | rfl <;> revert hc <;> unfold Digit <;> decide
  cases h with
  | whole a u k ha hne hu =>
    obtain ⟨-, -, -, -, -, ⟨c, hc, hc'⟩, hall⟩ := unit_facts hu
    refine ⟨⟨c, by simp [hc], hc'⟩, ?_, fun d hd => ?_⟩
    · obtain ⟨x, xs, rfl⟩ := List.exists_cons_of_ne_nil hne
      exact ⟨x, by simp, ha x (by simp)⟩
    · rcases List.mem_append.1 hd with h | h
      · exact hdig d (.inl (ha d h))
      · exact hall d h
  | dot a b u k ha hb hne hu hd =>
    obtain ⟨-, -, -, -, -, ⟨c, hc, hc'⟩, hall⟩ := unit_facts hu
    refine ⟨⟨c, by simp [hc], hc'⟩, ?_, fun d hd => ?_⟩
    · obtain ⟨x, xs, e⟩ := List.exists_cons_of_ne_nil hne
      have hx : x ∈ a ++ b := by rw [e]; simp
      refine ⟨x, ?_, (List.mem_append.1 hx).elim (ha x) (hb x)⟩
      simp only [List.mem_append, List.mem_cons] at hx ⊢
      rcases hx with h | h
      · exact .inl (.inl h)
      · exact .inl (.inr (.inr h))
    · simp only [List.mem_append, List.mem_cons] at hd
      rcases hd with (h | h | h) | h
      · exact hdig d (.inl (ha d h))
      · exact hdig d (.inr h)
      · exact hdig d (.inl (hb d h))
      · exact hall d h

theorem dur_unit {s : List Char} {n : Nat} (h : DurText s n) : (∃ c ∈ s, ¬ Digit c ∧ c ∉ ['.', 'e', 'E', '-', '+', '¯', 'T']) ∧ (∃ c ∈ s, Digit c) ∧
    (∀ c ∈ s, c ∉ ['b', 'B', 'o', 'O', 'x', 'X', '+', '-', 'a', 'J', 'j', '¯', 'T']) := by
  induction h with
  | one s n h => exact part_unit h
  | more s r n m h _ ih =>
    obtain ⟨⟨c, hc, hc'⟩, ⟨d, hd, hd'⟩, h3⟩ := part_unit h
    exact ⟨⟨c, by simp [hc], hc'⟩, ⟨d, by simp [hd], hd'⟩, fun e he => (List.mem_append.1 he).elim (h3 e) (ih.2.2 e)⟩

theorem low_signed {s : List Char} (neg : Bool) (h : ∀ c ∈ s, c ≠ '¯') : lowMinusAll (signed neg s) = (if neg then '-' :: s else s) := by
  cases neg
  · exact unhigh_none s h
  · have := unhigh_none s h
    simp only [signed, if_true, lowMinusAll, List.map_cons]
    exact congrArg _ this

theorem parseDuration_text (mul : Nat → Nat → Nat → Nat) (hm : ExactMul mul) {s : List Char} {n : Nat} (h : DurText s n) (hn : n < 2 ^ 63) (neg : Bool) :
    parseDuration mul (if neg then '-' :: s else s) = some (if neg then -(n : Int) else n) := by
  have hl := durLoop_text mul hm h s.length 0 (Nat.le_refl _) (by omega)
  obtain ⟨⟨c, hc, hcd, -⟩, -, hall⟩ := dur_unit h
  have ha : durAbs mul s = some n := by
    rw [durAbs, if_neg, if_neg (dur_head h).2, hl, Nat.zero_add]
    rintro rfl
    simp at hc; subst hc
    exact hcd (by unfold Digit; decide)
  cases neg with
  | true =>
    simp only [if_true, parseDuration, ha, signedDur]
  | false =>
    obtain ⟨x, xs, rfl⟩ := List.exists_cons_of_ne_nil (dur_head h).2
    have hx := hall x (by simp)
    simp only [Bool.false_eq_true, if_false]
    unfold parseDuration
    split
    · rename_i e; simp at e; rw [e.1] at hx; exact absurd (by decide) hx
    · rename_i e; simp at e; rw [e.1] at hx; exact absurd (by decide) hx
    · rw [ha, signedDur, if_neg (by simp), if_neg (by omega)]

/-- digits that are written for a fraction -/
theorem fmtFrac_print (n : Nat) : ∀ (v : Nat) (acc : List Char), ∃ b, Num n (v % 10 ^ n) b ∧ fmtFrac v n true acc = ('.' :: (b ++ acc), v / 10 ^ n) := by
  induction n with
  | zero => intro v acc; exact ⟨[], ⟨rfl, by simp, by simp [decimal, Nat.mod_one]⟩, by simp [fmtFrac]⟩
  | succ n ih =>
    intro v acc
    obtain ⟨b, hb, e⟩ := ih (v / 10) (digitChar false (v % 10) :: acc)
    refine ⟨b ++ [digitChar false (v % 10)], ⟨by simp [hb.1], ?_, ?_⟩, ?_⟩
    · intro c hc
      rcases List.mem_append.1 hc with h | h
      · exact hb.2.1 c h
      · rw [List.mem_singleton.1 h]; exact digitChar_digit false _ (Nat.mod_lt _ (by decide))
    · rw [decimal_append, hb.2.2]
      have : decimal [digitChar false (v % 10)] = v % 10 := by
        have := Nat.mod_lt v (show 10 > 0 by decide)
        generalize v % 10 = d at *
        interval_cases d <;> decide
      rw [this, List.length_singleton, pow_one, pow_succ', Nat.mod_mul]; omega
    · rw [fmtFrac, if_pos (by simp), e]
      simp only [List.append_assoc, List.singleton_append, pow_succ', Nat.div_div_eq_div_mul]

/-- a fraction: no digits if it is zero, and no zeros at the end -/
theorem fmtFrac_text (n : Nat) : ∀ (v : Nat) (acc : List Char), (v % 10 ^ n = 0 ∧ fmtFrac v n false acc = (acc, v / 10 ^ n)) ∨
    ∃ k m b, 0 < k ∧ k ≤ n ∧ Num k m b ∧ m * 10 ^ (n - k) = v % 10 ^ n ∧ m % 10 ≠ 0 ∧ fmtFrac v n false acc = ('.' :: (b ++ acc), v / 10 ^ n) := by
  induction n with
  | zero => intro v acc; exact .inl ⟨by simp [Nat.mod_one], by simp [fmtFrac]⟩
  | succ n ih =>
    intro v acc
    by_cases h : v % 10 = 0
    · have e : fmtFrac v (n + 1) false acc = fmtFrac (v / 10) n false acc := by rw [fmtFrac, if_neg (by simp [h])]
      rw [e]
      have e2 : v % 10 ^ (n + 1) = v / 10 % 10 ^ n * 10 := by rw [pow_succ', Nat.mod_mul]; omega
      have e3 : v / 10 ^ (n + 1) = v / 10 / 10 ^ n := by rw [pow_succ', Nat.div_div_eq_div_mul]
      rcases ih (v / 10) acc with ⟨h1, h2⟩ | ⟨k, m, b, h1, h2, h3, h4, h5, h6⟩
      · exact .inl ⟨by rw [e2, h1], by rw [h2, e3]⟩
      · refine .inr ⟨k, m, b, h1, by omega, h3, ?_, h5, by rw [h6, e3]⟩
        rw [e2, ← h4, Nat.succ_sub h2, pow_succ]; ring
    · obtain ⟨b, hb, e⟩ := fmtFrac_print n (v / 10) (digitChar false (v % 10) :: acc)
      obtain ⟨b', hb', e'⟩ := fmtFrac_print (n + 1) v acc
      have eq : fmtFrac v (n + 1) false acc = fmtFrac v (n + 1) true acc := by
        rw [fmtFrac, if_pos (by simp [h]), fmtFrac, if_pos (by simp)]
      refine .inr ⟨n + 1, v % 10 ^ (n + 1), b', by omega, Nat.le_refl _, hb', by simp, ?_, by rw [eq, e']⟩
      rw [Nat.mod_mod_of_dvd _ (by rw [pow_succ']; exact Nat.dvd_mul_right _ _)]; exact h

theorem natText_num (v : Nat) : (∀ c ∈ natText false 10 v, Digit c) ∧ natText false 10 v ≠ [] ∧ decimal (natText false 10 v) = v :=
  ⟨natText_plain v, natText_ne false 10 (by decide) (by decide) v, decimal_natText v⟩

/-- a number with a fraction is the part of the specification -/
theorem frac_part (w v n : Nat) (u : List Char) (hu : (u, 10 ^ n) ∈ durUnits) :
    PartText (natText false 10 w ++ (fmtFrac v n false u).1) (w * 10 ^ n + v % 10 ^ n) := by
  obtain ⟨h1, h2, h3⟩ := natText_num w
  rcases fmtFrac_text n v u with ⟨hz, e⟩ | ⟨k, m, b, hk, hkn, hb, hm, -, e⟩
  · rw [e, hz, Nat.add_zero]
    have := PartText.whole _ u _ h1 h2 hu
    rwa [h3] at this
  · rw [e]
    have := PartText.dot (natText false 10 w) b u (10 ^ n) h1 hb.2.1 (by simp [h2]) hu (by rw [hb.1]; exact Nat.pow_dvd_pow 10 hkn)
    rw [h3, hb.1, hb.2.2, Nat.pow_div hkn (by decide), hm] at this
    simpa using this

theorem fmtFrac_snd (v n : Nat) (u : List Char) : (fmtFrac v n false u).2 = v / 10 ^ n := by
  rcases fmtFrac_text n v u with ⟨-, e⟩ | ⟨k, m, b, -, -, -, -, -, e⟩ <;> rw [e]

theorem fracText_part (v n : Nat) (u : List Char) (hu : (u, 10 ^ n) ∈ durUnits) : DurText (fracText v n u) v := by
  have := frac_part (v / 10 ^ n) v n u hu
  rw [show v / 10 ^ n * 10 ^ n + v % 10 ^ n = v by rw [Nat.mul_comm]; exact Nat.div_add_mod v _] at this
  refine .one _ _ ?_
  rw [fracText]
  simp only [fmtFrac_snd]
  exact this

theorem absText_dur (u : Nat) : DurText (absText u) u := by
  unfold absText
  split
  · rename_i h; subst h
    have := PartText.whole ['0'] ['s'] (10 ^ 9) (by intro c hc; simp at hc; subst hc; unfold Digit; decide) (by simp) (by decide)
    exact .one _ _ this
  · split
    · exact fracText_part u 0 _ (by decide)
    · split
      · exact fracText_part u 3 _ (by decide)
      · split
        · exact fracText_part u 6 _ (by decide)
        · rw [secondsText]
          simp only [fmtFrac_snd]
          have hs := frac_part (u / 10 ^ 9 % 60) u 9 ['s'] (by decide)
          generalize natText false 10 (u / 10 ^ 9 % 60) ++ (fmtFrac u 9 false ['s']).1 = st at *
          have hmin : ∀ m, PartText (natText false 10 m ++ ['m']) (m * (60 * 10 ^ 9)) := by
            intro m
            obtain ⟨h1, h2, h3⟩ := natText_num m
            have := PartText.whole _ ['m'] (60 * 10 ^ 9) h1 h2 (by decide)
            rwa [h3] at this
          have hhr : ∀ m, PartText (natText false 10 m ++ ['h']) (m * (3600 * 10 ^ 9)) := by
            intro m
            obtain ⟨h1, h2, h3⟩ := natText_num m
            have := PartText.whole _ ['h'] (3600 * 10 ^ 9) h1 h2 (by decide)
            rwa [h3] at this
          unfold hmText
          split
          · have := DurText.one _ _ hs
            convert this using 1
            omega
          · split
            · have := DurText.more _ _ _ _ (hmin (u / 10 ^ 9 / 60 % 60)) (DurText.one _ _ hs)
              convert this using 1
              · simp
              · omega
            · have := DurText.more _ _ _ _ (hhr (u / 10 ^ 9 / 60 / 60)) (DurText.more _ _ _ _ (hmin (u / 10 ^ 9 / 60 % 60)) (DurText.one _ _ hs))
              convert this using 1
              · simp
              · omega

theorem high_signed (d : Int) : highMinusAll (durString d) = signed (decide (d < 0)) (absText d.natAbs) := by
  have hn : highMinusAll (absText d.natAbs) = absText d.natAbs := by
    have h := (dur_unit (absText_dur d.natAbs)).2.2
    rw [highMinusAll]
    conv => rhs; rw [← List.map_id (absText d.natAbs)]
    refine List.map_congr_left (fun c hc => ?_)
    have := h c hc
    rw [if_neg (by rintro rfl; exact this (by decide))]; rfl
  unfold durString signed
  by_cases h : d < 0
  · simp only [h, if_true, decide_true]
    rw [highMinusAll, List.map_cons]; exact congrArg _ hn
  · simpa [h] using hn

/- ## Theorems -/

/-- A duration literal is the sum of its parts. -/
theorem C91_literal (env : FloatEnv F) (mul : Nat → Nat → Nat → Nat) (hm : ExactMul mul) (s : List Char) (n : Nat) (h : DurText s n) (hn : n < 2 ^ 63) (neg : Bool) :
    parseDef env (parseTime (parseDuration mul)) (signed neg s) = some (.num 2 (.time (if neg then -(n : Int) else n))) := by
  obtain ⟨⟨c, hc, hcd, hcn⟩, ⟨d, hd, hdd⟩, hall⟩ := dur_unit h
  have hsub : ∀ x ∈ s, x ∈ signed neg s := by intro x hx; cases neg <;> simp [signed, hx]
  have hin : ∀ x ∈ signed neg s, x = '¯' ∨ x ∈ s := by intro x hx; cases neg <;> simp [signed] at hx; exact .inr hx; exact hx
  have ne : ∀ x ∈ ['b', 'B', 'o', 'O', 'x', 'X', '+', '-', 'a', 'J', 'j', 'T'], ∀ c ∈ signed neg s, c ≠ x := by
    intro x hx c hc e
    subst e
    rcases hin c hc with rfl | h
    · revert hx; decide
    · have := hall c h
      simp only [List.mem_cons, List.not_mem_nil, or_false, not_or] at this hx
      tauto
  have hi : parseInt (signed neg s) = none := by
    refine not_int64 _ c (hsub c hc) hcd (fun d hd hm => ?_) (by rintro rfl; exact hcn (by decide))
    exact ne d (by simp only [List.mem_cons, List.not_mem_nil, or_false] at hm ⊢; tauto) d hd rfl
  have hf : parseFloat env (signed neg s) = none :=
    parseFloat_bad env _ c d (hsub c hc) hcd (fun hm => hcn (by simp only [List.mem_cons, List.not_mem_nil, or_false] at hm ⊢; tauto)) (hsub d hd) hdd
  have hx : parseComplex env (signed neg s) = none := by
    rw [parseComplex, cutAt_none _ _ (ne 'a' (by decide))]
    simp only
    rw [parseRect, cutAt_none _ _ (ne 'J' (by decide))]
    simp only
    rw [cutAt_none _ _ (ne 'j' (by decide))]
    simp only
    rw [hf]; rfl
  rw [parseDef_eq env _ _ (bool_text_dec _ (ne 'b' (by decide))), hi, hf, hx]
  simp only
  have hs : ¬ ∃ u, StampText (signed neg s) u := by
    rintro ⟨u, hu⟩
    rcases stamp_chars hu c (hsub c hc) with h | rfl | rfl
    · exact hcd h
    · exact hcn (by decide)
    · exact hcn (by decide)
  have hl := low_signed neg (fun c hc => by rintro rfl; exact hall _ hc (by decide) : ∀ c ∈ s, c ≠ '¯')
  rw [(C90_only _ _ _).2 (.inr ⟨hs, (congrArg _ hl).trans (parseDuration_text mul hm h hn neg)⟩)]
  rfl

/-- The text of a duration is a literal for it. -/
theorem C91_text (pp d : Int) (h : IsDur d) (hp : -1 ≤ pp) :
    ∃ s, DurText s d.natAbs ∧ timeText durString pp d = signed (decide (d < 0)) s := by
  refine ⟨absText d.natAbs, absText_dur _, ?_⟩
  rw [timeText, if_pos (dur_y1k h).2, if_neg (by omega), timeSub_dur (by simpa using h), Int.sub_zero]
  exact high_signed d

/-- A duration is read back from its text, to the nanosecond. -/
theorem C91_round_trip (env : FloatEnv F) (mul : Nat → Nat → Nat → Nat) (hm : ExactMul mul) (pp d : Int) (h : IsDur d) (hp : -1 ≤ pp) :
    parseDef env (parseTime (parseDuration mul)) (timeText durString pp d) = some (.num 2 (.time d)) := by
  obtain ⟨s, hs, e⟩ := C91_text pp d h hp
  rw [e, C91_literal env mul hm s _ hs (by unfold IsDur at h; omega)]
  by_cases h0 : d < 0
  · have : -((d.natAbs : Nat) : Int) = d := by omega
    simp only [h0, decide_true, if_true, this]
  · have : ((d.natAbs : Nat) : Int) = d := by omega
    simp only [h0, decide_false, Bool.false_eq_true, if_false, this]

/-- The text from one second on: hours, minutes below 60 and seconds below 60, without leading parts that are zero, and without zeros at the end of the
fraction. -/
theorem C91_form (pp : Int) (d : Int) (h : IsDur d) (hp : -1 ≤ pp) (hd : 10 ^ 9 ≤ d.natAbs) : ∃ (hh mm ss ns : Nat) (f : List Char),
    d.natAbs = ((hh * 60 + mm) * 60 + ss) * 10 ^ 9 + ns ∧ mm < 60 ∧ ss < 60 ∧ ns < 10 ^ 9 ∧
    (f = [] ∧ ns = 0 ∨ ∃ k m b, 0 < k ∧ k ≤ 9 ∧ Num k m b ∧ m * 10 ^ (9 - k) = ns ∧ m % 10 ≠ 0 ∧ f = '.' :: b) ∧
    timeText durString pp d = signed (decide (d < 0)) ((if hh = 0 then [] else Nat.toDigits 10 hh ++ ['h']) ++
      (if hh = 0 ∧ mm = 0 then [] else Nat.toDigits 10 mm ++ ['m']) ++ Nat.toDigits 10 ss ++ f ++ ['s']) := by
  have e : timeText durString pp d = signed (decide (d < 0)) (absText d.natAbs) := by
    rw [timeText, if_pos (dur_y1k h).2, if_neg (by omega), timeSub_dur (by simpa using h), Int.sub_zero]
    exact high_signed d
  generalize d.natAbs = u at *
  have ha : absText u = secondsText u := by unfold absText; rw [if_neg (by omega), if_neg (by omega), if_neg (by omega), if_neg (by omega)]
  obtain ⟨f, hf, hfe⟩ : ∃ f, (f = [] ∧ u % 10 ^ 9 = 0 ∨ ∃ k m b, 0 < k ∧ k ≤ 9 ∧ Num k m b ∧ m * 10 ^ (9 - k) = u % 10 ^ 9 ∧ m % 10 ≠ 0 ∧ f = '.' :: b) ∧
      (fmtFrac u 9 false ['s']).1 = f ++ ['s'] := by
    rcases fmtFrac_text 9 u ['s'] with ⟨hz, e⟩ | ⟨k, m, b, hk, hkn, hb, hm, hl, e⟩
    · exact ⟨[], .inl ⟨rfl, hz⟩, by rw [e]; rfl⟩
    · exact ⟨'.' :: b, .inr ⟨k, m, b, hk, hkn, hb, hm, hl, rfl⟩, by rw [e]; rfl⟩
  refine ⟨u / 10 ^ 9 / 60 / 60, u / 10 ^ 9 / 60 % 60, u / 10 ^ 9 % 60, u % 10 ^ 9, f, by omega, by omega, by omega, by omega, hf, ?_⟩
  rw [e, ha, secondsText]
  simp only [fmtFrac_snd, hfe, ← natText_toDigits]
  congr 1
  unfold hmText
  by_cases h1 : u / 10 ^ 9 / 60 = 0
  · rw [if_pos h1, if_pos (by omega), if_pos (by omega)]; simp
  · rw [if_neg h1]
    by_cases h2 : u / 10 ^ 9 / 60 / 60 = 0
    · rw [if_pos h2, if_pos h2, if_neg (by omega)]; simp
    · rw [if_neg h2, if_neg h2, if_neg (by omega)]; simp

/-- Below one second: nanoseconds, microseconds or milliseconds. -/
theorem C91_small (d : Int) (h : IsDur d) (hd : d.natAbs < 10 ^ 9) (pp : Int) (hp : -1 ≤ pp) : ∃ (w n : Nat) (u f : List Char),
    (d = 0 ∧ w = 0 ∧ n = 9 ∧ u = ['s'] ∨ n = 0 ∧ u = ['n', 's'] ∧ 0 < w ∨ n = 3 ∧ u = ['µ', 's'] ∧ 0 < w ∨ n = 6 ∧ u = ['m', 's'] ∧ 0 < w) ∧ (d ≠ 0 → w < 1000) ∧
    w = d.natAbs / 10 ^ n ∧ (f = [] ∧ d.natAbs % 10 ^ n = 0 ∨ ∃ k m b, 0 < k ∧ k ≤ n ∧ Num k m b ∧ m * 10 ^ (n - k) = d.natAbs % 10 ^ n ∧ m % 10 ≠ 0 ∧ f = '.' :: b) ∧
    timeText durString pp d = signed (decide (d < 0)) (Nat.toDigits 10 w ++ f ++ u) := by
  have e : timeText durString pp d = signed (decide (d < 0)) (absText d.natAbs) := by
    rw [timeText, if_pos (dur_y1k h).2, if_neg (by omega), timeSub_dur (by simpa using h), Int.sub_zero]
    exact high_signed d
  rw [e]
  have hfr : ∀ (v n : Nat) (u : List Char), ∃ f, (f = [] ∧ v % 10 ^ n = 0 ∨ ∃ k m b, 0 < k ∧ k ≤ n ∧ Num k m b ∧ m * 10 ^ (n - k) = v % 10 ^ n ∧ m % 10 ≠ 0 ∧ f = '.' :: b) ∧
      fracText v n u = Nat.toDigits 10 (v / 10 ^ n) ++ f ++ u := by
    intro v n u
    rcases fmtFrac_text n v u with ⟨hz, e⟩ | ⟨k, m, b, hk, hkn, hb, hm, hl, e⟩
    · exact ⟨[], .inl ⟨rfl, hz⟩, by rw [fracText, e, ← natText_toDigits]; simp⟩
    · exact ⟨'.' :: b, .inr ⟨k, m, b, hk, hkn, hb, hm, hl, rfl⟩, by rw [fracText, e, ← natText_toDigits]; simp⟩
  by_cases h0 : d = 0
  · subst h0
    exact ⟨0, 9, ['s'], [], .inl ⟨rfl, rfl, rfl, rfl⟩, by simp, rfl, .inl ⟨rfl, rfl⟩, rfl⟩
  · have hne : d.natAbs ≠ 0 := by omega
    unfold absText
    rw [if_neg hne]
    by_cases h1 : d.natAbs < 1000
    · obtain ⟨f, hf, ef⟩ := hfr d.natAbs 0 ['n', 's']
      rw [if_pos h1]
      exact ⟨_, 0, _, f, .inr (.inl ⟨rfl, rfl, by simp; omega⟩), by simp; omega, rfl, hf, congrArg _ ef⟩
    · rw [if_neg h1]
      by_cases h2 : d.natAbs < 1000000
      · obtain ⟨f, hf, ef⟩ := hfr d.natAbs 3 ['µ', 's']
        rw [if_pos h2]
        exact ⟨_, 3, _, f, .inr (.inr (.inl ⟨rfl, rfl, by omega⟩)), by omega, rfl, hf, congrArg _ ef⟩
      · obtain ⟨f, hf, ef⟩ := hfr d.natAbs 6 ['m', 's']
        rw [if_neg h2, if_pos (show d.natAbs < 1000000000 from hd)]
        exact ⟨_, 6, _, f, .inr (.inr (.inr ⟨rfl, rfl, by omega⟩)), by omega, rfl, hf, congrArg _ ef⟩

/-- The text of a duration is one token of the scanner, unless it is written in microseconds. -/
theorem C91_token (ctx : ScanCtx) (pp d : Int) (h : IsDur d) (hp : -1 ≤ pp) (hu : ¬ (1000 ≤ d.natAbs ∧ d.natAbs < 10 ^ 6)) :
    scanLine ctx (timeText durString pp d) = .ok [⟨.number, String.ofList (timeText durString pp d)⟩] := by
  have hnum : ∀ w, ∀ c ∈ Nat.toDigits 10 w, InNumber c := fun w c hc => .inl (natText_plain w c (by rwa [natText_toDigits]))
  have hfrac : ∀ (n v : Nat) (f : List Char), (f = [] ∧ v = 0 ∨ ∃ k m b, 0 < k ∧ k ≤ n ∧ Num k m b ∧ m * 10 ^ (n - k) = v ∧ m % 10 ≠ 0 ∧ f = '.' :: b) → ∀ c ∈ f, InNumber c := by
    intro n v f hf c hc
    rcases hf with ⟨rfl, -⟩ | ⟨k, m, b, -, -, hb, -, -, rfl⟩
    · simp at hc
    · rcases List.mem_cons.1 hc with rfl | hc
      · exact .inr (.inr (.inr (.inl rfl)))
      · exact .inl (hb.2.1 c hc)
  have hlet : ∀ c ∈ ['h', 'm', 's', 'n'], InNumber c := by intro c hc; simp at hc; rcases hc with rfl | rfl | rfl | rfl <;> exact .inr (.inl (by decide))
  obtain ⟨s, hs, hd, e⟩ : ∃ s, (∀ c ∈ s, InNumber c) ∧ (∃ c cs, s = c :: cs ∧ Digit c) ∧ timeText durString pp d = signed (decide (d < 0)) s := by
    have htext : ∃ s, DurText s d.natAbs ∧ timeText durString pp d = signed (decide (d < 0)) s := C91_text pp d h hp
    have hfirst : ∀ w (r : List Char), ∃ c cs, Nat.toDigits 10 w ++ r = c :: cs ∧ Digit c := by
      intro w r
      obtain ⟨x, xs, e⟩ := List.exists_cons_of_ne_nil (natText_ne false 10 (by decide) (by decide) w)
      refine ⟨x, xs ++ r, by rw [← natText_toDigits, e]; rfl, natText_plain w x (by rw [e]; simp)⟩
    by_cases h9 : 10 ^ 9 ≤ d.natAbs
    · obtain ⟨hh, mm, ss, ns, f, -, -, -, -, hf, e⟩ := C91_form pp d h hp h9
      refine ⟨_, ?_, ?_, e⟩
      · intro c hc
        simp only [List.mem_append] at hc
        rcases hc with (((hc | hc) | hc) | hc) | hc
        · split at hc
          · simp at hc
          · rcases List.mem_append.1 hc with hc | hc
            · exact hnum _ c hc
            · exact hlet c (by simp at hc; simp [hc])
        · split at hc
          · simp at hc
          · rcases List.mem_append.1 hc with hc | hc
            · exact hnum _ c hc
            · exact hlet c (by simp at hc; simp [hc])
        · exact hnum _ c hc
        · exact hfrac 9 ns f hf c hc
        · exact hlet c (by simp at hc; simp [hc])
      · split
        · split
          · simp only [List.nil_append, List.append_assoc]; exact hfirst _ _
          · simp only [List.nil_append, List.append_assoc]; exact hfirst _ _
        · simp only [List.append_assoc]; exact hfirst _ _
    · obtain ⟨w, n, u, f, hk, hlt, hw, hf, e⟩ := C91_small d h (by omega) pp hp
      refine ⟨_, ?_, by rw [List.append_assoc]; exact hfirst _ _, e⟩
      intro c hc
      simp only [List.mem_append] at hc
      rcases hc with (hc | hc) | hc
      · exact hnum _ c hc
      · exact hfrac n _ f hf c hc
      · rcases hk with ⟨-, -, -, rfl⟩ | ⟨-, rfl, -⟩ | ⟨rfl, rfl, h0⟩ | ⟨-, rfl, -⟩
        · exact hlet c (by simp at hc; simp [hc])
        · exact hlet c (by simp at hc; rcases hc with rfl | rfl <;> simp)
        · exfalso
          by_cases hz : d = 0
          · subst hz; simp at hw; omega
          · have := hlt hz
            clear hf hfrac
            omega
        · exact hlet c (by simp at hc; rcases hc with rfl | rfl <;> simp)
  have hin : ∀ c ∈ signed (decide (d < 0)) s, InNumber c := by
    intro c hc
    by_cases h0 : d < 0 <;> simp [signed, h0] at hc
    · rcases hc with rfl | hc
      · exact .inr (.inr (.inr (.inr rfl)))
      · exact hs c hc
    · exact hs c hc
  have hbeg : BeginsNumber (signed (decide (d < 0)) s) := by
    obtain ⟨c, cs, rfl, hc⟩ := hd
    by_cases h0 : d < 0 <;> simp [signed, h0, BeginsNumber, hc]
  rw [e, C49_scan]
  refine ⟨[⟨.number, String.ofList (signed (decide (d < 0)) s)⟩], ?_, ?_⟩
  · have := Lexes.token (ctx := ctx) (signed (decide (d < 0)) s) _ [] [] (.number _ [] (by simpa using hbeg) hin (fun c hc => by cases hc)) .done
    simpa using this
  · exact .plain _ (fun _ _ _ e => by cases e)

/-- Microseconds are not: the scanner ends the number in front of the micro sign, which is a letter, so that the text is a number and a variable. -/
theorem C91_micro (ctx : ScanCtx) (hl : ctx.letter 'µ' = true ∧ ctx.letter 's' = true ∧ ctx.symbol 'µ' = none) (pp : Int) (hp : -1 ≤ pp) :
    timeText durString pp 1500 = "1.5µs".toList ∧ scanLine ctx "1.5µs".toList = .ok [⟨.number, "1.5"⟩, ⟨.identifier, "µs"⟩] := by
  constructor
  · rw [timeText, if_pos (by decide), if_neg (by omega)]; decide +kernel
  · rw [C49_scan]
    refine ⟨[⟨.number, "1.5"⟩, ⟨.identifier, "µs"⟩], ?_, .plain _ (fun a b ts e => by cases e; simp)⟩
    have h2 : Lexes ctx ['µ', 's'] [⟨.identifier, "µs"⟩] := by
      have := Lexes.token (ctx := ctx) ['µ', 's'] _ [] [] (.name 'µ' ['s'] [] ?_ hl.2.2 (.inr hl.1) ?_ ?_) .done
      · exact this
      · exact ⟨by intro c hc; simp at hc; subst hc; decide, by simp only [List.append_nil]; unfold BeginsNumber Digit; simp⟩
      · intro d hd; simp at hd; subst hd; exact .inr (.inr hl.2.1)
      · simp
    have := Lexes.token (ctx := ctx) ['1', '.', '5'] _ ['µ', 's'] _ (.number _ _ ?_ ?_ ?_) h2
    · exact this
    · left; unfold Digit; decide
    · intro c hc; simp at hc; rcases hc with rfl | rfl | rfl
      · left; unfold Digit; decide
      · exact .inr (.inr (.inr (.inl rfl)))
      · left; unfold Digit; decide
    · intro c hc; simp at hc; subst hc; unfold InNumber Digit; decide

/-- a duration of several parts -/
example : DurText "1h2m3.5s".toList (3723500000000) := by
  have h1 : PartText "1h".toList (1 * (3600 * 10 ^ 9)) := .whole ['1'] ['h'] _ (by intro c hc; simp at hc; subst hc; unfold Digit; decide) (by simp) (by decide)
  have h2 : PartText "2m".toList (2 * (60 * 10 ^ 9)) := .whole ['2'] ['m'] _ (by intro c hc; simp at hc; subst hc; unfold Digit; decide) (by simp) (by decide)
  have h3 : PartText "3.5s".toList (3 * 10 ^ 9 + 5 * (10 ^ 9 / 10 ^ 1)) := .dot ['3'] ['5'] ['s'] _ (by intro c hc; simp at hc; subst hc; unfold Digit; decide)
    (by intro c hc; simp at hc; subst hc; unfold Digit; decide) (by simp) (by decide) (by decide)
  exact .more _ _ _ _ h1 (.more _ _ _ _ h2 (.one _ _ h3))

example : timeText durString 0 (-3723500000000) = "¯1h2m3.5s".toList := by decide +kernel
example : ExactMul (fun f unit scale => f * unit / scale) := fun f _ _ h _ _ => Nat.mul_div_assoc f h

end Iv
