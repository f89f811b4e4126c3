import Verif.Model.Decode
import Verif.Props.Dot
import Mathlib.Algebra.Order.Floor.Ring
import Mathlib.Data.Rat.Floor
import Mathlib.Tactic.FieldSimp
import Mathlib.Tactic.Ring
import Mathlib.Tactic.Linarith
import Mathlib.Tactic.Positivity
import Mathlib.Algebra.BigOperators.Group.List.Basic
/-
Lemmas for decode and encode in exact arithmetic.
-/
namespace Iv

/-- exact arithmetic with the mathematical floor -/
def E : EncOps ℚ := exactOps (fun q => ((⌊q⌋ : ℤ) : ℚ))

/-- residue -/
def qmod (l c : ℚ) : ℚ := if l = 0 then c else c - l * (⌊c / l⌋ : ℤ)

theorem E_mod (l c : ℚ) : E.mod l c = .ok (qmod l c) := by
  by_cases h : l = 0
  · subst h
    simp [E, exactOps, genAbs2, ratOps, qmod]
  · simp [E, exactOps, genAbs2, ratOps, qmod, h]

theorem E_mul (x y : ℚ) : E.mul x y = .ok (x * y) := rfl
theorem E_sub (x y : ℚ) : E.sub x y = .ok (x - y) := rfl
theorem E_add (x y : ℚ) : E.add x y = .ok (x + y) := rfl
theorem E_div (x y : ℚ) (h : y ≠ 0) : E.div x y = .ok (x / y) := by simp [E, exactOps, h]
theorem E_isZero (x : ℚ) : E.isZero x = .ok (decide (x = 0)) := rfl
theorem E_floor (x : ℚ) : E.floor x = .ok ((⌊x⌋ : ℤ) : ℚ) := rfl

/-- carry after all digits -/
def carry : List ℚ → ℚ → ℚ
  | [], r => r
  | l :: ls, r => if l = 0 then 0 else (⌊carry ls r / l⌋ : ℤ)

/-- digits -/
def digits : List ℚ → ℚ → List ℚ
  | [], _ => []
  | l :: ls, r => qmod l (carry ls r) :: digits ls r

theorem encLoop_eq (L : List ℚ) (r : ℚ) : encLoop E L r = .ok (digits L r, carry L r) := by
  induction L with
  | nil => rfl
  | cons l ls ih =>
    simp only [encLoop, ih, bind, Except.bind, E_mod, E_isZero, decide_eq_true_iff, pure, Except.pure]
    by_cases h : l = 0
    · rw [if_pos h]; simp only [digits, carry, if_pos h]; rfl
    · rw [if_neg h]
      simp only [E_sub, E_div _ _ h, digits, carry, if_neg h, qmod]
      congr 2
      field_simp
      ring

theorem encodeVecScalar_eq (L : List ℚ) (r : ℚ) : encodeVecScalar E L r = .ok (digits L r) := by
  simp only [encodeVecScalar, encLoop_eq, bind, Except.bind]; rfl

theorem digits_length (L : List ℚ) (r : ℚ) : (digits L r).length = L.length := by
  induction L with
  | nil => rfl
  | cons l ls ih => simp [digits, ih]

/-- Horner evaluation starting from an accumulator -/
def hornerFrom (acc : ℚ) (L D : List ℚ) : ℚ := (L.zip D).foldl (fun acc p => acc * p.1 + p.2) acc

theorem horner_digits (L : List ℚ) (r : ℚ) (h : ∀ l ∈ L, l ≠ 0) : hornerFrom (carry L r) L (digits L r) = r := by
  induction L with
  | nil => rfl
  | cons l ls ih =>
    have hl : l ≠ 0 := h l (by simp)
    have := ih (fun x hx => h x (by simp [hx]))
    simp only [hornerFrom, digits, List.zip_cons_cons, List.foldl_cons] at this ⊢
    rw [show carry (l :: ls) r * l + qmod l (carry ls r) = carry ls r by
      simp only [carry, qmod, if_neg hl]; ring]
    exact this

theorem horner_zero_lead (ls : List ℚ) (r : ℚ) (h : ∀ l ∈ ls, l ≠ 0) : hornerFrom 0 (0 :: ls) (digits (0 :: ls) r) = r := by
  have := horner_digits ls r h
  simp only [hornerFrom, digits, List.zip_cons_cons, List.foldl_cons] at this ⊢
  rw [show (0 : ℚ) * 0 + qmod 0 (carry ls r) = carry ls r by simp [qmod]]
  exact this

theorem qmod_bounds {l : ℚ} (hl : 0 < l) (c : ℚ) : 0 ≤ qmod l c ∧ qmod l c < l := by
  have h0 : l ≠ 0 := ne_of_gt hl
  simp only [qmod, if_neg h0]
  have h1 : ((⌊c / l⌋ : ℤ) : ℚ) ≤ c / l := Int.floor_le _
  have h2 : c / l < (⌊c / l⌋ : ℤ) + 1 := Int.lt_floor_add_one _
  rw [le_div_iff₀ hl] at h1
  rw [div_lt_iff₀ hl] at h2
  constructor <;> nlinarith

theorem carry_range (L : List ℚ) (r P : ℚ) (hL : ∀ l ∈ L, 0 < l) (h0 : 0 ≤ r) (h1 : r < L.prod * P) :
    0 ≤ carry L r ∧ carry L r < P := by
  induction L generalizing P with
  | nil => simp at h1; exact ⟨h0, h1⟩
  | cons l ls ih =>
    have hl : 0 < l := hL l (by simp)
    obtain ⟨i1, i2⟩ := ih (l * P) (fun x hx => hL x (by simp [hx])) (by rw [List.prod_cons] at h1; rw [← mul_assoc, mul_comm ls.prod l]; exact h1)
    simp only [carry, if_neg (ne_of_gt hl)]
    constructor
    · have : (0 : ℤ) ≤ ⌊carry ls r / l⌋ := Int.floor_nonneg.2 (div_nonneg i1 (le_of_lt hl))
      exact_mod_cast this
    · refine lt_of_le_of_lt (Int.floor_le _) ?_
      rw [div_lt_iff₀ hl, mul_comm]; exact i2

theorem carry_int (l : ℚ) (ls : List ℚ) (r : ℚ) : ∃ k : ℤ, carry (l :: ls) r = k := by
  simp only [carry]
  split
  · exact ⟨0, by simp⟩
  · exact ⟨_, rfl⟩

theorem carry_zero (L : List ℚ) (r : ℚ) (hne : L ≠ []) (hL : ∀ l ∈ L, 0 < l) (h0 : 0 ≤ r) (h1 : r < L.prod) : carry L r = 0 := by
  obtain ⟨a, b⟩ := carry_range L r 1 hL h0 (by simpa using h1)
  cases L with
  | nil => exact absurd rfl hne
  | cons l ls =>
    obtain ⟨k, hk⟩ := carry_int l ls r
    rw [hk] at a b ⊢
    have : k = 0 := by
      have h1 : (0 : ℤ) ≤ k := by exact_mod_cast a
      have h2 : k < 1 := by exact_mod_cast b
      omega
    simp [this]

/-- the powers used by decode -/
def powers : List ℚ → List ℚ
  | [] => []
  | _ :: ls => ls.prod :: powers ls

theorem powers_length (L : List ℚ) : (powers L).length = L.length := by
  induction L with
  | nil => rfl
  | cons l ls ih => simp [powers, ih]

theorem powerRow_eq (L : List ℚ) : powerRow E L = .ok (powers L) := by
  cases L with
  | nil => rfl
  | cons l xs =>
    simp only [powerRow]
    have key : ∀ (xs : List ℚ) (l : ℚ), mulScan E (xs ++ [E.one]) = .ok (powers (l :: xs)) := by
      intro xs
      induction xs with
      | nil => intro l; rfl
      | cons x xs ih =>
        intro l
        cases hx : xs ++ [E.one] with
        | nil => simp at hx
        | cons w rest =>
          rw [List.cons_append, hx, mulScan, ← hx, ih x]
          simp only [bind, Except.bind, powers, E_mul, pure, Except.pure, List.prod_cons]
          congr 2
          ring
    exact key xs l

/-- sum of the products of corresponding items -/
def dotSum (x y : List ℚ) : ℚ := ((x.zip y).map (fun p => p.1 * p.2)).sum

theorem horner_dot (L D : List ℚ) (acc : ℚ) (h : L.length = D.length) :
    hornerFrom acc L D = acc * L.prod + dotSum (powers L) D := by
  induction L generalizing D acc with
  | nil => simp [hornerFrom, powers, dotSum]
  | cons l ls ih =>
    cases D with
    | nil => simp at h
    | cons d ds =>
      have := ih ds (acc * l + d) (by simpa using h)
      simp only [hornerFrom, List.zip_cons_cons, List.foldl_cons] at this ⊢
      rw [this]
      simp only [powers, dotSum, List.zip_cons_cons, List.map_cons, List.sum_cons, List.prod_cons]
      ring

theorem ifold_exact (ps : List (ℚ × ℚ)) (h : ps ≠ []) :
    ifold (m := Id) (fun x y => ofRes (E.add x y)) (fun x y => ofRes (E.mul x y)) ps = pure ((ps.map (fun p => p.1 * p.2)).sum) := by
  induction ps with
  | nil => exact absurd rfl h
  | cons p ps ih =>
    cases ps with
    | nil => simp [ifold, E_mul, ofRes_ok]
    | cons q qs =>
      rw [ifold, ih (by simp)]
      simp only [E_mul, E_add, ofRes_ok, pure_bind, List.map_cons, List.sum_cons]

/-! ### the algorithm for arrays -/

theorem radScan_eq (L : List ℚ) (l0 : ℚ) : ∃ rad, radScan E L = .ok rad ∧ rad ++ [E.one] = powers (l0 :: L) := by
  induction L generalizing l0 with
  | nil => exact ⟨[], rfl, rfl⟩
  | cons x xs ih =>
    cases xs with
    | nil => exact ⟨[x], rfl, by simp [powers, E, exactOps]⟩
    | cons y ys =>
      obtain ⟨rad, h1, h2⟩ := ih x
      rw [radScan, h1]
      cases rad with
      | nil => have := congrArg List.length h2; simp [powers] at this
      | cons h t =>
        simp only [bind, Except.bind, E_mul, pure, Except.pure]
        refine ⟨_, rfl, ?_⟩
        rw [powers, ← h2]
        simp only [powers, List.cons_append, List.cons.injEq] at h2 ⊢
        rw [h2.1]
        simp

theorem carry_shift (L : List ℤ) (r : ℚ) (k : ℤ) (h : ∀ l ∈ L, l ≠ 0) :
    carry (L.map (fun (x : ℤ) => (x : ℚ))) (r - k * (L.map (fun (x : ℤ) => (x : ℚ))).prod) = carry (L.map (fun (x : ℤ) => (x : ℚ))) r - k ∧
    digits (L.map (fun (x : ℤ) => (x : ℚ))) (r - k * (L.map (fun (x : ℤ) => (x : ℚ))).prod) = digits (L.map (fun (x : ℤ) => (x : ℚ))) r := by
  induction L generalizing k with
  | nil => simp [carry, digits]
  | cons l ls ih =>
    have hl : (l : ℚ) ≠ 0 := by exact_mod_cast h l (by simp)
    obtain ⟨h1, h2⟩ := ih (k * l) (fun x hx => h x (by simp [hx]))
    have e : r - k * ((l :: ls).map (fun (x : ℤ) => (x : ℚ))).prod = r - ((k * l : ℤ) : ℚ) * (ls.map (fun (x : ℤ) => (x : ℚ))).prod := by
      simp only [List.map_cons, List.prod_cons]; push_cast; ring
    rw [e]
    simp only [List.map_cons, carry, if_neg hl, digits, h1, h2, qmod]
    have e2 : (carry (ls.map (fun (x : ℤ) => (x : ℚ))) r - ((k * l : ℤ) : ℚ)) / l = carry (ls.map (fun (x : ℤ) => (x : ℚ))) r / l - (k : ℤ) := by
      push_cast; field_simp
    rw [e2, Int.floor_sub_intCast]
    constructor
    · push_cast; ring
    · congr 1; push_cast; ring

theorem floor_floor_div (x : ℚ) (n : ℤ) (hn : 0 < n) : ⌊((⌊x⌋ : ℤ) : ℚ) / n⌋ = ⌊x / n⌋ := by
  have hn' : (0 : ℚ) < n := by exact_mod_cast hn
  rw [Int.floor_eq_iff]
  constructor
  · rw [le_div_iff₀ hn']
    have h1 : ((⌊x / n⌋ : ℤ) : ℚ) ≤ x / n := Int.floor_le _
    rw [le_div_iff₀ hn'] at h1
    have : (⌊x / n⌋ * n : ℤ) ≤ ⌊x⌋ := Int.le_floor.2 (by push_cast; exact h1)
    exact_mod_cast this
  · rw [div_lt_iff₀ hn']
    have h2 : x / n < (⌊x / n⌋ : ℤ) + 1 := Int.lt_floor_add_one _
    rw [div_lt_iff₀ hn'] at h2
    exact lt_of_le_of_lt (Int.floor_le _) h2

theorem carry_floor (l : ℤ) (L : List ℤ) (r : ℚ) (hl : 0 < l) (h : ∀ l ∈ L, 0 < l) :
    carry ((l :: L).map (fun (x : ℤ) => (x : ℚ))) r = (⌊r / ((l :: L).map (fun (x : ℤ) => (x : ℚ))).prod⌋ : ℤ) := by
  induction L generalizing l with
  | nil =>
    have hl' : (l : ℚ) ≠ 0 := by exact_mod_cast ne_of_gt hl
    simp [carry, hl']
  | cons m ms ih =>
    have hl' : (l : ℚ) ≠ 0 := by exact_mod_cast ne_of_gt hl
    have hi := ih m (h m (by simp)) (fun x hx => h x (by simp [hx]))
    rw [List.map_cons, carry, if_neg hl', hi, floor_floor_div _ l hl, List.prod_cons]
    congr 2
    rw [div_div, mul_comm]

theorem prod_pos' (L : List ℤ) (h : ∀ l ∈ L, 0 < l) : 0 < (L.map (fun (x : ℤ) => (x : ℚ))).prod := by
  induction L with
  | nil => simp
  | cons m ms ih =>
    rw [List.map_cons, List.prod_cons]
    have h1 : (0 : ℚ) < m := by exact_mod_cast h m (by simp)
    exact mul_pos h1 (ih (fun x hx => h x (by simp [hx])))

theorem encDigits_eq (l0 : ℚ) (L : List ℤ) (r : ℚ) (h : ∀ l ∈ L, 0 < l) :
    encDigits E (powers (l0 :: L.map (fun (x : ℤ) => (x : ℚ)))) r =
      .ok (carry (L.map (fun (x : ℤ) => (x : ℚ))) r :: digits (L.map (fun (x : ℤ) => (x : ℚ))) r) := by
  induction L generalizing l0 r with
  | nil =>
    simp only [List.map_nil, powers, List.prod_nil, encDigits, E_div _ _ one_ne_zero, bind, Except.bind, List.isEmpty_nil, if_true,
      E_mul, E_sub, pure, Except.pure, carry, digits, div_one]
  | cons m ms ih =>
    have hm := h m (by simp)
    have hms : ∀ l ∈ ms, 0 < l := fun x hx => h x (by simp [hx])
    have hm' : (m : ℚ) ≠ 0 := by exact_mod_cast ne_of_gt hm
    have hP : ((m :: ms).map (fun (x : ℤ) => (x : ℚ))).prod ≠ 0 := by
      exact ne_of_gt (prod_pos' (m :: ms) h)
    have hcar := carry_floor m ms r hm hms
    rw [List.map_cons] at hP hcar ⊢
    rw [powers]
    simp only [encDigits, E_div _ _ hP, bind, Except.bind, E_floor, E_mul, E_sub, pure, Except.pure]
    rw [if_neg (by simp [powers])]
    rw [ih (m : ℚ) _ hms, ← hcar]
    have hk : ∃ k : ℤ, carry ((m : ℚ) :: ms.map (fun (x : ℤ) => (x : ℚ))) r = k := carry_int _ _ _
    obtain ⟨k, hk⟩ := hk
    have hsh := carry_shift ms r (k * m) (fun l hl => ne_of_gt (hms l hl))
    have e : r - carry ((m : ℚ) :: ms.map (fun (x : ℤ) => (x : ℚ))) r * ((m : ℚ) :: ms.map (fun (x : ℤ) => (x : ℚ))).prod =
        r - ((k * m : ℤ) : ℚ) * (ms.map (fun (x : ℤ) => (x : ℚ))).prod := by
      rw [hk, List.prod_cons]; push_cast; ring
    rw [e, hsh.1, hsh.2]
    congr 2
    simp only [digits]
    congr 1
    simp only [qmod, if_neg hm']
    have : (k : ℚ) = (⌊carry (ms.map (fun (x : ℤ) => (x : ℚ))) r / m⌋ : ℤ) := by rw [← hk, carry, if_neg hm']
    rw [Int.cast_mul, this]; ring_nf

theorem encColumn_eq (l0 : ℤ) (L : List ℤ) (r : ℚ) (h : ∀ l ∈ L, 0 < l) :
    encColumn E ((l0 :: L).map (fun (x : ℤ) => (x : ℚ))) r = .ok (digits ((l0 :: L).map (fun (x : ℤ) => (x : ℚ))) r) := by
  obtain ⟨rad, h1, h2⟩ := radScan_eq (L.map (fun (x : ℤ) => (x : ℚ))) (l0 : ℚ)
  simp only [List.map_cons, encColumn, h1, bind, Except.bind, h2, encDigits_eq _ L r h, E_isZero, decide_eq_true_iff]
  by_cases hl : (l0 : ℚ) = 0
  · rw [if_pos hl]
    simp only [digits, qmod, if_pos hl]; rfl
  · rw [if_neg hl]
    simp only [E_mod, digits]; rfl

end Iv
