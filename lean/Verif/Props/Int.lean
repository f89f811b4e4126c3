import Verif.Model.Int
import Mathlib.Data.Nat.Choose.Basic
import Mathlib.Data.Rat.Floor
import Mathlib.Tactic.IntervalCases
/-
C35 integer arithmetic, C37 residue/gcd/lcm, C38 boolean connectives, C39 factorial and binomial.
-/
namespace Iv

theorem wrap_eq_of_I64 {x : Int} (h : I64 x) : wrap x = x := by
  unfold wrap I64 at *
  rw [Int.bmod_eq_of_le] <;> omega

theorem wrap_I64 (x : Int) : I64 (wrap x) := by
  unfold wrap I64
  have h1 := Int.le_bmod (x := x) (m := 2 ^ 64) (by decide)
  have h2 := Int.bmod_lt (x := x) (m := 2 ^ 64) (by decide)
  constructor <;> omega

theorem wrap_dvd (x : Int) : (2 ^ 64 : Int) ∣ x - wrap x := by
  unfold wrap
  have h := Int.dvd_bmod_sub_self (x := x) (m := 2 ^ 64)
  rw [← Int.dvd_neg]
  simpa using h

/-- Specification: `z` is the 64 bit two's complement representation of `x`. -/
def Is64 (x z : Int) : Prop := I64 z ∧ (2 ^ 64 : Int) ∣ x - z

/-- the specification determines the result, and it is exact for numbers in range -/
theorem C35_spec_unique (x z z' : Int) (h : Is64 x z) (h' : Is64 x z') : z = z' := by
  obtain ⟨⟨h1, h2⟩, k, hk⟩ := h
  obtain ⟨⟨h3, h4⟩, k', hk'⟩ := h'
  omega

theorem C35_spec_exact (x z : Int) (h : Is64 x z) (hx : I64 x) : z = x := by
  obtain ⟨⟨h1, h2⟩, k, hk⟩ := h
  unfold I64 at hx
  omega

/-- C35: + - × are the mathematical results modulo 2^64, in range. -/
theorem C35_arith (x y : Int) :
    (∃ z, intAdd2 x y = some z ∧ Is64 (x + y) z) ∧ (∃ z, intSub2 x y = some z ∧ Is64 (x - y) z) ∧
    (∃ z, intMul2 x y = some z ∧ Is64 (x * y) z) ∧ (∃ z, intSub x = some z ∧ Is64 (-x) z) :=
  ⟨⟨_, rfl, wrap_I64 _, wrap_dvd _⟩, ⟨_, rfl, wrap_I64 _, wrap_dvd _⟩, ⟨_, rfl, wrap_I64 _, wrap_dvd _⟩,
    ⟨_, rfl, wrap_I64 _, wrap_dvd _⟩⟩

/-- C35: integer division of 64 bit integers succeeds exactly if the divisor is not 0 and divides the
dividend; the quotient times the divisor is then the dividend, except for the one quotient that does not
fit into 64 bits (which wraps around); otherwise the next numeric type is tried. -/
theorem C35_division (a n : Int) (ha : I64 a) (hn : I64 n) :
    ((intDiv2 a n).isSome ↔ n ≠ 0 ∧ n ∣ a) ∧
    (∀ q, intDiv2 a n = some q → I64 q ∧ (q * n = a ∨ (a = -2 ^ 63 ∧ n = -1 ∧ q = -2 ^ 63))) := by
  by_cases h0 : n = 0
  · subst h0; simp [intDiv2]
  by_cases hsp : a = -2 ^ 63 ∧ n = -1
  · obtain ⟨rfl, rfl⟩ := hsp
    have : intDiv2 (-2 ^ 63) (-1) = some (-2 ^ 63) := by decide
    rw [this]
    refine ⟨by simp, ?_⟩
    intro q hq
    cases hq
    exact ⟨by decide, Or.inr (by decide)⟩
  have habs : (Int.tdiv a n).natAbs ≤ a.natAbs := by
    rw [Int.natAbs_tdiv]; exact Nat.div_le_self _ _
  have hr : I64 (Int.tdiv a n) := by
    unfold I64 at *
    by_cases hmin : a = -2 ^ 63
    · have hn1 : n ≠ -1 := fun h => hsp ⟨hmin, h⟩
      by_cases hn2 : n = 1
      · subst hn2; simp; omega
      · have h2 : 2 ≤ n.natAbs := by omega
        have : (Int.tdiv a n).natAbs ≤ a.natAbs / 2 := by
          rw [Int.natAbs_tdiv]; exact Nat.div_le_div_left h2 (by decide)
        omega
    · omega
  have hdecomp := Int.mul_tdiv_add_tmod a n
  have hprod : (Int.tdiv a n * n).natAbs ≤ a.natAbs := by
    rw [Int.natAbs_mul, Int.natAbs_tdiv]; exact Nat.div_mul_le_self _ _
  have hrn : wrap (Int.tdiv a n * n) = Int.tdiv a n * n := by
    by_cases h : I64 (Int.tdiv a n * n)
    · exact wrap_eq_of_I64 h
    · exfalso
      unfold I64 at *
      have hpm : Int.tdiv a n * n = 2 ^ 63 := by omega
      have ham : a = -2 ^ 63 := by omega
      rw [Int.mul_comm, hpm] at hdecomp
      have hm : (Int.tmod a n).natAbs < n.natAbs := by
        rw [Int.natAbs_tmod]; exact Nat.mod_lt _ (by omega)
      omega
  unfold intDiv2
  simp only
  rw [if_neg h0, wrap_eq_of_I64 hr, hrn]
  have hiff : Int.tdiv a n * n = a ↔ n ∣ a := ⟨fun h => ⟨_, by rw [Int.mul_comm]; exact h.symm⟩, fun h => Int.tdiv_mul_cancel h⟩
  by_cases hd : n ∣ a
  · rw [if_pos (hiff.2 hd)]
    refine ⟨by simp [h0, hd], ?_⟩
    intro q hq
    cases hq
    exact ⟨hr, Or.inl (hiff.2 hd)⟩
  · rw [if_neg (fun h => hd (hiff.1 h))]
    simp [h0, hd]

/-- C35: the reciprocal is an integer only for 1 and ¯1. -/
theorem C35_reciprocal (i : Int) : (intDiv i).isSome ↔ i = 1 ∨ i = -1 := by
  unfold intDiv; split <;> simp_all

theorem C35_reciprocal_value (i r : Int) (h : intDiv i = some r) : r * i = 1 := by
  unfold intDiv at h
  split at h
  · cases h; simp_all
  · split at h
    · cases h; simp_all
    · cases h

/-- C35: the magnitude is |i| for every 64 bit integer but the smallest, sign is ¯1, 0 or 1. -/
theorem C35_abs_sign (i : Int) (hi : I64 i) (hm : i ≠ -2 ^ 63) : intAbs i = some (i.natAbs : Int) ∧ intMul i = some (Int.sign i) := by
  unfold I64 at hi
  constructor
  · unfold intAbs
    split
    · rw [wrap_eq_of_I64 (by unfold I64; omega)]; congr 1; omega
    · congr 1; omega
  · unfold intMul
    split
    · rw [Int.sign_eq_one_of_pos (by omega)]
    · split
      · rw [Int.sign_eq_neg_one_of_neg (by omega)]
      · have : i = 0 := by omega
        subst this; rfl

example : I64 (-2 ^ 63) ∧ I64 7 ∧ intDiv2 12 (-4) = some (-3) ∧ intDiv2 12 5 = none ∧
    intAdd2 (2 ^ 63 - 1) 1 = some (-2 ^ 63) ∧ intMul2 (2 ^ 32) (2 ^ 32 + 1) = some (2 ^ 32) := by decide

/-! ### C38 -/

/-- the truth value of a Bool, or of the integers 0 and 1 -/
def Truth : BI → Bool → Prop
  | .bool b, t => b = t
  | .int n, t => n = if t then 1 else 0

def truthTable : Logic → Bool → Bool → Bool
  | .and, l, r => l && r
  | .or, l, r => l || r
  | .nand, l, r => !(l && r)
  | .nor, l, r => !(l || r)

theorem intToBool_truth (t : Bool) : intToBool (if t then 1 else 0) = some t := by cases t <;> decide

/-- C38: on boolean arguments (of type Bool or the integers 0 and 1, in any mixture) the connectives are
the truth tables. -/
theorem C38_truth (op : Logic) (x y : BI) (l r : Bool) (hx : Truth x l) (hy : Truth y r) :
    logicalScalar op x y = some (.bool (truthTable op l r)) := by
  have hb : ∀ t : Bool, bool2int t = if t then 1 else 0 := fun t => rfl
  cases x <;> cases y <;> simp only [Truth] at hx hy <;> subst hx <;> subst hy <;>
    simp only [logicalScalar, logicalBool, logicalInt, hb, intToBool_truth] <;> cases op <;> rfl

/-- C38: ~ is the negation, and is rejected at the integer type for numbers other than 0 and 1. -/
theorem C38_not (x : BI) : (∀ t, Truth x t → logicalNot x = some (.bool (!t))) ∧
    ((¬ ∃ t, Truth x t) → logicalNot x = none) := by
  cases x with
  | bool b => simp [Truth, logicalNot, biToBool]
  | int n =>
    simp only [Truth, logicalNot, biToBool]
    refine ⟨?_, ?_⟩
    · intro t ht; subst ht; rw [intToBool_truth]; rfl
    · intro h
      have h0 : n ≠ 0 := fun e => h ⟨false, e⟩
      have h1 : n ≠ 1 := fun e => h ⟨true, e⟩
      unfold intToBool
      rw [if_pos (by omega)]; rfl

/-- C38: ⍲ and ⍱ are the negations of ∧ and ∨, and De Morgan's laws hold, all stated on the results of
the interpreter's functions. -/
theorem C38_demorgan (x y : BI) (l r : Bool) (hx : Truth x l) (hy : Truth y r) :
    (logicalScalar .nand x y = (logicalScalar .and x y).bind logicalNot) ∧
    (logicalScalar .nor x y = (logicalScalar .or x y).bind logicalNot) ∧
    ((do let a ← logicalNot x; let b ← logicalNot y; logicalScalar .or a b) = logicalScalar .nand x y) ∧
    ((do let a ← logicalNot x; let b ← logicalNot y; logicalScalar .and a b) = logicalScalar .nor x y) := by
  rw [(C38_not x).1 l hx, (C38_not y).1 r hy, C38_truth .nand x y l r hx hy, C38_truth .and x y l r hx hy,
    C38_truth .nor x y l r hx hy, C38_truth .or x y l r hx hy]
  cases l <;> cases r <;> decide

/-- C38: ⍲ and ⍱ reject integers that are not boolean. -/
theorem C38_reject (op : Logic) (hop : op = .nand ∨ op = .nor) (x y : Int) (h : ¬ (x = 0 ∨ x = 1) ∨ ¬ (y = 0 ∨ y = 1)) :
    logicalScalar op (.int x) (.int y) = none := by
  have key : ∀ n : Int, ¬ (n = 0 ∨ n = 1) → intToBool n = none := by
    intro n hn; unfold intToBool; rw [if_pos (by omega)]
  simp only [logicalScalar, logicalInt]
  rcases h with h | h
  · rw [key x h]; rcases hop with rfl | rfl <;> rfl
  · rw [key y h]; rcases hop with rfl | rfl <;> cases intToBool x <;> rfl

example : Truth (.int 1) true ∧ Truth (.bool false) false ∧ logicalScalar .nor (.int 1) (.bool false) = some (.bool false) := ⟨rfl, rfl, rfl⟩

/-! ### C37 -/

/-- C37: L∨R of two non-zero 64 bit integers that are not both boolean is the greatest common divisor,
and L∧R times L∨R is the magnitude of the product, whenever these fit into 64 bits. -/
theorem C37_gcd (L R : Int) (hL : I64 L) (hR : I64 R) (h0 : L ≠ 0) (h1 : R ≠ 0) (hb : L ≠ 1 ∨ R ≠ 1)
    (hm : L ≠ -2 ^ 63 ∨ R ≠ -2 ^ 63) :
    ∃ g : Int, logicalScalar .or (.int L) (.int R) = some (.int g) ∧ 0 < g ∧ g ∣ L ∧ g ∣ R ∧
      ∀ d : Int, d ∣ L → d ∣ R → d ∣ g := by
  have key : ∀ n : Int, n ≠ 0 → n ≠ 1 → intToBool n = none := by
    intro n hn hn1; unfold intToBool; rw [if_pos (by omega)]
  have hz : ∀ n : Int, n ≠ 0 → intIsZero n = false := by
    intro n hn
    unfold intIsZero intToBool
    split
    · rfl
    · have : n = 1 := by omega
      subst this; rfl
  have hlog : logicalScalar .or (.int L) (.int R) = (intGcd2 L R).map .int := by
    simp only [logicalScalar, logicalInt]
    by_cases hl1 : L = 1
    · rw [key R h1 (by tauto)]; cases intToBool L <;> rfl
    · rw [key L h0 hl1]
  have hgR : (Int.gcd L R : Int) ∣ R := Int.gcd_dvd_right _ _
  have hgL : (Int.gcd L R : Int) ∣ L := Int.gcd_dvd_left _ _
  have hgpos : 0 < Int.gcd L R := Int.gcd_pos_of_ne_zero_left _ h0
  have hr : I64 (Int.gcd L R : Int) := by
    have e1 : Int.gcd L R ≤ L.natAbs := Nat.le_of_dvd (by omega) (by
      have := Int.natAbs_dvd_natAbs.2 hgL; simpa using this)
    have e2 : Int.gcd L R ≤ R.natAbs := Nat.le_of_dvd (by omega) (by
      have := Int.natAbs_dvd_natAbs.2 hgR; simpa using this)
    unfold I64 at *
    omega
  refine ⟨Int.gcd L R, ?_, by omega, hgL, hgR, fun d h1 h2 => Int.dvd_coe_gcd h1 h2⟩
  rw [hlog]
  unfold intGcd2
  rw [hz L h0, hz R h1]
  simp [intGcd, wrap_eq_of_I64 hr]

/-- C37: L∧R is the least common multiple: its product with L∨R is |L×R|. -/
theorem C37_lcm (L R : Int) (hL : I64 L) (hR : I64 R) (h0 : L ≠ 0) (h1 : R ≠ 0) (hb : L ≠ 1 ∨ R ≠ 1)
    (hp : (L * R).natAbs < 2 ^ 63) :
    ∃ l g : Int, logicalScalar .and (.int L) (.int R) = some (.int l) ∧ logicalScalar .or (.int L) (.int R) = some (.int g) ∧
      l * g = (L * R).natAbs ∧ 0 < l ∧ L ∣ l ∧ R ∣ l ∧ ∀ c : Int, L ∣ c → R ∣ c → l ∣ c := by
  have key : ∀ n : Int, n ≠ 0 → n ≠ 1 → intToBool n = none := by
    intro n hn hn1; unfold intToBool; rw [if_pos (by omega)]
  have hz : ∀ n : Int, n ≠ 0 → intIsZero n = false := by
    intro n hn
    unfold intIsZero intToBool
    split
    · rfl
    · have : n = 1 := by omega
      subst this; rfl
  have hm : L ≠ -2 ^ 63 ∨ R ≠ -2 ^ 63 := by
    by_contra hcon
    have : L = -2 ^ 63 ∧ R = -2 ^ 63 := by omega
    rw [this.1, this.2] at hp
    revert hp; decide
  obtain ⟨g, hg1, hg2, hg3, hg4, hg5⟩ := C37_gcd L R hL hR h0 h1 hb hm
  have hgg : g = Int.gcd L R := by
    apply Int.dvd_antisymm (by omega) (by omega)
    · exact Int.dvd_coe_gcd hg3 hg4
    · exact hg5 _ (Int.gcd_dvd_left _ _) (Int.gcd_dvd_right _ _)
  have hlog : logicalScalar .and (.int L) (.int R) = (intLcm L R).map .int := by
    simp only [logicalScalar, logicalInt]
    by_cases hl1 : L = 1
    · rw [key R h1 (by tauto)]; cases intToBool L <;> rfl
    · rw [key L h0 hl1]
  have hG2 : intGcd2 L R = some g := by
    have hlog : logicalScalar .or (.int L) (.int R) = (intGcd2 L R).map .int := by
      simp only [logicalScalar, logicalInt]
      by_cases hl1 : L = 1
      · rw [key R h1 (by tauto)]; cases intToBool L <;> rfl
      · rw [key L h0 hl1]
    rw [hlog] at hg1
    cases h : intGcd2 L R with
    | none => rw [h] at hg1; cases hg1
    | some v => rw [h] at hg1; injection hg1 with hg1; injection hg1 with hg1; rw [hg1]
  have hpI : I64 (L * R) := by unfold I64; omega
  have hpne : L * R ≠ 0 := Int.mul_ne_zero h0 h1
  have hgI : I64 g := by
    rw [hgg]
    have e1 : Int.gcd L R ≤ L.natAbs := Nat.le_of_dvd (by omega) (by
      have := Int.natAbs_dvd_natAbs.2 (Int.gcd_dvd_left L R); simpa using this)
    have e2 : Int.gcd L R ≤ R.natAbs := Nat.le_of_dvd (by omega) (by
      have := Int.natAbs_dvd_natAbs.2 (Int.gcd_dvd_right L R); simpa using this)
    unfold I64 at *
    omega
  have habI : I64 ((L * R).natAbs : Int) := by unfold I64; omega
  have hgd : g ∣ ((L * R).natAbs : Int) := by
    rw [Int.dvd_natAbs]; exact Dvd.dvd.mul_right hg3 R
  obtain ⟨hd1, hd2⟩ := C35_division ((L * R).natAbs : Int) g habI hgI
  have hsome := hd1.2 ⟨by omega, hgd⟩
  obtain ⟨q, hq⟩ := Option.isSome_iff_exists.1 hsome
  have hqg : q * g = (L * R).natAbs := by
    rcases (hd2 q hq).2 with h | h
    · exact h
    · omega
  have hlcm : q = Int.lcm L R := by
    have : (Int.gcd L R : Int) * Int.lcm L R = ((L * R).natAbs : Int) := by
      rw [← Int.natCast_mul, Int.gcd_mul_lcm, Int.natAbs_mul]
    rw [hgg] at hqg
    have hgp : (Int.gcd L R : Int) ≠ 0 := by rw [← hgg]; omega
    apply Int.eq_of_mul_eq_mul_right hgp
    rw [hqg, ← this, Int.mul_comm]
  refine ⟨q, g, ?_, hg1, hqg, ?_, ?_, ?_, ?_⟩
  · rw [hlog]
    unfold intLcm
    rw [hz L h0, hz R h1]
    simp only [Bool.false_eq_true, or_self, if_false, intMul2, hG2, Option.bind_eq_bind, Option.bind_some, wrap_eq_of_I64 hpI]
    have hab : intAbs (L * R) = some ((L * R).natAbs : Int) := by
      unfold intAbs
      split
      · rw [wrap_eq_of_I64 (by unfold I64; omega)]; congr 1; omega
      · congr 1; omega
    rw [hab, Option.bind_some, hq]; rfl
  · have : 0 < Int.lcm L R := Int.lcm_pos h0 h1
    omega
  · rw [hlcm]; exact Int.dvd_lcm_left _ _
  · rw [hlcm]; exact Int.dvd_lcm_right _ _
  · intro c h1 h2; rw [hlcm]; exact Int.coe_lcm_dvd h1 h2

/-- C37: with a zero argument, L∨R is the other number and L∧R is zero. -/
theorem C37_zero (n : Int) (h : n ≠ 0) (h1 : n ≠ 1) :
    logicalScalar .or (.int 0) (.int n) = some (.int n) ∧ logicalScalar .or (.int n) (.int 0) = some (.int n) ∧
    logicalScalar .and (.int 0) (.int n) = some (.int 0) ∧ logicalScalar .and (.int n) (.int 0) = some (.int 0) := by
  have key : intToBool n = none := by unfold intToBool; rw [if_pos (by omega)]
  have hz : intIsZero n = false := by unfold intIsZero; rw [key]; rfl
  have h0 : intToBool 0 = some false := rfl
  have hz0 : intIsZero 0 = true := rfl
  refine ⟨?_, ?_, ?_, ?_⟩ <;> simp [logicalScalar, logicalInt, key, h0, hz, hz0, intGcd2, intLcm]

theorem intAbs2_zero (R : Int) (hR : I64 R) : intAbs2 0 R = some R := by
  have h0 : intIsZero 0 = true := rfl
  have h1 : wrap (0 + 1) = 1 := rfl
  have h2 : intDiv2 R 1 = some R := by
    unfold intDiv2
    simp [wrap_eq_of_I64 hR]
  have hw : wrap 0 = 0 := rfl
  simp only [intAbs2, genAbs2, intOps, h0, if_true, intAdd2, h1, Option.bind_eq_bind, Option.bind_some, h2, intMul2,
    Int.zero_mul, hw, intSub2, Int.sub_zero, wrap_eq_of_I64 hR]

/-- C37, residue in the integer type: `0|R` is R; if L divides R the residue is 0; otherwise the
integer type does not handle the call and the next number type computes it (`C37_residue_exact`). -/
theorem C37_residue_int (L R : Int) (hL : I64 L) (hR : I64 R) (hm : R ≠ -2 ^ 63 ∨ L ≠ -1) :
    (L = 0 → intAbs2 L R = some R) ∧ (L ≠ 0 → L ∣ R → intAbs2 L R = some 0) ∧ (L ≠ 0 → ¬ L ∣ R → intAbs2 L R = none) := by
  refine ⟨fun h => by subst h; exact intAbs2_zero R hR, ?_, ?_⟩
  all_goals
    intro h0 hd
    have hz : intIsZero L = false := by
      unfold intIsZero intToBool
      split
      · rfl
      · have : L = 1 := by omega
        subst this; rfl
    have hadd : wrap (L + 0) = L := by rw [Int.add_zero, wrap_eq_of_I64 hL]
    obtain ⟨c1, c2⟩ := C35_division R L hR hL
    simp only [intAbs2, genAbs2, intOps, hz, intAdd2, Option.bind_eq_bind, Option.bind_some, Bool.false_eq_true, if_false, hadd]
  · obtain ⟨q, hq⟩ := Option.isSome_iff_exists.1 (c1.2 ⟨h0, hd⟩)
    have hqm : q * L = R := by
      rcases (c2 q hq).2 with h | h
      · exact h
      · omega
    rw [hq]
    simp only [Option.bind_some, intMul2, intSub2]
    rw [Int.mul_comm, hqm, wrap_eq_of_I64 hR, Int.sub_self]
    rfl
  · cases h : intDiv2 R L with
    | none => rfl
    | some q => exact absurd (c1.1 (by rw [h]; rfl)).2 hd

/-- C37, residue in a type with exact arithmetic (rationals; `floor` is the type's floor method,
assumed exact at the quotient, which holds for quotients below 2^53): the residue is congruent to R
modulo L and lies between 0 and L (on L's side), `0|R` is R. -/
theorem C37_residue_exact (floor : ℚ → Option ℚ) (L R : ℚ)
    (hf : floor (R / (if L = 0 then 1 else L)) = some ((⌊R / (if L = 0 then 1 else L)⌋ : ℤ) : ℚ)) :
    ∃ r : ℚ, genAbs2 (ratOps floor) L R = some r ∧ (L = 0 → r = R) ∧
      (∃ k : ℤ, R = r + L * k) ∧ (0 < L → 0 ≤ r ∧ r < L) ∧ (L < 0 → L < r ∧ r ≤ 0) := by
  by_cases h0 : L = 0
  · subst h0
    rw [if_pos rfl] at hf
    refine ⟨R, ?_, fun _ => rfl, ⟨0, by simp⟩, fun h => absurd h (lt_irrefl _), fun h => absurd h (lt_irrefl _)⟩
    rw [div_one] at hf
    simp [genAbs2, ratOps, hf]
  · rw [if_neg h0] at hf
    refine ⟨R - L * (⌊R / L⌋ : ℤ), ?_, fun h => absurd h h0, ⟨⌊R / L⌋, by ring⟩, ?_, ?_⟩
    · simp [genAbs2, ratOps, h0, hf]
    all_goals
      intro hs
      have e1 := Int.floor_le (R / L)
      have e2 := Int.lt_floor_add_one (R / L)
      have e3 : R = R / L * L := by field_simp
    · constructor <;> nlinarith
    · constructor <;> nlinarith

/-- for integers L, R the exact residue is the integer remainder with the sign of L -/
theorem C37_residue_integers (floor : ℚ → Option ℚ) (L R : ℤ) (h0 : L ≠ 0)
    (hf : floor ((R : ℚ) / L) = some ((⌊(R : ℚ) / L⌋ : ℤ) : ℚ)) :
    genAbs2 (ratOps floor) (L : ℚ) (R : ℚ) = some ((R.fmod L : ℤ) : ℚ) := by
  have h0' : (L : ℚ) ≠ 0 := by exact_mod_cast h0
  obtain ⟨r, hr, _, ⟨k, hk⟩, h1, h2⟩ := C37_residue_exact floor (L : ℚ) (R : ℚ) (by rw [if_neg h0']; exact hf)
  rw [hr]
  congr 1
  have hrk : r = ((R - L * k : ℤ) : ℚ) := by push_cast; linarith
  rw [hrk]
  rw [hrk] at h1 h2
  norm_cast at *
  have hfm := Int.fmod_add_mul_fdiv R L
  rcases lt_or_gt_of_ne h0 with hneg | hpos
  · obtain ⟨a1, a2⟩ := h2 hneg
    have b : R.fmod L ≤ 0 := by
      have h := Int.fmod_nonneg_of_pos (-R) (b := -L) (by omega)
      rw [Int.neg_fmod_neg] at h; omega
    have b2 : L < R.fmod L := by
      have h := Int.fmod_lt_of_pos (-R) (b := -L) (by omega)
      rw [Int.neg_fmod_neg] at h; omega
    have : L * (R.fdiv L - k) = (R - L * k) - R.fmod L := by rw [Int.mul_sub]; omega
    have hz : R.fdiv L - k = 0 := by
      by_contra hc
      rcases lt_or_gt_of_ne hc with h | h
      · have : L * (R.fdiv L - k) ≥ -L := by nlinarith
        omega
      · have : L * (R.fdiv L - k) ≤ L := by nlinarith
        omega
    rw [hz] at this; omega
  · obtain ⟨a1, a2⟩ := h1 hpos
    have b := Int.fmod_nonneg_of_pos R hpos
    have b2 := Int.fmod_lt_of_pos R hpos
    have : L * (R.fdiv L - k) = (R - L * k) - R.fmod L := by rw [Int.mul_sub]; omega
    have hz : R.fdiv L - k = 0 := by
      by_contra hc
      rcases lt_or_gt_of_ne hc with h | h
      · have : L * (R.fdiv L - k) ≤ -L := by nlinarith
        omega
      · have : L * (R.fdiv L - k) ≥ L := by nlinarith
        omega
    rw [hz] at this; omega

example : intAbs2 4 12 = some 0 ∧ intAbs2 5 12 = none ∧ intAbs2 0 12 = some 12 ∧
    logicalScalar .or (.int 12) (.int (-18)) = some (.int 6) ∧ logicalScalar .and (.int 12) (.int (-18)) = some (.int 36) := by
  refine ⟨by decide, by decide, by decide, by decide, by decide⟩

/-! ### C39 -/

theorem fact_le {n : Nat} (h : n ≤ 20) : n.factorial ≤ Nat.factorial 20 := Nat.factorial_le h

theorem fact_I64 {n : Nat} (h : n ≤ 20) : I64 (n.factorial : Int) := by
  have h1 := fact_le h
  have h2 : Nat.factorial 20 = 2432902008176640000 := by decide
  unfold I64; omega

theorem gammaLoop_eq (c k : Nat) (h : k + c ≤ 20) : gammaLoop c ((k : Int) + 1) (k.factorial : Int) = ((k + c).factorial : Int) := by
  induction c generalizing k with
  | zero => rfl
  | succ c ih =>
    rw [gammaLoop]
    have e : (k.factorial : Int) * ((k : Int) + 1) = ((k + 1).factorial : Int) := by
      rw [Nat.factorial_succ]; push_cast; ring
    rw [e, wrap_eq_of_I64 (fact_I64 (by omega))]
    have := ih (k + 1) (by omega)
    push_cast at this ⊢
    rw [this]
    congr 2; omega

/-- C39: !n is n! for 0 ≤ n ≤ 20 and is passed to the next number type otherwise. -/
theorem C39_factorial (n : Int) : (∀ k : Nat, n = k → k ≤ 20 → intGamma n = some (k.factorial : Int)) ∧
    ((n < 0 ∨ 20 < n) → intGamma n = none) := by
  constructor
  · rintro k rfl hk
    unfold intGamma
    rw [if_neg (by omega)]
    by_cases h0 : k = 0
    · subst h0; rfl
    · rw [if_neg (by omega)]
      have := gammaLoop_eq k 0 (by omega)
      simp only [Nat.zero_add] at this
      rw [Int.toNat_natCast]
      exact congrArg some this
  · intro h
    unfold intGamma
    rw [if_pos h]

theorem gamma2Pos_eq (k n : Nat) (hkn : k ≤ n) (hn : n ≤ 20) : gamma2Pos k n = some (n.choose k : Int) := by
  unfold gamma2Pos
  have hsub : wrap ((n : Int) - k) = ((n - k : Nat) : Int) := by
    rw [wrap_eq_of_I64 (by unfold I64; omega)]; omega
  rw [(C39_factorial k).1 k rfl (by omega), (C39_factorial n).1 n rfl hn, hsub, (C39_factorial ((n - k : Nat) : Int)).1 _ rfl (by omega)]
  simp only [Option.bind_eq_bind, Option.bind_some]
  have hmul : k.factorial * (n - k).factorial ≤ n.factorial :=
    Nat.le_of_dvd (Nat.factorial_pos _) (Nat.factorial_mul_factorial_dvd_factorial hkn)
  have hI : I64 ((k.factorial : Int) * ((n - k).factorial : Int)) := by
    have := fact_I64 hn
    unfold I64 at *
    have : ((k.factorial * (n - k).factorial : Nat) : Int) ≤ (n.factorial : Int) := by exact_mod_cast hmul
    push_cast at this
    have h0 : (0 : Int) ≤ (k.factorial : Int) * ((n - k).factorial : Int) := by positivity
    omega
  rw [wrap_eq_of_I64 hI]
  have hch : Int.tdiv (n.factorial : Int) ((k.factorial : Int) * ((n - k).factorial : Int)) = (n.choose k : Int) := by
    rw [Nat.choose_eq_factorial_div_factorial hkn, ← Int.natCast_mul]
    exact (Int.ofNat_tdiv _ _)
  rw [hch]
  have hcI : I64 (n.choose k : Int) := by
    have h1 : n.choose k ≤ n.factorial := by
      rw [Nat.choose_eq_factorial_div_factorial hkn]; exact Nat.div_le_self _ _
    have := fact_I64 hn
    unfold I64 at *
    omega
  rw [wrap_eq_of_I64 hcI]
  rfl

theorem gamma2NN_eq (k n : Nat) (hk : k < 2 ^ 63) (hn : n ≤ 20) : gamma2NN k n = some (n.choose k : Int) := by
  have hw : wrap ((n : Int) - k) = (n : Int) - k := wrap_eq_of_I64 (by unfold I64; omega)
  unfold gamma2NN
  rw [hw]
  by_cases h : k ≤ n
  · rw [if_pos (by omega), gamma2Pos_eq k n h hn]
  · rw [if_neg (by omega), if_pos (by omega), Nat.choose_eq_zero_of_lt (by omega)]; rfl

/-- C39: for 0 ≤ k and 0 ≤ n ≤ 20, k!n is the binomial coefficient (0 if k > n). -/
theorem C39_binomial (k n : Nat) (hk : k < 2 ^ 63) (hn : n ≤ 20) : intGamma2 k n = some (n.choose k : Int) := by
  have := gamma2NN_eq k n hk hn
  have hw : wrap ((n : Int) - k) = (n : Int) - k := wrap_eq_of_I64 (by unfold I64; omega)
  unfold gamma2NN at this
  unfold intGamma2
  rw [hw] at this ⊢
  by_cases h : k ≤ n
  · rw [if_pos (by omega)] at this ⊢; exact this
  · rw [if_neg (by omega), if_pos (by omega)] at this ⊢; exact this

/-- C39: for k > n ≥ 0 of any size the binomial is 0. -/
theorem C39_zero (k n : Nat) (hk : k < 2 ^ 63) (h : n < k) : intGamma2 k n = some 0 := by
  have hw : wrap ((n : Int) - k) = (n : Int) - k := wrap_eq_of_I64 (by unfold I64; omega)
  unfold intGamma2
  rw [hw, if_neg (by omega), if_pos (by omega)]

/-- C39: beyond the table the call is passed to the next number type. -/
theorem C39_range (k n : Nat) (hk : k ≤ n) (hn : 20 < n) (hn' : n < 2 ^ 63) : intGamma2 k n = none := by
  have hw : wrap ((n : Int) - k) = (n : Int) - k := wrap_eq_of_I64 (by unfold I64; omega)
  unfold intGamma2
  rw [hw, if_pos (by omega)]
  unfold gamma2Pos
  rw [(C39_factorial n).2 (Or.inr (by omega))]
  cases intGamma (k : Int) <;> rfl

theorem tmod_two (n : Int) : m1exp n = if 2 ∣ n then 1 else -1 := by
  unfold m1exp
  by_cases h : (2 : Int) ∣ n
  · rw [if_pos (Int.tmod_eq_zero_of_dvd h), if_pos h]
  · rw [if_neg (fun e => h (Int.dvd_of_tmod_eq_zero e)), if_neg h]

/-- C39, negative R and non-negative L=k (upper negation): `k!-r` is `(¯1*k)×k!k+r-1`. -/
theorem C39_negative_right (k r : Nat) (hr : 0 < r) (hkr : k + r - 1 ≤ 20) :
    intGamma2 k (-(r : Int)) = some ((if 2 ∣ k then 1 else -1) * ((k + r - 1).choose k : Int)) := by
  have hw : wrap (-(r : Int) - k) = -(r : Int) - k := wrap_eq_of_I64 (by unfold I64; omega)
  have hw1 : wrap (1 + -(r : Int)) = 1 - r := by rw [wrap_eq_of_I64] <;> (try unfold I64) <;> omega
  have hw2 : wrap ((k : Int) - (1 - r)) = ((k + r - 1 : Nat) : Int) := by rw [wrap_eq_of_I64] <;> (try unfold I64) <;> omega
  unfold intGamma2
  rw [hw, if_neg (by omega), if_neg (by omega), if_pos (by omega), hw1, hw2, gamma2NN_eq k _ (by omega) hkr, tmod_two]
  simp only [Option.bind_eq_bind, Option.bind_some]
  have hcI : I64 ((k + r - 1).choose k : Int) ∧ I64 (-((k + r - 1).choose k : Int)) := by
    have h1 : (k + r - 1).choose k ≤ (k + r - 1).factorial := by
      rw [Nat.choose_eq_factorial_div_factorial (by omega)]; exact Nat.div_le_self _ _
    have := fact_I64 hkr
    unfold I64 at *
    omega
  have hdv : ((2 : Int) ∣ (k : Int)) ↔ 2 ∣ k := by omega
  by_cases h2 : 2 ∣ k
  · rw [if_pos (hdv.2 h2), if_pos h2, Int.one_mul, wrap_eq_of_I64 hcI.1]; rfl
  · rw [if_neg (fun h => h2 (hdv.1 h)), if_neg h2, Int.neg_one_mul, wrap_eq_of_I64 hcI.2]; rfl

/-- C39, both negative with L ≤ R: `-l!-r` is `(¯1*l-r)×(r-1)!(l-1)`; with L > R it is 0; a negative L with R ≥ 0
gives 0. -/
theorem C39_negative_left (l r : Nat) (hl : 0 < l) (hl2 : l < 2 ^ 62) (hr2 : r < 2 ^ 62) :
    intGamma2 (-(l : Int)) r = some 0 ∧
    (0 < r → l < r → intGamma2 (-(l : Int)) (-(r : Int)) = some 0) ∧
    (0 < r → r ≤ l → l - 1 ≤ 20 →
      intGamma2 (-(l : Int)) (-(r : Int)) = some ((if 2 ∣ (l - r) then 1 else -1) * ((l - 1).choose (r - 1) : Int))) := by
  have hw : wrap (-(r : Int) - -(l : Int)) = (l : Int) - r := by rw [wrap_eq_of_I64] <;> (try unfold I64) <;> omega
  have hw0 : wrap ((r : Int) - -(l : Int)) = (l : Int) + r := by rw [wrap_eq_of_I64] <;> (try unfold I64) <;> omega
  refine ⟨?_, ?_, ?_⟩
  · unfold intGamma2
    rw [hw0, if_neg (by omega), if_neg (by omega), if_neg (by omega), if_pos (by omega)]
  · intro h0 hlr
    unfold intGamma2
    rw [hw, if_neg (by omega), if_neg (by omega), if_neg (by omega), if_neg (by omega), if_neg (by omega), if_pos (by omega)]
  · intro h0 hlr h20
    have hw1 : wrap (1 + -(l : Int)) = 1 - l := by rw [wrap_eq_of_I64] <;> (try unfold I64) <;> omega
    have hw2 : wrap (-(r : Int) + 1) = 1 - r := by rw [wrap_eq_of_I64] <;> (try unfold I64) <;> omega
    have hw3 : wrap (-(1 - (r : Int))) = ((r - 1 : Nat) : Int) := by rw [wrap_eq_of_I64] <;> (try unfold I64) <;> omega
    have hal : (if (1 - (l : Int)) < 0 then wrap (-(1 - (l : Int))) else 1 - l) = ((l - 1 : Nat) : Int) := by
      split
      · rw [wrap_eq_of_I64] <;> (try unfold I64) <;> omega
      · omega
    unfold intGamma2
    rw [hw, if_neg (by omega), if_neg (by omega), if_neg (by omega), if_neg (by omega), if_pos (by omega)]
    simp only [hw1, hw2, hw3, hal]
    rw [gamma2NN_eq _ _ (by omega) h20, tmod_two]
    simp only [Option.bind_eq_bind, Option.bind_some]
    have hcI : I64 ((l - 1).choose (r - 1) : Int) ∧ I64 (-((l - 1).choose (r - 1) : Int)) := by
      have h1 : (l - 1).choose (r - 1) ≤ (l - 1).factorial := by
        rw [Nat.choose_eq_factorial_div_factorial (by omega)]; exact Nat.div_le_self _ _
      have := fact_I64 h20
      unfold I64 at *
      omega
    have hdv : ((2 : Int) ∣ ((l : Int) - r)) ↔ 2 ∣ (l - r) := by omega
    by_cases h2 : 2 ∣ (l - r)
    · rw [if_pos (hdv.2 h2), if_pos h2, Int.one_mul, wrap_eq_of_I64 hcI.1]; rfl
    · rw [if_neg (fun h => h2 (hdv.1 h)), if_neg h2, Int.neg_one_mul, wrap_eq_of_I64 hcI.2]; rfl

theorem gamma2NN_range (k n : Nat) (hk : k ≤ n) (hn : 20 < n) (hn' : n < 2 ^ 63) : gamma2NN k n = none := by
  have hw : wrap ((n : Int) - k) = (n : Int) - k := wrap_eq_of_I64 (by unfold I64; omega)
  unfold gamma2NN
  rw [hw, if_pos (by omega)]
  unfold gamma2Pos
  rw [(C39_factorial n).2 (Or.inr (by omega))]
  cases intGamma (k : Int) <;> rfl

/-- C39: with negative arguments too the call is passed to the next number type when the table of the factorials is exceeded. -/
theorem C39_range_negative :
    (∀ k r : Nat, 0 < r → 20 < k + r - 1 → k < 2 ^ 62 → r < 2 ^ 62 → intGamma2 k (-(r : Int)) = none) ∧
    (∀ l r : Nat, 0 < r → r ≤ l → 20 < l - 1 → l < 2 ^ 62 → intGamma2 (-(l : Int)) (-(r : Int)) = none) := by
  constructor
  · intro k r hr h hk hr2
    have hw : wrap (-(r : Int) - k) = -(r : Int) - k := wrap_eq_of_I64 (by unfold I64; omega)
    have hw1 : wrap (1 + -(r : Int)) = 1 - r := by rw [wrap_eq_of_I64] <;> (try unfold I64) <;> omega
    have hw2 : wrap ((k : Int) - (1 - r)) = ((k + r - 1 : Nat) : Int) := by rw [wrap_eq_of_I64] <;> (try unfold I64) <;> omega
    unfold intGamma2
    rw [hw, if_neg (by omega), if_neg (by omega), if_pos (by omega), hw1, hw2, gamma2NN_range k _ (by omega) h (by omega)]
    rfl
  · intro l r hr hlr h hl
    have hw : wrap (-(r : Int) - -(l : Int)) = (l : Int) - r := by rw [wrap_eq_of_I64] <;> (try unfold I64) <;> omega
    have hw1 : wrap (1 + -(l : Int)) = 1 - l := by rw [wrap_eq_of_I64] <;> (try unfold I64) <;> omega
    have hw2 : wrap (-(r : Int) + 1) = 1 - r := by rw [wrap_eq_of_I64] <;> (try unfold I64) <;> omega
    have hw3 : wrap (-(1 - (r : Int))) = ((r - 1 : Nat) : Int) := by rw [wrap_eq_of_I64] <;> (try unfold I64) <;> omega
    have hal : (if (1 - (l : Int)) < 0 then wrap (-(1 - (l : Int))) else 1 - l) = ((l - 1 : Nat) : Int) := by
      split
      · rw [wrap_eq_of_I64] <;> (try unfold I64) <;> omega
      · omega
    unfold intGamma2
    rw [hw, if_neg (by omega), if_neg (by omega), if_neg (by omega), if_neg (by omega), if_pos (by omega)]
    simp only [hw1, hw2, hw3, hal]
    rw [gamma2NN_range _ _ (by omega) h (by omega)]
    rfl

example : intGamma 5 = some 120 ∧ intGamma2 3 7 = some 35 ∧ intGamma2 3 (-4) = some (-20) ∧ intGamma2 (-6) (-3) = some (-10) := by
  decide

end Iv
