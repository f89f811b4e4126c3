import Verif.Model.Big
import Verif.Props.Tower
import Verif.Props.Int
import Mathlib.Tactic.Ring
import Mathlib.Tactic.FieldSimp
import Mathlib.Tactic.Linarith
/-
C84 big numbers: exact arithmetic with integers of arbitrary size and rationals.
-/
namespace Iv

/-- Specification: the mathematical value of a number. -/
def bigVal : BigN → ℚ
  | .bool b => if b then 1 else 0
  | .int n => n
  | .num _ (.int n) => n
  | .num _ (.rat q) => q

/-- Specification: the numbers that exist in the big tower. -/
inductive IsNum : BigN → Prop
  | bool (b) : IsNum (.bool b)
  | int (n : Int) (h : I64 n) : IsNum (.int n)
  | bigInt (n : Int) : IsNum (.num 0 (.int n))
  | rat (q : ℚ) : IsNum (.num 1 (.rat q))

/-- Specification: an integer of arbitrary size or a rational. -/
def IsBig (x : BigN) : Prop := (∃ n : Int, x = bigI n) ∨ ∃ q : ℚ, x = bigR q

/-- Specification: no rational type (a Bool, a native or a big integer). -/
def IsIntType (x : BigN) : Prop := (∃ b, x = .bool b) ∨ (∃ n, x = .int n) ∨ ∃ n : Int, x = bigI n

/-- Specification: the mathematical operation. -/
def exact (op : BigOp) (x y : ℚ) : ℚ :=
  match op with
  | .add => x + y
  | .sub => x - y
  | .mul => x * y
  | .div => x / y
  | .min => min x y
  | .max => max x y

/-! ### what `arith2` does in this tower -/

def firstOf' {ρ} (a : Option ρ) (b : Res ρ) : Res ρ := match a with | some v => .ok v | none => b

/-- the integer value of an integer type -/
def intVal : BigN → Int
  | .bool b => if b then 1 else 0
  | .int n => n
  | .num _ (.int n) => n
  | .num _ (.rat _) => 0

theorem intVal_eq {x : BigN} (h : IsIntType x) : (intVal x : ℚ) = bigVal x := by
  obtain ⟨b, rfl⟩ | ⟨n, rfl⟩ | ⟨n, rfl⟩ := h
  · cases b <;> simp [intVal, bigVal]
  · rfl
  · rfl

theorem num_cases {x : BigN} (h : IsNum x) : (∃ b, x = .bool b) ∨ (∃ n, x = .int n ∧ I64 n) ∨ (∃ n : Int, x = bigI n) ∨ ∃ q : ℚ, x = bigR q := by
  cases h
  · exact .inl ⟨_, rfl⟩
  · exact .inr (.inl ⟨_, rfl, ‹_›⟩)
  · exact .inr (.inr (.inl ⟨_, rfl⟩))
  · exact .inr (.inr (.inr ⟨_, rfl⟩))

section
variable {ρ : Type} (fn : BigN → BigN → Option ρ)

theorem loop_rat (a b : ℚ) :
    bigTower.arith2Loop fn 1 (some (.cls 1)) (bigR a) (bigR b) = firstOf' (fn (bigR a) (bigR b)) (.error .err) := by
  simp only [Tower.arith2Loop]
  cases hf : fn (bigR a) (bigR b) with
  | some v => rfl
  | none => rfl

theorem loop_int (a b : Int) :
    bigTower.arith2Loop fn 2 (some (.cls 0)) (bigI a) (bigI b) =
      firstOf' (fn (bigI a) (bigI b)) (firstOf' (fn (bigR a) (bigR b)) (.error .err)) := by
  rw [Tower.arith2Loop]
  cases hf : fn (bigI a) (bigI b) with
  | some v => rfl
  | none => exact loop_rat fn a b

theorem loop_nat (a b : Int) :
    bigTower.arith2Loop fn 3 (some .int) (.int a) (.int b) =
      firstOf' (fn (.int a) (.int b)) (firstOf' (fn (bigI a) (bigI b)) (firstOf' (fn (bigR a) (bigR b)) (.error .err))) := by
  rw [Tower.arith2Loop]
  cases hf : fn (.int a) (.int b) with
  | some v => rfl
  | none => exact loop_int fn a b

theorem firstOf_dup (a : Option ρ) (b : Res ρ) : firstOf' a (firstOf' a b) = firstOf' a b := by cases a <;> rfl

theorem arith2_same (x y : BigN) (hs : sameGoType x y = true) (num : Numeric) (hc : bigTower.sameType x y = .ok (x, y))
    (hn : bigTower.toNumeric x = some num) :
    bigTower.arith2 fn x y = firstOf' (fn x y) (bigTower.arith2Loop fn ((bigTower.len : Int) - cls x).toNat (some num) x y) := by
  unfold Tower.arith2
  rw [hs]
  simp only [if_true]
  cases hf : fn x y with
  | some v => rfl
  | none => simp only [hc, bind, Except.bind, hn]; rfl

/-- with a rational on one side -/
theorem arith2_rat (L R : BigN) (hL : IsNum L) (hR : IsNum R) (h : (∃ q, L = bigR q) ∨ ∃ q, R = bigR q) :
    bigTower.arith2 fn L R = firstOf' (fn (bigR (bigVal L)) (bigR (bigVal R))) (.error .err) := by
  obtain ⟨q, rfl⟩ | ⟨q, rfl⟩ := h
  · obtain ⟨b, rfl⟩ | ⟨n, rfl, hn⟩ | ⟨n, rfl⟩ | ⟨q', rfl⟩ := num_cases hR
    · have := loop_rat fn q (if b then 1 else 0)
      cases b <;> exact this
    · exact loop_rat fn q n
    · exact loop_rat fn q n
    · rw [arith2_same fn _ _ rfl (.cls 1) rfl rfl]
      exact (congrArg _ (loop_rat fn q q')).trans (firstOf_dup _ _)
  · obtain ⟨b, rfl⟩ | ⟨n, rfl, hn⟩ | ⟨n, rfl⟩ | ⟨q', rfl⟩ := num_cases hL
    · have := loop_rat fn (if b then 1 else 0) q
      cases b <;> exact this
    · exact loop_rat fn n q
    · exact loop_rat fn n q
    · rw [arith2_same fn _ _ rfl (.cls 1) rfl rfl]
      exact (congrArg _ (loop_rat fn q' q)).trans (firstOf_dup _ _)

/-- two integer types, one of them big -/
theorem arith2_int (L R : BigN) (hL : IsIntType L) (hR : IsIntType R) (h : (∃ n, L = bigI n) ∨ ∃ n, R = bigI n) :
    bigTower.arith2 fn L R = firstOf' (fn (bigI (intVal L)) (bigI (intVal R)))
      (firstOf' (fn (bigR (bigVal L)) (bigR (bigVal R))) (.error .err)) := by
  rw [← intVal_eq hL, ← intVal_eq hR]
  obtain ⟨q, rfl⟩ | ⟨q, rfl⟩ := h
  · obtain ⟨b, rfl⟩ | ⟨n, rfl⟩ | ⟨n, rfl⟩ := hR
    · exact loop_int fn q (if b then 1 else 0)
    · exact loop_int fn q n
    · rw [arith2_same fn _ _ rfl (.cls 0) rfl rfl]
      exact (congrArg _ (loop_int fn q n)).trans (firstOf_dup _ _)
  · obtain ⟨b, rfl⟩ | ⟨n, rfl⟩ | ⟨n, rfl⟩ := hL
    · exact loop_int fn (if b then 1 else 0) q
    · exact loop_int fn n q
    · rw [arith2_same fn _ _ rfl (.cls 0) rfl rfl]
      exact (congrArg _ (loop_int fn n q)).trans (firstOf_dup _ _)

/-- two native integers (or a native integer and a Bool) -/
theorem arith2_nat (L R : BigN) (hL : (∃ b, L = .bool b) ∨ ∃ n, L = .int n) (hR : (∃ b, R = .bool b) ∨ ∃ n, R = .int n)
    (h : (∃ n, L = .int n) ∨ ∃ n, R = .int n) :
    bigTower.arith2 fn L R = firstOf' (fn (.int (intVal L)) (.int (intVal R))) (firstOf' (fn (bigI (intVal L)) (bigI (intVal R)))
      (firstOf' (fn (bigR (bigVal L)) (bigR (bigVal R))) (.error .err))) := by
  rw [← intVal_eq (hL.elim .inl (fun h => .inr (.inl h))), ← intVal_eq (hR.elim .inl (fun h => .inr (.inl h)))]
  obtain ⟨q, rfl⟩ | ⟨q, rfl⟩ := h
  · obtain ⟨b, rfl⟩ | ⟨n, rfl⟩ := hR
    · exact loop_nat fn q (if b then 1 else 0)
    · rw [arith2_same fn _ _ rfl .int rfl rfl]
      exact (congrArg _ (loop_nat fn q n)).trans (firstOf_dup _ _)
  · obtain ⟨b, rfl⟩ | ⟨n, rfl⟩ := hL
    · exact loop_nat fn (if b then 1 else 0) q
    · rw [arith2_same fn _ _ rfl .int rfl rfl]
      exact (congrArg _ (loop_nat fn n q)).trans (firstOf_dup _ _)

/-- two Bools -/
theorem arith2_bool (b b' : Bool) :
    bigTower.arith2 fn (.bool b) (.bool b') = firstOf' (fn (.bool b) (.bool b'))
      (firstOf' (fn (.int (if b then 1 else 0)) (.int (if b' then 1 else 0))) (.error .panic)) := by
  rw [arith2_same fn _ _ rfl .bool rfl rfl]
  show firstOf' _ (bigTower.arith2Loop fn 4 _ _ _) = _
  simp only [Tower.arith2Loop, Tower.uptype, bind, Except.bind, bool2int, Tower.lookupType]
  cases fn (.bool b) (.bool b') with
  | some v => rfl
  | none =>
    cases fn (.int (if b then 1 else 0)) (.int (if b' then 1 else 0)) <;> rfl
end

/-- C84: + - × ⌊ ⌈ and ÷ by a number other than 0, of two numbers of which at least one is big, give a number of
exactly the mathematical value. -/
theorem C84_exact (op : BigOp) (L R : BigN) (hL : IsNum L) (hR : IsNum R) (hb : IsBig L ∨ IsBig R)
    (hd : op = .div → bigVal R ≠ 0) :
    ∃ z, bigDyadic op L R = .ok (.num z) ∧ IsNum z ∧ bigVal z = exact op (bigVal L) (bigVal R) := by
  have hrat : ∀ x y : ℚ, (op = .div → y ≠ 0) → ∃ z, bigFn op (bigR x) (bigR y) = some (.num z) ∧ IsNum z ∧ bigVal z = exact op x y := by
    intro x y hy
    cases op with
    | add => exact ⟨_, rfl, .rat _, rfl⟩
    | sub => exact ⟨_, rfl, .rat _, rfl⟩
    | mul => exact ⟨_, rfl, .rat _, rfl⟩
    | div =>
      have hy := hy rfl
      simp only [bigFn, bigRatDiv2, hy, and_false, if_false]
      split
      · rename_i h0; exact ⟨_, rfl, .bigInt _, by simp [bigVal, exact, h0]⟩
      · exact ⟨_, rfl, .rat _, rfl⟩
    | min =>
      refine ⟨_, rfl, .rat _, ?_⟩
      simp only [bigVal, exact, min_def]; split <;> split <;> linarith
    | max =>
      refine ⟨_, rfl, .rat _, ?_⟩
      simp only [bigVal, exact, max_def]; split <;> split <;> linarith
  have hint : ∀ x y : Int, (op = .div → (y : ℚ) ≠ 0) → (∃ z, bigFn op (bigI x) (bigI y) = some (.num z) ∧ IsNum z ∧ bigVal z = exact op x y) ∨
      bigFn op (bigI x) (bigI y) = none := by
    intro x y hy
    cases op with
    | add => exact .inl ⟨_, rfl, .bigInt _, by simp [bigVal, exact]⟩
    | sub => exact .inl ⟨_, rfl, .bigInt _, by simp [bigVal, exact]⟩
    | mul => exact .inl ⟨_, rfl, .bigInt _, by simp [bigVal, exact]⟩
    | div =>
      have hy := hy rfl
      have hy' : y ≠ 0 := fun h => hy (by simp [h])
      simp only [bigFn, bigIntDiv2, hy', and_false, if_false]
      split
      · rename_i h0; exact .inl ⟨_, rfl, .bigInt _, by simp [bigVal, exact, h0]⟩
      · split
        · rename_i h1
          refine .inl ⟨_, rfl, .bigInt _, ?_⟩
          simp only [bigVal, exact]
          rw [eq_div_iff hy]
          exact_mod_cast h1
        · exact .inr rfl
    | min =>
      refine .inl ⟨_, rfl, .bigInt _, ?_⟩
      simp only [bigVal, exact, min_def]
      split <;> split <;> (simp only [Int.cast_le] at *) <;> first | rfl | (exfalso; omega) | (congr 1; omega)
    | max =>
      refine .inl ⟨_, rfl, .bigInt _, ?_⟩
      simp only [bigVal, exact, max_def]
      split <;> split <;> (simp only [Int.cast_le] at *) <;> first | rfl | (exfalso; omega) | (congr 1; omega)
  by_cases hr : (∃ q, L = bigR q) ∨ ∃ q, R = bigR q
  · obtain ⟨z, h1, h2, h3⟩ := hrat _ _ hd
    refine ⟨z, ?_, h2, h3⟩
    unfold bigDyadic
    rw [arith2_rat _ L R hL hR hr, h1]
    rfl
  · have hL' : IsIntType L := by
      obtain h | ⟨n, h, _⟩ | h | h := num_cases hL
      · exact .inl h
      · exact .inr (.inl ⟨n, h⟩)
      · exact .inr (.inr h)
      · exact absurd (.inl h) hr
    have hR' : IsIntType R := by
      obtain h | ⟨n, h, _⟩ | h | h := num_cases hR
      · exact .inl h
      · exact .inr (.inl ⟨n, h⟩)
      · exact .inr (.inr h)
      · exact absurd (.inr h) hr
    have hb' : (∃ n, L = bigI n) ∨ ∃ n, R = bigI n := by
      obtain (h | h) | h | h := hb
      · exact .inl h
      · exact absurd (.inl h) hr
      · exact .inr h
      · exact absurd (.inr h) hr
    unfold bigDyadic
    rw [arith2_int _ L R hL' hR' hb']
    rw [← intVal_eq hL', ← intVal_eq hR'] at *
    obtain ⟨z, h1, h2, h3⟩ | h1 := hint (intVal L) (intVal R) hd
    · exact ⟨z, by rw [h1]; rfl, h2, h3⟩
    · obtain ⟨z, h4, h2, h3⟩ := hrat _ _ hd
      exact ⟨z, by rw [h1, h4]; rfl, h2, h3⟩
theorem intType_of {L : BigN} (hL : IsNum L) (h : ¬ ∃ q, L = bigR q) : IsIntType L := by
  obtain h' | ⟨n, h', _⟩ | h' | h' := num_cases hL
  · exact .inl h'
  · exact .inr (.inl ⟨n, h'⟩)
  · exact .inr (.inr h')
  · exact absurd h' h

/-- C84: the result of + - × ⌊ ⌈ on two integers of which one is big is a big integer; the quotient is a big
integer exactly if the division leaves no remainder. -/
theorem C84_integers (op : BigOp) (L R z : BigN) (hL : IsIntType L) (hR : IsIntType R) (hb : IsBig L ∨ IsBig R)
    (h : bigDyadic op L R = .ok (.num z)) :
    (op ≠ .div → ∃ n : Int, z = bigI n) ∧ (op = .div → ((∃ n : Int, z = bigI n) ↔ ∃ n : Int, bigVal L = n * bigVal R)) := by
  have hb' : (∃ n, L = bigI n) ∨ ∃ n, R = bigI n := by
    obtain (h | ⟨q, h⟩) | h | ⟨q, h⟩ := hb
    · exact .inl h
    · subst h; obtain ⟨_, h⟩ | ⟨_, h⟩ | ⟨_, h⟩ := hL <;> cases h
    · exact .inr h
    · subst h; obtain ⟨_, h⟩ | ⟨_, h⟩ | ⟨_, h⟩ := hR <;> cases h
  unfold bigDyadic at h
  rw [arith2_int _ L R hL hR hb', ← intVal_eq hL, ← intVal_eq hR] at h
  rw [← intVal_eq hL, ← intVal_eq hR]
  generalize intVal L = x at *
  generalize intVal R = y at *
  constructor
  · intro hop
    cases op with
    | div => exact absurd rfl hop
    | _ => cases h; exact ⟨_, rfl⟩
  · rintro rfl
    simp only [bigFn, bigIntDiv2, bigRatDiv2] at h
    by_cases hx : x = 0
    · by_cases hy : y = 0
      · simp [hx, hy, firstOf'] at h
      · simp only [hx, hy, and_false, if_false, if_true, firstOf'] at h
        cases h
        exact ⟨fun _ => ⟨0, by simp [hx]⟩, fun _ => ⟨_, rfl⟩⟩
    · by_cases hy : y = 0
      · simp [hx, hy, firstOf'] at h
      · simp only [hx, hy, false_and, if_false] at h
        have hx' : (x : ℚ) ≠ 0 := by exact_mod_cast hx
        have hy' : (y : ℚ) ≠ 0 := by exact_mod_cast hy
        by_cases hm : x.ediv y * y = x
        · rw [if_pos hm] at h
          cases h
          exact ⟨fun _ => ⟨x.ediv y, by exact_mod_cast hm.symm⟩, fun _ => ⟨_, rfl⟩⟩
        · rw [if_neg hm, if_neg (by simp [hx']), if_neg hx', if_neg hy'] at h
          cases h
          refine ⟨fun ⟨n, hn⟩ => (by cases hn), fun ⟨n, hn⟩ => ?_⟩
          exfalso
          have hn' : x = n * y := by exact_mod_cast hn
          apply hm
          subst hn'
          show n * y / y * y = n * y
          rw [Int.mul_ediv_cancel _ hy]

/-- C84: division by zero: 0÷0 is not-a-number, everything else is infinity (whatever the sign). -/
theorem C84_zero_division (L R : BigN) (hL : IsNum L) (hR : IsNum R) (hb : IsBig L ∨ IsBig R) (h0 : bigVal R = 0) :
    bigDyadic .div L R = .ok (if bigVal L = 0 then .nan else .inf) := by
  unfold bigDyadic
  by_cases hr : (∃ q, L = bigR q) ∨ ∃ q, R = bigR q
  · rw [arith2_rat _ L R hL hR hr]
    simp only [bigFn, bigRatDiv2, h0, and_true]
    split <;> rfl
  · have hL' := intType_of hL (fun h => hr (.inl h))
    have hR' := intType_of hR (fun h => hr (.inr h))
    have hb' : (∃ n, L = bigI n) ∨ ∃ n, R = bigI n := by
      obtain (h | h) | h | h := hb
      · exact .inl h
      · exact absurd (.inl h) hr
      · exact .inr h
      · exact absurd (.inr h) hr
    rw [arith2_int _ L R hL' hR' hb']
    rw [← intVal_eq hR'] at h0
    have h0' : intVal R = 0 := by exact_mod_cast h0
    rw [← intVal_eq hL']
    simp only [bigFn, bigIntDiv2, h0', and_true]
    by_cases hz : intVal L = 0
    · simp [hz, firstOf']
    · have : (intVal L : ℚ) ≠ 0 := by exact_mod_cast hz
      simp [hz, firstOf']

/-- C84: two native integers: a quotient that is no native integer is continued with big numbers, and is
exact as well. -/
theorem C84_native_division (a b : Int) (ha : I64 a) (hb : I64 b) (h0 : b ≠ 0) (hm : ¬ (a = -2 ^ 63 ∧ b = -1)) :
    ∃ z, bigDyadic .div (.int a) (.int b) = .ok (.num z) ∧ IsNum z ∧ bigVal z = (a : ℚ) / b := by
  have hbq : (b : ℚ) ≠ 0 := by exact_mod_cast h0
  have hd := C35_division a b ha hb
  cases hq : intDiv2 a b with
  | some q =>
    obtain ⟨h1, h2⟩ := hd.2 q hq
    obtain h2 | ⟨h2, h3, _⟩ := h2
    · refine ⟨.int q, ?_, .int q h1, ?_⟩
      · unfold bigDyadic
        rw [arith2_nat _ _ _ (.inr ⟨a, rfl⟩) (.inr ⟨b, rfl⟩) (.inl ⟨a, rfl⟩)]
        simp only [intVal, bigFn, hq]
        rfl
      · simp only [bigVal]
        rw [eq_div_iff hbq]
        exact_mod_cast h2
    · exact absurd ⟨h2, h3⟩ hm
  | none =>
    obtain ⟨z, h1, h2, h3⟩ := C84_exact .div (bigI a) (bigI b) (.bigInt a) (.bigInt b) (.inl (.inl ⟨a, rfl⟩)) (fun _ => hbq)
    refine ⟨z, ?_, h2, h3⟩
    rw [← h1]
    unfold bigDyadic
    rw [arith2_nat _ _ _ (.inr ⟨a, rfl⟩) (.inr ⟨b, rfl⟩) (.inl ⟨a, rfl⟩), arith2_int _ _ _ (.inr (.inr ⟨a, rfl⟩)) (.inr (.inr ⟨b, rfl⟩)) (.inl ⟨a, rfl⟩)]
    simp only [intVal, bigFn, hq]
    rfl

/-- C84: comparisons of any two numbers of the tower (also native ones and Bools) compare the mathematical
values. -/
theorem C84_compare (op : Cmp) (L R : BigN) (hL : IsNum L) (hR : IsNum R) :
    ∃ b, bigCompare op L R = .ok b ∧ (b = true ↔ CmpSpec (bigVal L) (bigVal R) op) := by
  have hrat : ∀ x y : ℚ, ∃ b, cmpNum bigEq bigLess op (bigR x) (bigR y) = some b ∧ (b = true ↔ CmpSpec x y op) := by
    intro x y
    exact compareFn_spec (bigEq 1) (bigLess 1) (fun v => bigVal (.num 1 v)) (.rat x) (.rat y) ⟨_, rfl, decide_eq_true_iff⟩ ⟨_, rfl, decide_eq_true_iff⟩ op
  have hint : ∀ x y : Int, ∃ b, cmpNum bigEq bigLess op (bigI x) (bigI y) = some b ∧ (b = true ↔ CmpSpec (x : ℚ) (y : ℚ) op) := by
    intro x y
    exact compareFn_spec (bigEq 0) (bigLess 0) (fun v => bigVal (.num 0 v)) (.int x) (.int y)
      ⟨_, rfl, by rw [decide_eq_true_iff]; simp [bigVal]⟩ ⟨_, rfl, by rw [decide_eq_true_iff]; simp [bigVal]⟩ op
  have hnat : ∀ x y : Int, ∃ b, cmpNum bigEq bigLess op (.int x) (.int y) = some b ∧ (b = true ↔ CmpSpec (x : ℚ) (y : ℚ) op) := by
    intro x y
    exact compareFn_spec goEquals intLess (fun v : Int => (v : ℚ)) x y
      ⟨_, rfl, by rw [decide_eq_true_iff]; simp⟩ ⟨_, rfl, by rw [decide_eq_true_iff]; simp⟩ op
  unfold bigCompare
  by_cases hr : (∃ q, L = bigR q) ∨ ∃ q, R = bigR q
  · rw [arith2_rat _ L R hL hR hr]
    obtain ⟨b, h1, h2⟩ := hrat (bigVal L) (bigVal R)
    exact ⟨b, by rw [h1]; rfl, h2⟩
  · have hL' := intType_of hL (fun h => hr (.inl h))
    have hR' := intType_of hR (fun h => hr (.inr h))
    by_cases hb' : (∃ n, L = bigI n) ∨ ∃ n, R = bigI n
    · rw [arith2_int _ L R hL' hR' hb', ← intVal_eq hL', ← intVal_eq hR']
      obtain ⟨b, h1, h2⟩ := hint (intVal L) (intVal R)
      exact ⟨b, by rw [h1]; rfl, h2⟩
    · have hL2 : (∃ b, L = .bool b) ∨ ∃ n, L = .int n := by
        obtain h | h | h := hL'
        · exact .inl h
        · exact .inr h
        · exact absurd (.inl h) hb'
      have hR2 : (∃ b, R = .bool b) ∨ ∃ n, R = .int n := by
        obtain h | h | h := hR'
        · exact .inl h
        · exact .inr h
        · exact absurd (.inr h) hb'
      by_cases hn : (∃ n, L = .int n) ∨ ∃ n, R = .int n
      · rw [arith2_nat _ L R hL2 hR2 hn, ← intVal_eq hL', ← intVal_eq hR']
        obtain ⟨b, h1, h2⟩ := hnat (intVal L) (intVal R)
        exact ⟨b, by rw [h1]; rfl, h2⟩
      · obtain ⟨b, rfl⟩ | h := hL2
        · obtain ⟨b', rfl⟩ | h := hR2
          · rw [arith2_bool]
            obtain ⟨c, h1, h2⟩ := compareFn_spec goEquals boolLess (fun v : Bool => bigVal (.bool v)) b b'
              ⟨_, rfl, by cases b <;> cases b' <;> simp [bigVal]⟩ ⟨_, rfl, by cases b <;> cases b' <;> simp [bigVal]⟩ op
            exact ⟨c, by rw [show cmpNum bigEq bigLess op (.bool b) (.bool b') = some c from h1]; rfl, h2⟩
          · exact absurd (.inr h) hn
        · exact absurd (.inl h) hn

/-! ### monadic functions -/
theorem arith1_rat {ρ} (fn : BigN → Option ρ) (q : ℚ) :
    bigTower.arith1 fn 6 (bigR q) = some (firstOf' (fn (bigR q)) (.error .err)) := by
  unfold Tower.arith1
  cases hf : fn (bigR q) with
  | some v => rfl
  | none =>
    show Tower.arith1Loop _ fn 6 (some (.cls 1)) _ = _
    simp only [Tower.arith1Loop, hf]
    rfl

theorem loop1_int {ρ} (fn : BigN → Option ρ) (n : Int) (k : Nat) :
    bigTower.arith1Loop fn (k + 2) (some (.cls 0)) (bigI n) = some (firstOf' (fn (bigI n)) (firstOf' (fn (bigR n)) (.error .err))) := by
  rw [Tower.arith1Loop]
  cases hf : fn (bigI n) with
  | some v => rfl
  | none =>
    show Tower.arith1Loop _ fn (k + 1) (some (.cls 1)) (bigR n) = _
    rw [Tower.arith1Loop]
    cases hf : fn (bigR n) with
    | some v => rfl
    | none => rfl

theorem arith1_int {ρ} (fn : BigN → Option ρ) (n : Int) :
    bigTower.arith1 fn 6 (bigI n) = some (firstOf' (fn (bigI n)) (firstOf' (fn (bigR n)) (.error .err))) := by
  unfold Tower.arith1
  cases hf : fn (bigI n) with
  | some v => rfl
  | none =>
    show Tower.arith1Loop _ fn 6 (some (.cls 0)) _ = _
    rw [loop1_int, hf]

theorem arith1_nat {ρ} (fn : BigN → Option ρ) (n : Int) :
    bigTower.arith1 fn 6 (.int n) = some (firstOf' (fn (.int n)) (firstOf' (fn (bigI n)) (firstOf' (fn (bigR n)) (.error .err)))) := by
  unfold Tower.arith1
  cases hf : fn (.int n) with
  | some v => rfl
  | none =>
    show Tower.arith1Loop _ fn 6 (some .int) _ = _
    rw [Tower.arith1Loop, hf]
    exact loop1_int fn n 3

theorem ratSign_eq (q : ℚ) : (Int.sign q.num : ℚ) = if q < 0 then -1 else if q = 0 then 0 else 1 := by
  rcases lt_trichotomy q 0 with h | h | h
  · rw [if_pos h, Int.sign_eq_neg_one_of_neg (Rat.num_neg.2 h)]; rfl
  · subst h; simp
  · rw [if_neg (not_lt.2 h.le), if_neg h.ne', Int.sign_eq_one_of_pos (Rat.num_pos.2 h)]; rfl

/-- Specification: the value of a monadic function - × ÷ | on a number. -/
def exact1 (op : BigOp1) (x z : ℚ) : Prop :=
  match op with
  | .neg => z = -x
  | .sign => z = if x < 0 then -1 else if x = 0 then 0 else 1
  | .recip => z * x = 1
  | .abs => z = |x|
  | _ => False

/-- C84: - × | and ÷ (of a number other than 0) of a big number are exact. -/
theorem C84_monadic (op : BigOp1) (R : BigN) (hR : IsBig R) (ho : op = .neg ∨ op = .sign ∨ op = .abs ∨ (op = .recip ∧ bigVal R ≠ 0)) :
    ∃ z, bigMonadic op 6 R = some (.ok (.num z)) ∧ IsNum z ∧ exact1 op (bigVal R) (bigVal z) := by
  obtain ⟨n, rfl⟩ | ⟨q, rfl⟩ := hR
  · unfold bigMonadic
    rw [arith1_int]
    obtain rfl | rfl | rfl | ⟨rfl, h0⟩ := ho
    · exact ⟨_, rfl, .bigInt _, by simp [bigVal, exact1]⟩
    · refine ⟨_, rfl, .bigInt _, ?_⟩
      have := ratSign_eq (n : ℚ)
      simpa [bigVal, exact1] using this
    · refine ⟨_, rfl, .bigInt _, ?_⟩
      simp only [bigVal, exact1]
      rcases lt_or_ge n 0 with h | h
      · rw [if_pos (by rw [Int.sign_eq_neg_one_of_neg h]; decide)]
        have : (n : ℚ) < 0 := by exact_mod_cast h
        rw [abs_of_neg this]; simp
      · rw [if_neg (by rcases h.lt_or_eq with h' | h' <;> [(rw [Int.sign_eq_one_of_pos h']; decide); (rw [← h']; decide)])]
        have : (0 : ℚ) ≤ n := by exact_mod_cast h
        rw [abs_of_nonneg this]
    · simp only [bigVal] at h0
      have hn : n ≠ 0 := fun h => h0 (by simp [h])
      simp only [bigFn1, bigIntDiv, hn, if_false, bigRatDiv, h0]
      split
      · rename_i h1
        have hb : Int.ediv 1 n = 1 := Int.eq_one_of_mul_eq_self_left hn h1
        have hn1 : n = 1 := by
          have h2 : (1 : Int) / n = 1 := hb
          have h3 := Int.mul_ediv_add_emod 1 n
          rw [h2] at h3
          have h4 := Int.emod_nonneg 1 hn
          have h5 := Int.emod_lt_abs 1 hn
          by_contra hc
          have : n < 0 := by omega
          have : n ≠ 0 := hn
          have h6 : (1 : Int) / n ≤ 0 := Int.ediv_nonpos_of_nonneg_of_nonpos (by omega) (by omega)
          omega
        refine ⟨_, rfl, .bigInt _, ?_⟩
        rw [hb, hn1]
        simp [bigVal, exact1]
      · refine ⟨_, rfl, .rat _, ?_⟩
        simp only [bigVal, exact1]
        exact inv_mul_cancel₀ h0
  · unfold bigMonadic
    rw [arith1_rat]
    obtain rfl | rfl | rfl | ⟨rfl, h0⟩ := ho
    · exact ⟨_, rfl, .rat _, by simp [bigVal, exact1]⟩
    · exact ⟨_, rfl, .bigInt _, ratSign_eq q⟩
    · refine ⟨_, rfl, .rat _, ?_⟩
      simp only [bigVal, exact1]
      split
      · rename_i h; rw [abs_of_neg h]
      · rename_i h; rw [abs_of_nonneg (not_lt.1 h)]
    · simp only [bigVal] at h0
      simp only [bigFn1, bigRatDiv, h0, if_false]
      exact ⟨_, rfl, .rat _, inv_mul_cancel₀ h0⟩

theorem bigGammaLoop_eq (c k : Nat) : bigGammaLoop c (k + 1 : Nat) (k.factorial : Int) = ((k + c).factorial : Int) := by
  induction c generalizing k with
  | zero => rfl
  | succ c ih =>
    have h := ih (k + 1)
    rw [bigGammaLoop, show k + (c + 1) = k + 1 + c by omega, ← h, Nat.factorial_succ]
    push_cast
    rw [show ((k : Int) + 1) * (k.factorial : Int) = (k.factorial : Int) * ((k : Int) + 1) by ring]

theorem bigGamma_eq (n : Int) : bigGamma n = if 0 ≤ n ∧ n ≤ 300 then some (.num (if n = 0 then .int 1 else bigI n.toNat.factorial)) else none := by
  unfold bigGamma
  by_cases h : 0 ≤ n ∧ n ≤ 300
  · rw [if_pos h, if_neg (by unfold I64; omega)]
    by_cases h0 : n = 0
    · simp [h0]
    · rw [if_neg h0, if_neg (by omega), if_neg h0]
      have := bigGammaLoop_eq n.toNat 0
      simp only [Nat.factorial_zero, Nat.zero_add] at this
      have e : bigGammaLoop n.toNat 1 1 = (n.toNat.factorial : Int) := this
      rw [e]
  · rw [if_neg h]
    split
    · rfl
    · rw [if_neg (by omega), if_pos (by omega)]

/-- C84: the factorial of a native or big integer from 0 to 300 is exact (beyond 20 it does not fit into 64
bits and is a big integer); it is rejected for every other integer and for rationals. -/
theorem C84_factorial (R : BigN) (n : Int) (hR : R = bigI n ∨ (R = .int n ∧ I64 n)) :
    (0 ≤ n → n ≤ 300 → ∃ z, bigMonadic .fact 6 R = some (.ok (.num z)) ∧ IsNum z ∧ bigVal z = (n.toNat.factorial : ℚ)) ∧
    (¬ (0 ≤ n ∧ n ≤ 300) → bigMonadic .fact 6 R = some (.error .err)) ∧
    (∀ q : ℚ, bigMonadic .fact 6 (bigR q) = some (.error .err)) := by
  have hrat : ∀ q : ℚ, bigMonadic .fact 6 (bigR q) = some (.error .err) := fun q => by
    unfold bigMonadic; rw [arith1_rat]; rfl
  have hval : ∀ n : Int, bigVal (if n = 0 then .int 1 else bigI n.toNat.factorial) = (n.toNat.factorial : ℚ) := by
    intro n
    split
    · rename_i h; simp [h, bigVal]
    · simp [bigVal]
  have hnum : ∀ n : Int, IsNum (if n = 0 then .int 1 else bigI n.toNat.factorial) := by
    intro n
    split
    · exact .int 1 (by unfold I64; omega)
    · exact .bigInt _
  refine ⟨?_, ?_, hrat⟩
  · intro h1 h2
    obtain rfl | ⟨rfl, hn⟩ := hR
    · refine ⟨_, ?_, hnum n, hval n⟩
      unfold bigMonadic
      rw [arith1_int]
      simp only [bigFn1, bigGamma_eq, h1, h2, and_self, if_true]
      rfl
    · unfold bigMonadic
      rw [arith1_nat]
      simp only [bigFn1]
      cases hg : intGamma n with
      | none =>
        refine ⟨_, ?_, hnum n, hval n⟩
        simp only [natRes, bigGamma_eq, h1, h2, and_self, if_true]
        rfl
      | some g =>
        have h20 : n ≤ 20 := by
          by_contra hc
          rw [(C39_factorial n).2 (.inr (by omega))] at hg
          cases hg
        have he := (C39_factorial n).1 n.toNat (by omega) (by omega)
        rw [hg] at he
        cases he
        refine ⟨.int _, rfl, .int _ ?_, by simp [bigVal]⟩
        have hle : n.toNat.factorial ≤ Nat.factorial 20 := Nat.factorial_le (by omega)
        have h20' : Nat.factorial 20 = 2432902008176640000 := by decide
        unfold I64
        omega
  · intro h
    obtain rfl | ⟨rfl, hn⟩ := hR
    · unfold bigMonadic
      rw [arith1_int]
      simp only [bigFn1, bigGamma_eq, h, if_false]
      rfl
    · unfold bigMonadic
      rw [arith1_nat]
      have : intGamma n = none := by unfold intGamma; rw [if_pos (by omega)]
      simp only [bigFn1, bigGamma_eq, h, if_false, this]
      rfl

/-! ### power -/
theorem zpow_of (a : ℚ) (e : Int) (he : 0 ≤ e) : ((a.num ^ e.toNat : Int) : ℚ) / (((a.den : Int) ^ e.toNat : Int) : ℚ) = a ^ e := by
  obtain ⟨k, rfl⟩ := Int.eq_ofNat_of_zero_le he
  simp only [Int.toNat_natCast, zpow_natCast]
  push_cast
  rw [← div_pow, Rat.num_div_den]

theorem ratPow2_spec (a : ℚ) (e : Int) (h : ¬ (a = 0 ∧ e < 0)) :
    ∃ z, bigRatPow2 a e = (some (.num z), |(e : ℚ)|) ∧ IsNum z ∧ bigVal z = a ^ e := by
  unfold bigRatPow2
  by_cases h0 : e = 0
  · subst h0
    exact ⟨bigI 1, by simp, .bigInt _, by simp [bigVal]⟩
  have h0' : (e : ℚ) ≠ 0 := by exact_mod_cast h0
  rw [if_neg h0']
  rcases lt_or_gt_of_ne h0 with hneg | hpos
  · have hneg' : (e : ℚ) < 0 := by exact_mod_cast hneg
    have ha : a ≠ 0 := fun ha => h ⟨ha, hneg⟩
    simp only [hneg', if_true, not_true_eq_false, false_and, if_false]
    have hd : (-(e : ℚ)).den = 1 := by simp
    rw [if_neg (by simp [hd])]
    have hn : (-(e : ℚ)).num = -e := by simp
    rw [hn]
    have hz := zpow_of a (-e) (by omega)
    push_cast at hz ⊢
    rw [hz, if_neg (zpow_ne_zero _ ha), abs_of_neg hneg']
    exact ⟨_, rfl, .rat _, by simp [bigVal]⟩
  · have hpos' : (0 : ℚ) < e := by exact_mod_cast hpos
    have hnn : ¬ (e : ℚ) < 0 := not_lt.2 hpos'.le
    simp only [hnn, if_false, not_false_eq_true, true_and, abs_of_pos hpos']
    by_cases ha : a = 0
    · rw [if_pos ha]
      exact ⟨_, rfl, .bigInt _, by rw [ha, zero_zpow e h0]; simp [bigVal]⟩
    · rw [if_neg ha, if_neg (by simp)]
      have hz := zpow_of a e (by omega)
      simp only [Rat.num_intCast]
      push_cast at hz ⊢
      rw [hz]
      exact ⟨_, rfl, .rat _, rfl⟩

/-- `0` to a negative power panics -/
theorem ratPow2_zero (e : Int) (he : e < 0) : bigRatPow2 0 e = (some .crash, -(e : ℚ)) := by
  have hneg' : (e : ℚ) < 0 := by exact_mod_cast he
  unfold bigRatPow2
  rw [if_neg hneg'.ne]
  simp only [hneg', if_true, not_true_eq_false, false_and, if_false]
  rw [if_neg (by simp)]
  have hn : (-(e : ℚ)).num = -e := by simp
  rw [hn, if_pos]
  have : (-e).toNat ≠ 0 := by omega
  simp [this]

theorem powLoop_rat (own : Bool) (a b : ℚ) (R : BigN) (v : BigRes) (r' : ℚ) (h : bigRatPow2 a b = (some v, r')) :
    powLoop 1 (some (.cls 1)) own (bigR a) (bigR b) R = (.ok v, if own then bigR r' else R) := by
  simp only [powLoop, bigPowFn, h]

theorem powLoop_int (own : Bool) (a b : Int) (R : BigN) (hR : own = true → R = bigI b) (v : BigRes) (r' : ℚ) (h : bigRatPow2 a b = (some v, r')) :
    (0 ≤ b → powLoop 2 (some (.cls 0)) own (bigI a) (bigI b) R = (.ok (.num (bigI (a ^ b.toNat))), R)) ∧
    (b < 0 → powLoop 2 (some (.cls 0)) own (bigI a) (bigI b) R = (.ok v, R)) := by
  have hR' : (if own then bigI b else R) = R := by
    cases own with
    | true => rw [hR rfl]; rfl
    | false => rfl
  constructor
  · intro hb
    rw [powLoop]
    simp only [bigPowFn]
    by_cases h0 : b = 0
    · subst h0
      simp only [if_true, hR', Int.toNat_zero, pow_zero]
    · simp only [h0, if_false, show ¬ b < 0 by omega, hR']
  · intro hb
    rw [powLoop]
    simp only [bigPowFn, show ¬ b = 0 by omega, if_false, hb, if_true, hR']
    exact powLoop_rat false a b R v r' h

theorem powLoop_nat (a b : Int) (R : BigN) (own : Bool) (ho : own = true → R = .int b) (v : BigRes) (r' : ℚ) (h : bigRatPow2 a b = (some v, r')) :
    (0 ≤ b → powLoop 3 (some .int) own (.int a) (.int b) R = (.ok (.num (bigI (a ^ b.toNat))), R)) ∧
    (b < 0 → powLoop 3 (some .int) own (.int a) (.int b) R = (.ok v, R)) := by
  have hR2 : (if own then TNum.int b else R) = R := by
    cases own with
    | true => rw [ho rfl]; rfl
    | false => rfl
  have := powLoop_int false a b R (by simp) v r' h
  constructor
  · intro hb
    rw [powLoop]
    simp only [bigPowFn, hR2]
    exact this.1 hb
  · intro hb
    rw [powLoop]
    simp only [bigPowFn, hR2]
    exact this.2 hb

theorem bigPow_rat (L : BigN) (hL : IsNum L) (q : ℚ) (v : BigRes) (r' : ℚ) (h : bigRatPow2 (bigVal L) q = (some v, r')) :
    bigPow L (bigR q) = (.ok v, bigR r') := by
  obtain ⟨b, rfl⟩ | ⟨n, rfl, hn⟩ | ⟨n, rfl⟩ | ⟨q', rfl⟩ := num_cases hL
  · have h2 := powLoop_rat true _ _ (bigR q) v r' h
    cases b <;> exact h2
  · exact powLoop_rat true _ _ (bigR q) v r' h
  · exact powLoop_rat true _ _ (bigR q) v r' h
  · unfold bigPow
    simp only [sameGoType, beq_self_eq_true, if_true, bigPowFn]
    simp only [bigVal] at h
    rw [h]

theorem bigPow_ratL (q : ℚ) (R : BigN) (hR : IsIntType R) (v : BigRes) (r' : ℚ) (h : bigRatPow2 q (bigVal R) = (some v, r')) :
    bigPow (bigR q) R = (.ok v, R) := by
  obtain ⟨b, rfl⟩ | ⟨n, rfl⟩ | ⟨n, rfl⟩ := hR
  · have h2 := powLoop_rat false _ _ (.bool b) v r' h
    cases b <;> exact h2
  · exact powLoop_rat false _ _ (.int n) v r' h
  · exact powLoop_rat false _ _ (bigI n) v r' h

theorem bigPow_int (L R : BigN) (hL : IsIntType L) (hR : IsIntType R) (hb : ¬ ((∃ b, L = .bool b) ∧ ∃ b, R = .bool b)) (v : BigRes) (r' : ℚ)
    (h : bigRatPow2 (bigVal L) (bigVal R) = (some v, r')) :
    (0 ≤ intVal R → bigPow L R = (.ok (.num (bigI (intVal L ^ (intVal R).toNat))), R)) ∧
    (intVal R < 0 → bigPow L R = (.ok v, R)) := by
  rw [← intVal_eq hL, ← intVal_eq hR] at h
  obtain ⟨b, rfl⟩ | ⟨n, rfl⟩ | ⟨n, rfl⟩ := hR
  · obtain ⟨b', rfl⟩ | ⟨m, rfl⟩ | ⟨m, rfl⟩ := hL
    · exact absurd ⟨⟨_, rfl⟩, ⟨_, rfl⟩⟩ hb
    · exact powLoop_nat _ _ (.bool b) false (by simp) v r' h
    · exact powLoop_int false _ _ (.bool b) (by simp) v r' h
  · obtain ⟨b', rfl⟩ | ⟨m, rfl⟩ | ⟨m, rfl⟩ := hL
    · exact powLoop_nat _ _ (.int n) true (fun _ => rfl) v r' h
    · exact powLoop_nat _ _ (.int n) true (fun _ => rfl) v r' h
    · exact powLoop_int false _ _ (.int n) (by simp) v r' h
  · obtain ⟨b', rfl⟩ | ⟨m, rfl⟩ | ⟨m, rfl⟩ := hL
    · exact powLoop_int true _ _ (bigI n) (fun _ => rfl) v r' h
    · exact powLoop_int true _ _ (bigI n) (fun _ => rfl) v r' h
    · have h2 := powLoop_int true m n (bigI n) (fun _ => rfl) v r' h
      unfold bigPow
      simp only [sameGoType, beq_self_eq_true, if_true, bigPowFn, intVal]
      constructor
      · intro h0
        by_cases hz : n = 0
        · subst hz
          simp
        · simp [hz, show ¬ n < 0 by omega]
      · intro h0
        simp only [show ¬ n = 0 by omega, h0, if_true, if_false]
        exact h2.2 h0

/-- C84: raising any number to an integer power (the exponent may be of any of the types) is exact, unless
zero is raised to a negative power (or both arguments are Bools).  The right argument is unchanged unless it is a
negative rational (whose sign is lost). -/
theorem C84_power (L R : BigN) (hL : IsNum L) (hR : IsNum R) (e : Int) (he : bigVal R = e)
    (hb : ¬ ((∃ b, L = .bool b) ∧ ∃ b, R = .bool b)) (h0 : ¬ (bigVal L = 0 ∧ e < 0)) :
    ∃ z, (bigPow L R).1 = .ok (.num z) ∧ IsNum z ∧ bigVal z = bigVal L ^ e ∧
      (bigPow L R).2 = (if R = bigR e then bigR |(e : ℚ)| else R) := by
  obtain ⟨z, h1, h2, h3⟩ := ratPow2_spec (bigVal L) e h0
  by_cases hr : ∃ q, R = bigR q
  · obtain ⟨q, rfl⟩ := hr
    simp only [bigVal] at he
    subst he
    have := bigPow_rat L hL e _ _ h1
    exact ⟨z, by rw [this], h2, h3, by rw [this, if_pos rfl]⟩
  · have hR' := intType_of hR hr
    have hif : (if R = bigR e then bigR |(e : ℚ)| else R) = R := if_neg (fun h => hr ⟨_, h⟩)
    rw [hif]
    rw [← he] at h1
    by_cases hl : ∃ q, L = bigR q
    · obtain ⟨q, rfl⟩ := hl
      have := bigPow_ratL q R hR' _ _ h1
      exact ⟨z, by rw [this], h2, h3, by rw [this]⟩
    · have hL' := intType_of hL hl
      have hi : intVal R = e := by
        rw [← intVal_eq hR'] at he
        exact_mod_cast he
      obtain ⟨ha, hn⟩ := bigPow_int L R hL' hR' hb _ _ h1
      rcases lt_or_ge e 0 with hlt | hge
      · have := hn (by omega)
        exact ⟨z, by rw [this], h2, h3, by rw [this]⟩
      · have := ha (by omega)
        refine ⟨_, by rw [this], .bigInt _, ?_, by rw [this]⟩
        rw [← intVal_eq hL', hi]
        show ((intVal L ^ e.toNat : Int) : ℚ) = _
        push_cast
        rw [← zpow_natCast, Int.toNat_of_nonneg hge]

/-- C84: zero to a negative integer power panics. -/
theorem C84_power_zero (L R : BigN) (hL : IsNum L) (hR : IsNum R) (e : Int) (he : bigVal R = e) (hz : bigVal L = 0) (hn : e < 0)
    (hb : ¬ ((∃ b, L = .bool b) ∧ ∃ b, R = .bool b)) : (bigPow L R).1 = .ok .crash := by
  have h1 := ratPow2_zero e hn
  rw [← hz] at h1
  by_cases hr : ∃ q, R = bigR q
  · obtain ⟨q, rfl⟩ := hr
    simp only [bigVal] at he
    subst he
    rw [bigPow_rat L hL e _ _ h1]
  · have hR' := intType_of hR hr
    rw [← he] at h1
    by_cases hl : ∃ q, L = bigR q
    · obtain ⟨q, rfl⟩ := hl
      rw [bigPow_ratL q R hR' _ _ h1]
    · have hi : intVal R = e := by
        rw [← intVal_eq hR'] at he
        exact_mod_cast he
      rw [(bigPow_int L R (intType_of hL hl) hR' hb _ _ h1).2 (by omega)]

/-- C84, the exception: the sign of a negative rational exponent is lost in place (a variable used as exponent has
changed its value afterwards); and 0 to the power ¯1r2 is 0, as the second attempt of the tower sees the changed
exponent. -/
theorem C84_power_changes_argument :
    (bigPow (bigI 3) (bigR (-2))).2 = bigR 2 ∧ (bigPow (bigR 0) (bigR (-1/2))) = (.ok (.num (bigI 0)), bigR (1/2)) := by
  constructor
  · obtain ⟨z, _, _, _, h⟩ := C84_power (bigI 3) (bigR (-2)) (.bigInt _) (.rat _) (-2) (by simp [bigVal]) (by rintro ⟨⟨b, h⟩, _⟩; cases h) (by simp [bigVal])
    rw [h, if_pos (by simp)]
    simp
  · have hd : ¬ ((1:ℚ)/2).den = 1 := by
      intro h
      have h := (Rat.den_eq_one_iff _).1 h
      have h2 : 2 * ((1:ℚ)/2).num = 1 := by
        have : (2 : ℚ) * (((1:ℚ)/2).num : ℚ) = 1 := by rw [h]; norm_num
        exact_mod_cast this
      omega
    have h1 : bigRatPow2 0 (-1/2) = (none, 1/2) := by
      unfold bigRatPow2
      rw [if_neg (by norm_num)]
      simp only [show ((-1:ℚ)/2 < 0) by norm_num, not_true_eq_false, false_and, if_false, if_true, show -((-1:ℚ)/2) = 1/2 by norm_num]
      rw [if_pos hd]
    have h2 : bigRatPow2 0 (1/2) = (some (.num (bigI 0)), 1/2) := by
      unfold bigRatPow2
      rw [if_neg (by norm_num)]
      simp only [show ¬ ((1:ℚ)/2 < 0) by norm_num, not_false_eq_true, and_self, if_true, if_false]
    have h3 := powLoop_rat true 0 (1/2) (bigR (1/2)) _ _ h2
    unfold bigPow
    simp only [sameGoType, beq_self_eq_true, if_true, bigPowFn, h1]
    exact h3

/-! ### greatest common divisor, least common multiple -/

/-- Specification: `g` divides `x` exactly. -/
def RDvd (g x : ℚ) : Prop := ∃ k : Int, x = k * g

/-- Specification: `g ≥ 0` is a common divisor of `x` and `y`, and every common divisor divides it. -/
def IsGcd (g x y : ℚ) : Prop := 0 ≤ g ∧ RDvd g x ∧ RDvd g y ∧ ∀ h, RDvd h x → RDvd h y → RDvd h g

/-- Specification: `m ≥ 0` is a common multiple of `x` and `y`, and divides every common multiple. -/
def IsLcm (m x y : ℚ) : Prop := 0 ≤ m ∧ RDvd x m ∧ RDvd y m ∧ ∀ h, RDvd x h → RDvd y h → RDvd m h

theorem isGcd_int (a b : Int) : IsGcd ((Int.gcd a b : Int) : ℚ) a b := by
  refine ⟨by positivity, ?_, ?_, ?_⟩
  · obtain ⟨k, hk⟩ := Int.gcd_dvd_left (a := a) (b := b)
    exact ⟨k, by rw [mul_comm]; exact_mod_cast hk⟩
  · obtain ⟨k, hk⟩ := Int.gcd_dvd_right (a := a) (b := b)
    exact ⟨k, by rw [mul_comm]; exact_mod_cast hk⟩
  · rintro h ⟨k, hk⟩ ⟨l, hl⟩
    have := Int.gcd_eq_gcd_ab a b
    refine ⟨k * Int.gcdA a b + l * Int.gcdB a b, ?_⟩
    rw [this]
    push_cast
    rw [hk, hl]
    ring

theorem isGcd_scale (c g x y : ℚ) (hc : 0 < c) (h : IsGcd g x y) : IsGcd (g / c) (x / c) (y / c) := by
  obtain ⟨h1, ⟨k, hk⟩, ⟨l, hl⟩, h4⟩ := h
  refine ⟨by positivity, ⟨k, by rw [hk]; ring⟩, ⟨l, by rw [hl]; ring⟩, ?_⟩
  rintro h ⟨k', hk'⟩ ⟨l', hl'⟩
  obtain ⟨m, hm⟩ := h4 (h * c) ⟨k', by field_simp at hk'; linarith⟩ ⟨l', by field_simp at hl'; linarith⟩
  exact ⟨m, by rw [hm]; field_simp⟩

theorem isLcm_of (g x y m : ℚ) (hx : x ≠ 0) (hy : y ≠ 0) (hg : IsGcd g x y) (hm : m * g = |x * y|) : g ≠ 0 ∧ IsLcm m x y := by
  obtain ⟨h1, ⟨k, hk⟩, ⟨l, hl⟩, h4⟩ := hg
  have hg0 : g ≠ 0 := by rintro rfl; exact hx (by rw [hk]; ring)
  have hgp : 0 < g := lt_of_le_of_ne h1 (Ne.symm hg0)
  have hs : ∃ s : Int, (s = 1 ∨ s = -1) ∧ m * g = s * (x * y) := by
    rcases abs_choice (x * y) with h | h
    · exact ⟨1, .inl rfl, by rw [hm, h]; simp⟩
    · exact ⟨-1, .inr rfl, by rw [hm, h]; simp⟩
  obtain ⟨s, hs1, hs2⟩ := hs
  refine ⟨hg0, ?_, ⟨s * l, ?_⟩, ⟨s * k, ?_⟩, ?_⟩
  · have : 0 ≤ m * g := by rw [hm]; positivity
    exact nonneg_of_mul_nonneg_left this hgp
  · have : m * g = (s * l * x) * g := by rw [hs2, hl]; ring
    push_cast
    exact mul_right_cancel₀ hg0 this
  · have : m * g = (s * k * y) * g := by rw [hs2, hk]; ring
    push_cast
    exact mul_right_cancel₀ hg0 this
  · rintro h ⟨a, ha⟩ ⟨b, hb⟩
    by_cases hh : h = 0
    · exact ⟨0, by simp [hh]⟩
    have ea : x * y / h * a = y := by rw [div_mul_eq_mul_div, div_eq_iff hh]; rw [ha]; ring
    have eb : x * y / h * b = x := by rw [div_mul_eq_mul_div, div_eq_iff hh]; rw [hb]; ring
    obtain ⟨c, hc⟩ := h4 (x * y / h) ⟨b, by linarith⟩ ⟨a, by linarith⟩
    refine ⟨s * c, ?_⟩
    have hss : (s : ℚ) * s = 1 := by rcases hs1 with rfl | rfl <;> norm_num
    have e1 : g * h = c * (x * y) := by rw [hc]; field_simp
    have e2 : h * g = (s * c * m) * g := by
      have : (s : ℚ) * c * m * g = s * c * (m * g) := by ring
      rw [this, hs2]
      have : (s : ℚ) * c * (s * (x * y)) = (s * s) * (c * (x * y)) := by ring
      rw [this, hss, ← e1]; ring
    push_cast
    exact mul_right_cancel₀ hg0 e2

theorem intToBool_some (n : Int) (b : Bool) : intToBool n = some b ↔ n = if b then 1 else 0 := by
  unfold intToBool
  cases b <;> simp <;> omega

theorem toBool_iff {x : BigN} (hx : IsNum x) (b : Bool) : bigToBool x = some b ↔ bigVal x = if b then 1 else 0 := by
  have hI : ∀ n : Int, (if I64 n then intToBool n else none) = some b ↔ (n : ℚ) = if b then 1 else 0 := by
    intro n
    have : ((n : ℚ) = if b then 1 else 0) ↔ n = if b then 1 else 0 := by cases b <;> simp
    rw [this]
    split
    · exact intToBool_some n b
    · rename_i h
      constructor
      · intro h'; cases h'
      · intro h'
        exfalso; apply h
        unfold I64
        cases b <;> simp at h' <;> omega
  cases hx with
  | bool c => cases c <;> cases b <;> simp [bigToBool, bigVal]
  | int n h =>
    have := hI n
    rw [if_pos h] at this
    exact this
  | bigInt n => exact hI n
  | rat q =>
    simp only [bigToBool, bigVal]
    by_cases hq : q.den = 1
    · rw [if_pos hq]
      have hq' : (q.num : ℚ) = q := (Rat.den_eq_one_iff q).1 hq
      have := hI q.num
      rw [hq'] at this
      exact this
    · rw [if_neg hq]
      constructor
      · intro h; cases h
      · intro h
        exfalso; apply hq
        rw [h]
        cases b <;> rfl

theorem isZero_iff {x : BigN} (hx : IsNum x) : bigIsZero x = true ↔ bigVal x = 0 := by
  unfold bigIsZero
  rw [decide_eq_true_iff, toBool_iff hx]; simp

theorem gcdFn_rat (x y : ℚ) : ∃ g, bigGcdFn (bigR x) (bigR y) = some (.num (bigR g)) ∧ IsGcd g x y := by
  refine ⟨_, rfl, ?_⟩
  have h1 := isGcd_int (x.num * y.den) (y.num * x.den)
  have hx : (0 : ℚ) < x.den := by exact_mod_cast x.pos
  have hy : (0 : ℚ) < y.den := by exact_mod_cast y.pos
  have h2 := isGcd_scale ((x.den : ℚ) * y.den) _ _ _ (by positivity) h1
  have ex : ((x.num * y.den : Int) : ℚ) / ((x.den : ℚ) * y.den) = x := by
    push_cast
    rw [mul_div_mul_right _ _ hy.ne']
    exact Rat.num_div_den x
  have ey : ((y.num * x.den : Int) : ℚ) / ((x.den : ℚ) * y.den) = y := by
    push_cast
    rw [mul_comm (x.den : ℚ), mul_div_mul_right _ _ hx.ne']
    exact Rat.num_div_den y
  rw [ex, ey] at h2
  simpa using h2

/-- the two types in which the big tower computes a divisor -/
inductive SameBig : BigN → BigN → Prop
  | int (a b : Int) : SameBig (bigI a) (bigI b)
  | rat (a b : ℚ) : SameBig (bigR a) (bigR b)

theorem SameBig.nums {x y : BigN} (h : SameBig x y) : IsNum x ∧ IsNum y := by
  cases h
  · exact ⟨.bigInt _, .bigInt _⟩
  · exact ⟨.rat _, .rat _⟩

theorem gcd2_spec {x y : BigN} (h : SameBig x y) (h1 : ¬ (bigVal x = 0 ∧ bigVal y < 0)) (h2 : ¬ (bigVal y = 0 ∧ bigVal x < 0)) :
    ∃ z, bigGcd2 x y = some (.num z) ∧ IsNum z ∧ IsGcd (bigVal z) (bigVal x) (bigVal y) ∧ (bigVal x ≠ 0 → bigVal y ≠ 0 → SameBig x z) := by
  obtain ⟨nx, ny⟩ := h.nums
  unfold bigGcd2
  by_cases hx : bigIsZero x = true
  · have hx' := (isZero_iff nx).1 hx
    rw [if_pos hx]
    refine ⟨y, rfl, ny, ⟨not_lt.1 (fun h => h1 ⟨hx', h⟩), ⟨0, by rw [hx']; simp⟩, ⟨1, by simp⟩, fun h _ hh => hh⟩, fun h => absurd hx' h⟩
  · rw [if_neg hx]
    by_cases hy : bigIsZero y = true
    · have hy' := (isZero_iff ny).1 hy
      rw [if_pos hy]
      exact ⟨x, rfl, nx, ⟨not_lt.1 (fun h => h2 ⟨hy', h⟩), ⟨1, by simp⟩, ⟨0, by rw [hy']; simp⟩, fun h hh _ => hh⟩, fun _ h => absurd hy' h⟩
    · rw [if_neg hy]
      cases h with
      | int a b => exact ⟨_, rfl, .bigInt _, isGcd_int a b, fun _ _ => .int _ _⟩
      | rat a b =>
        obtain ⟨g, e, hg⟩ := gcdFn_rat a b
        exact ⟨_, e, .rat _, hg, fun _ _ => .rat _ _⟩

theorem lcm2_spec {x y : BigN} (h : SameBig x y) :
    ∃ z, bigLcm2 x y = some (.num z) ∧ IsNum z ∧ IsLcm (bigVal z) (bigVal x) (bigVal y) := by
  obtain ⟨nx, ny⟩ := h.nums
  have zero : bigVal x = 0 ∨ bigVal y = 0 → IsLcm 0 (bigVal x) (bigVal y) := by
    intro h0
    refine ⟨le_refl _, ⟨0, by simp⟩, ⟨0, by simp⟩, ?_⟩
    rintro h ⟨k, hk⟩ ⟨l, hl⟩
    refine ⟨0, ?_⟩
    rcases h0 with h0 | h0
    · rw [hk, h0]; simp
    · rw [hl, h0]; simp
  unfold bigLcm2
  by_cases hz : (bigIsZero x || bigIsZero y) = true
  · rw [if_pos hz]
    have := zero (by rw [Bool.or_eq_true, isZero_iff nx, isZero_iff ny] at hz; exact hz)
    exact ⟨.int 0, rfl, .int 0 (by unfold I64; omega), by simpa [bigVal] using this⟩
  · rw [if_neg hz]
    rw [Bool.or_eq_true, isZero_iff nx, isZero_iff ny, not_or] at hz
    obtain ⟨hx0, hy0⟩ := hz
    obtain ⟨g, hg, ng, hgcd, hsame⟩ := gcd2_spec h (fun h => hx0 h.1) (fun h => hy0 h.1)
    replace hsame := hsame hx0 hy0
    cases h with
    | int a b =>
      have hg' : ∃ g', g = bigI g' := by cases hsame; exact ⟨_, rfl⟩
      obtain ⟨g', rfl⟩ := hg'
      simp only [bigVal] at hgcd hx0 hy0
      simp only [bigFn, bigFn1, hg]
      have habs : (if Int.sign (a * b) < 0 then -(a * b) else a * b) = |a * b| := by
        rcases lt_or_ge (a * b) 0 with h | h
        · rw [if_pos (by rw [Int.sign_eq_neg_one_of_neg h]; decide), abs_of_neg h]
        · rw [if_neg (by rcases h.lt_or_eq with h' | h' <;> [(rw [Int.sign_eq_one_of_pos h']; decide); (rw [← h']; decide)]), abs_of_nonneg h]
      rw [habs]
      have ha0 : a ≠ 0 := fun h => hx0 (by rw [h]; rfl)
      have hb0 : b ≠ 0 := fun h => hy0 (by rw [h]; rfl)
      have hm0 : |a * b| ≠ 0 := by simp [ha0, hb0]
      obtain ⟨_, ⟨k, hk⟩, _⟩ := id hgcd
      have hg0 : g' ≠ 0 := by rintro rfl; exact hx0 (by rw [hk]; simp)
      have hk' : a = k * g' := by exact_mod_cast hk
      have hdiv : |a * b| / g' * g' = |a * b| :=
        Int.ediv_mul_cancel ((dvd_abs _ _).2 (Dvd.dvd.mul_right ⟨k, by rw [hk']; ring⟩ b))
      unfold bigIntDiv2
      rw [if_neg (by simp [hg0]), if_neg hm0, if_neg hg0]
      refine Eq.mpr (congrArg (fun o => ∃ z, o = some (BigRes.num z) ∧ IsNum z ∧ IsLcm (bigVal z) (a : ℚ) (b : ℚ)) (if_pos hdiv)) ?_
      refine ⟨_, rfl, .bigInt _, ?_⟩
      refine (isLcm_of g' a b _ hx0 hy0 hgcd ?_).2
      have : ((|a * b| / g' * g' : Int) : ℚ) = ((|a * b| : Int) : ℚ) := by rw [hdiv]
      rw [Int.cast_mul, Int.cast_abs, Int.cast_mul] at this
      exact this
    | rat a b =>
      have hg' : ∃ g', g = bigR g' := by cases hsame; exact ⟨_, rfl⟩
      obtain ⟨g', rfl⟩ := hg'
      simp only [bigVal] at hgcd hx0 hy0
      simp only [bigFn, bigFn1, hg]
      have habs : (if a * b < 0 then -(a * b) else a * b) = |a * b| := by
        split
        · rename_i h; rw [abs_of_neg h]
        · rename_i h; rw [abs_of_nonneg (not_lt.1 h)]
      rw [habs]
      have hm0 : |a * b| ≠ 0 := by simp [hx0, hy0]
      obtain ⟨_, ⟨k, hk⟩, _⟩ := id hgcd
      have hg0 : g' ≠ 0 := by rintro rfl; exact hx0 (by rw [hk]; simp)
      unfold bigRatDiv2
      rw [if_neg (by simp [hg0]), if_neg hm0, if_neg hg0]
      refine ⟨_, rfl, .rat _, ?_⟩
      exact (isLcm_of g' a b _ hx0 hy0 hgcd (div_mul_cancel₀ _ hg0)).2

theorem bools_gcd (l r : Bool) : IsGcd (if l || r then 1 else 0) (if l then 1 else 0) (if r then 1 else 0) := by
  cases l <;> cases r
  · exact ⟨le_refl _, ⟨0, by simp⟩, ⟨0, by simp⟩, fun h hx _ => hx⟩
  · exact ⟨zero_le_one, ⟨0, by simp⟩, ⟨1, by simp⟩, fun h _ hx => hx⟩
  · exact ⟨zero_le_one, ⟨1, by simp⟩, ⟨0, by simp⟩, fun h hx _ => hx⟩
  · exact ⟨zero_le_one, ⟨1, by simp⟩, ⟨1, by simp⟩, fun h hx _ => hx⟩

theorem bools_lcm (l r : Bool) : IsLcm (if l && r then 1 else 0) (if l then 1 else 0) (if r then 1 else 0) := by
  cases l <;> cases r
  · exact ⟨le_refl _, ⟨0, by simp⟩, ⟨0, by simp⟩, fun h hx _ => hx⟩
  · exact ⟨le_refl _, ⟨0, by simp⟩, ⟨0, by simp⟩, fun h hx _ => hx⟩
  · exact ⟨le_refl _, ⟨0, by simp⟩, ⟨0, by simp⟩, fun h _ hx => hx⟩
  · exact ⟨zero_le_one, ⟨1, by simp⟩, ⟨1, by simp⟩, fun h hx _ => hx⟩

theorem logical_spec (and : Bool) {x y : BigN} (h : SameBig x y)
    (hz : and = false → ¬ (bigVal x = 0 ∧ bigVal y < 0) ∧ ¬ (bigVal y = 0 ∧ bigVal x < 0)) :
    ∃ z, bigLogical and x y = some (.num z) ∧ IsNum z ∧
      (and = false → IsGcd (bigVal z) (bigVal x) (bigVal y)) ∧ (and = true → IsLcm (bigVal z) (bigVal x) (bigVal y)) := by
  obtain ⟨nx, ny⟩ := h.nums
  have rest : ∃ z, (if and then bigLcm2 x y else bigGcd2 x y) = some (.num z) ∧ IsNum z ∧
      (and = false → IsGcd (bigVal z) (bigVal x) (bigVal y)) ∧ (and = true → IsLcm (bigVal z) (bigVal x) (bigVal y)) := by
    cases and with
    | true =>
      obtain ⟨z, h1, h2, h3⟩ := lcm2_spec h
      exact ⟨z, h1, h2, by simp, fun _ => h3⟩
    | false =>
      obtain ⟨z, h1, h2, h3, _⟩ := gcd2_spec h (hz rfl).1 (hz rfl).2
      exact ⟨z, h1, h2, fun _ => h3, by simp⟩
  unfold bigLogical
  cases hl : bigToBool x with
  | none => exact rest
  | some l =>
    cases hr : bigToBool y with
    | none => exact rest
    | some r =>
      have el := (toBool_iff nx l).1 hl
      have er := (toBool_iff ny r).1 hr
      rw [el, er]
      cases and with
      | true => exact ⟨_, rfl, .bool _, by simp, fun _ => bools_lcm l r⟩
      | false => exact ⟨_, rfl, .bool _, fun _ => bools_gcd l r, by simp⟩

theorem logic_spec (and : Bool) (L R : BigN) (hL : IsNum L) (hR : IsNum R) (hb : IsBig L ∨ IsBig R)
    (hz : and = false → ¬ (bigVal L = 0 ∧ bigVal R < 0) ∧ ¬ (bigVal R = 0 ∧ bigVal L < 0)) :
    ∃ z, bigLogic and L R = .ok (.num z) ∧ IsNum z ∧
      (and = false → IsGcd (bigVal z) (bigVal L) (bigVal R)) ∧ (and = true → IsLcm (bigVal z) (bigVal L) (bigVal R)) := by
  unfold bigLogic
  by_cases hr : (∃ q, L = bigR q) ∨ ∃ q, R = bigR q
  · obtain ⟨z, h1, h2⟩ := logical_spec and (SameBig.rat (bigVal L) (bigVal R)) hz
    exact ⟨z, by rw [arith2_rat _ L R hL hR hr, h1]; rfl, h2⟩
  · have hL' := intType_of hL (fun h => hr (.inl h))
    have hR' := intType_of hR (fun h => hr (.inr h))
    have hb' : (∃ n, L = bigI n) ∨ ∃ n, R = bigI n := by
      obtain (h | h) | h | h := hb
      · exact .inl h
      · exact absurd (.inl h) hr
      · exact .inr h
      · exact absurd (.inr h) hr
    rw [arith2_int _ L R hL' hR' hb']
    rw [← intVal_eq hL', ← intVal_eq hR'] at *
    obtain ⟨z, h1, h2⟩ := logical_spec and (SameBig.int (intVal L) (intVal R)) hz
    exact ⟨z, by rw [h1]; rfl, h2⟩

/-- C84: `L∨R` of big numbers (integers or rationals) is the greatest common divisor, unless one argument is
zero and the other negative. -/
theorem C84_gcd (L R : BigN) (hL : IsNum L) (hR : IsNum R) (hb : IsBig L ∨ IsBig R)
    (h1 : ¬ (bigVal L = 0 ∧ bigVal R < 0)) (h2 : ¬ (bigVal R = 0 ∧ bigVal L < 0)) :
    ∃ z, bigLogic false L R = .ok (.num z) ∧ IsNum z ∧ IsGcd (bigVal z) (bigVal L) (bigVal R) := by
  obtain ⟨z, h3, h4, h5, _⟩ := logic_spec false L R hL hR hb (fun _ => ⟨h1, h2⟩)
  exact ⟨z, h3, h4, h5 rfl⟩

/-- C84: `L∧R` of big numbers (integers or rationals) is the least common multiple. -/
theorem C84_lcm (L R : BigN) (hL : IsNum L) (hR : IsNum R) (hb : IsBig L ∨ IsBig R) :
    ∃ z, bigLogic true L R = .ok (.num z) ∧ IsNum z ∧ IsLcm (bigVal z) (bigVal L) (bigVal R) := by
  obtain ⟨z, h3, h4, _, h5⟩ := logic_spec true L R hL hR hb (by simp)
  exact ⟨z, h3, h4, h5 rfl⟩

/-- The specifications determine the result. -/
theorem C84_gcd_unique (g g' x y : ℚ) (h : IsGcd g x y) (h' : IsGcd g' x y) : g = g' := by
  obtain ⟨k, hk⟩ := h.2.2.2 g' h'.2.1 h'.2.2.1
  obtain ⟨l, hl⟩ := h'.2.2.2 g h.2.1 h.2.2.1
  by_cases hg : g = 0
  · rw [hl, hg]; simp
  · have h1 : ((k * l : Int) : ℚ) * g = 1 * g := by push_cast; rw [mul_assoc, ← hl, ← hk]; ring
    have h2 : k * l = 1 := by exact_mod_cast mul_right_cancel₀ hg h1
    rcases Int.mul_eq_one_iff_eq_one_or_neg_one.1 h2 with ⟨rfl, _⟩ | ⟨rfl, _⟩
    · rw [hk]; simp
    · have a1 := h.1
      have a2 := h'.1
      push_cast at hk
      linarith

/-- C84: the floor of a rational goes through a 64 bit float.  If the conversion is monotone and exact for the
two neighbouring integers of `q` (as it is below 2^53), the result is one of these two integers; the floor of a
fraction just below an integer may be that integer. -/
theorem C84_floor (toFloat : ℚ → ℚ) (q : ℚ) (hm : Monotone toFloat) (h1 : toFloat (⌊q⌋ : ℤ) = (⌊q⌋ : ℤ)) (h2 : toFloat (⌈q⌉ : ℤ) = (⌈q⌉ : ℤ)) :
    ∃ z w, bigRatFloor toFloat q = .num (bigR z) ∧ bigRatCeil toFloat q = .num (bigR w) ∧
      (z = (⌊q⌋ : ℤ) ∨ z = (⌈q⌉ : ℤ)) ∧ (w = (⌊q⌋ : ℤ) ∨ w = (⌈q⌉ : ℤ)) ∧ (toFloat q = q → z = (⌊q⌋ : ℤ) ∧ w = (⌈q⌉ : ℤ)) := by
  have hf : (⌊q⌋ : ℚ) ≤ toFloat q := by rw [← h1]; exact hm (Int.floor_le q)
  have hc : toFloat q ≤ (⌈q⌉ : ℚ) := by rw [← h2]; exact hm (Int.le_ceil q)
  have a1 : ⌊q⌋ ≤ ⌊toFloat q⌋ := Int.le_floor.2 hf
  have a2 : ⌊toFloat q⌋ ≤ ⌈q⌉ := by have := Int.floor_le_floor hc; simpa using this
  have a3 : ⌊q⌋ ≤ ⌈toFloat q⌉ := by have := Int.ceil_le_ceil hf; simpa using this
  have a4 : ⌈toFloat q⌉ ≤ ⌈q⌉ := Int.ceil_le.2 hc
  have a5 : ⌈q⌉ ≤ ⌊q⌋ + 1 := Int.ceil_le_floor_add_one q
  refine ⟨_, _, rfl, rfl, ?_, ?_, fun h => by rw [h]; exact ⟨rfl, rfl⟩⟩
  · rcases (show ⌊toFloat q⌋ = ⌊q⌋ ∨ ⌊toFloat q⌋ = ⌈q⌉ by omega) with h | h
    · exact .inl (by rw [h])
    · exact .inr (by rw [h])
  · rcases (show ⌈toFloat q⌉ = ⌊q⌋ ∨ ⌈toFloat q⌉ = ⌈q⌉ by omega) with h | h
    · exact .inl (by rw [h])
    · exact .inr (by rw [h])

/-! ### Examples -/
namespace BigDemo
/-- 10^30 + 1 is exact. -/
example : bigDyadic .add (bigI (10 ^ 30)) (.int 1) = .ok (.num (bigI (10 ^ 30 + 1))) := rfl
/-- A Bool and a rational. -/
example : ∃ z, bigDyadic .sub (.bool true) (bigR (1/3)) = .ok (.num z) ∧ IsNum z ∧ bigVal z = 2/3 := by
  obtain ⟨z, h1, h2, h3⟩ := C84_exact .sub (.bool true) (bigR (1/3)) (.bool _) (.rat _) (.inr (.inr ⟨_, rfl⟩)) (by simp)
  exact ⟨z, h1, h2, by rw [h3]; norm_num [exact, bigVal]⟩
/-- 7÷2 of native integers is the rational 7r2. -/
example : ∃ z, bigDyadic .div (.int 7) (.int 2) = .ok (.num z) ∧ IsNum z ∧ bigVal z = 7 / 2 :=
  C84_native_division 7 2 (by unfold I64; omega) (by unfold I64; omega) (by omega) (by omega)
/-- 2*¯3 of native integers is 1r8. -/
example : ∃ z, (bigPow (.int 2) (.int (-3))).1 = .ok (.num z) ∧ bigVal z = 1 / 8 := by
  obtain ⟨z, h1, _, h3, _⟩ := C84_power (.int 2) (.int (-3)) (.int _ (by unfold I64; omega)) (.int _ (by unfold I64; omega)) (-3) (by simp [bigVal])
    (by rintro ⟨⟨b, h⟩, _⟩; cases h) (by simp [bigVal])
  exact ⟨z, h1, by rw [h3]; norm_num [bigVal]⟩
/-- 1r2 ∨ 1r3 is 1r6. -/
example : ∃ z, bigLogic false (bigR (1/2)) (bigR (1/3)) = .ok (.num z) ∧ bigVal z = 1/6 := by
  obtain ⟨z, h1, _, h3⟩ := C84_gcd (bigR (1/2)) (bigR (1/3)) (.rat _) (.rat _) (.inl (.inr ⟨_, rfl⟩)) (by norm_num [bigVal]) (by norm_num [bigVal])
  refine ⟨z, h1, C84_gcd_unique _ _ _ _ h3 ⟨by norm_num, ⟨3, by norm_num [bigVal]⟩, ⟨2, by norm_num [bigVal]⟩, ?_⟩⟩
  rintro h ⟨k, hk⟩ ⟨l, hl⟩
  simp only [bigVal] at hk hl
  exact ⟨k - l, by push_cast; linarith⟩
end BigDemo
end Iv
