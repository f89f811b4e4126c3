import Verif.Model.Tower
import Mathlib.Data.List.Basic
import Mathlib.Order.Defs.LinearOrder
import Mathlib.Data.String.Basic
import Mathlib.Data.List.Nodup
import Mathlib.Data.List.Perm.Subperm
/-
C34 numeric tower, C36 comparison.
-/
namespace Iv
variable {V : Type}

/-- Specification: the conversions of the tower.  Bool to Int, Bool or Int to the import type, one step
up from class c to c+1. -/
inductive Conv (t : Tower V) : TNum V → TNum V → Prop
  | refl (x) : Conv t x x
  | boolInt {x : TNum V} (b) : Conv t x (.bool b) → Conv t x (.int (if b then 1 else 0))
  | importBool {x : TNum V} (b) : Conv t x (.bool b) → Conv t x (.num t.impClass (t.imp (.bool b)))
  | importInt {x : TNum V} (n) : Conv t x (.int n) → Conv t x (.num t.impClass (t.imp (.int n)))
  | step {x : TNum V} {c v w} : Conv t x (.num c v) → t.up c v = some w → Conv t x (.num (c + 1) w)

theorem Conv.trans {t : Tower V} {a b c : TNum V} (h1 : Conv t a b) (h2 : Conv t b c) : Conv t a c := by
  induction h2 with
  | refl => exact h1
  | boolInt b _ ih => exact .boolInt b ih
  | importBool b _ ih => exact .importBool b ih
  | importInt n _ ih => exact .importInt n ih
  | step _ hu ih => exact .step ih hu

/-- conversions never go down -/
theorem Conv.le {t : Tower V} {a b : TNum V} (h : Conv t a b) : cls a ≤ cls b := by
  induction h with
  | refl => exact Int.le_refl _
  | boolInt b _ ih => simp only [cls] at *; omega
  | importBool b _ ih => simp only [cls] at *; omega
  | importInt n _ ih => simp only [cls] at *; omega
  | step _ hu ih => simp only [cls] at *; omega

theorem upLoop_conv {t : Tower V} (s c : Nat) (v w : V) (h : t.upLoop s c v = .ok w) : Conv t (.num c v) (.num (c + s) w) := by
  induction s generalizing c v with
  | zero => simp only [Tower.upLoop] at h; cases h; exact .refl _
  | succ s ih =>
    simp only [Tower.upLoop] at h
    cases hu : t.up c v with
    | none => rw [hu] at h; cases h
    | some u =>
      rw [hu] at h
      have := ih (c + 1) u h
      rw [show c + (s + 1) = c + 1 + s by omega]
      exact (Conv.step (.refl _) hu).trans this

theorem sameNum_conv {t : Tower V} {ca cb : Nat} {va vb : V} {a' b' : TNum V} (h : t.sameNum ca va cb vb = .ok (a', b')) :
    Conv t (.num ca va) a' ∧ Conv t (.num cb vb) b' ∧ cls a' = max ca cb ∧ cls b' = max ca cb ∧ ca < t.len ∧ cb < t.len := by
  unfold Tower.sameNum at h
  split at h
  · cases h
  · split at h
    · cases h
    · rename_i h1 h2
      simp only [bind, Except.bind, pure, Except.pure] at h
      cases hA : t.upLoop (cb - ca) ca va with
      | error e => rw [hA] at h; cases h
      | ok va' =>
        rw [hA] at h
        simp only at h
        cases hB : t.upLoop (max ca cb - cb) cb vb with
        | error e => rw [hB] at h; cases h
        | ok vb' =>
          rw [hB] at h
          cases h
          have c1 := upLoop_conv _ _ _ _ hA
          have c2 := upLoop_conv _ _ _ _ hB
          rw [show ca + (cb - ca) = max ca cb by omega] at c1
          rw [show cb + (max ca cb - cb) = max ca cb by omega] at c2
          refine ⟨c1, c2, ?_, ?_, by omega, by omega⟩ <;> simp [cls]

/-- C34: `SameType` converts both numbers, by conversions of the tower only, to the same class, which is
never below the class of either; numbers of the same class are returned unchanged. -/
theorem C34_same_class (t : Tower V) (a b a' b' : TNum V) (h : t.sameType a b = .ok (a', b')) :
    Conv t a a' ∧ Conv t b b' ∧ cls a' = cls b' ∧ cls a ≤ cls a' ∧ cls b ≤ cls a' ∧
      (cls a = cls b → a' = a ∧ b' = b) := by
  have key : Conv t a a' ∧ Conv t b b' ∧ cls a' = cls b' ∧ (cls a = cls b → a' = a ∧ b' = b) := by
    cases a <;> cases b <;> simp only [Tower.sameType, Tower.importN] at h
    case bool.bool => cases h; exact ⟨.refl _, .refl _, rfl, fun _ => ⟨rfl, rfl⟩⟩
    case int.int => cases h; exact ⟨.refl _, .refl _, rfl, fun _ => ⟨rfl, rfl⟩⟩
    case bool.int x y => cases h; exact ⟨.boolInt _ (.refl _), .refl _, rfl, by simp [cls]⟩
    case int.bool x y => cases h; exact ⟨.refl _, .boolInt _ (.refl _), rfl, by simp [cls]⟩
    case bool.num x c v =>
      obtain ⟨h1, h2, h3, h4, _⟩ := sameNum_conv h
      exact ⟨(Conv.importBool x (.refl _)).trans h1, h2, by rw [h3, h4], by simp only [cls]; omega⟩
    case int.num x c v =>
      obtain ⟨h1, h2, h3, h4, _⟩ := sameNum_conv h
      exact ⟨(Conv.importInt x (.refl _)).trans h1, h2, by rw [h3, h4], by simp only [cls]; omega⟩
    case num.bool c v x =>
      obtain ⟨h1, h2, h3, h4, _⟩ := sameNum_conv h
      exact ⟨h1, (Conv.importBool x (.refl _)).trans h2, by rw [h3, h4], by simp only [cls]; omega⟩
    case num.int c v x =>
      obtain ⟨h1, h2, h3, h4, _⟩ := sameNum_conv h
      exact ⟨h1, (Conv.importInt x (.refl _)).trans h2, by rw [h3, h4], by simp only [cls]; omega⟩
    case num.num c v c' v' =>
      split at h
      · cases h; exact ⟨.refl _, .refl _, by simp only [cls]; omega, fun _ => ⟨rfl, rfl⟩⟩
      · obtain ⟨h1, h2, h3, h4, _⟩ := sameNum_conv h
        exact ⟨h1, h2, by rw [h3, h4], by simp only [cls]; omega⟩
  obtain ⟨h1, h2, h3, h4⟩ := key
  exact ⟨h1, h2, h3, h1.le, by rw [h3]; exact h2.le, h4⟩

theorem upLoop_ok {t : Tower V} (s c : Nat) (v : V) (h : ∀ c' v', c ≤ c' → c' < c + s → (t.up c' v').isSome) :
    ∃ w, t.upLoop s c v = .ok w := by
  induction s generalizing c v with
  | zero => exact ⟨v, rfl⟩
  | succ s ih =>
    obtain ⟨u, hu⟩ := Option.isSome_iff_exists.1 (h c v (by omega) (by omega))
    simp only [Tower.upLoop, hu]
    exact ih (c + 1) u (fun c' v' h1 h2 => h c' v' (by omega) (by omega))

/-- C34: if every `Uptype` below the top class succeeds (a total tower), two numbers of the tower can
always be brought to one class. -/
theorem C34_same_class_total (t : Tower V) (a b : TNum V) (hi : t.impClass < t.len)
    (hup : ∀ c v, c + 1 < t.len → (t.up c v).isSome) (ha : cls a < t.len) (hb : cls b < t.len) :
    ∃ a' b', t.sameType a b = .ok (a', b') := by
  have key : ∀ ca va cb vb, ca < t.len → cb < t.len → ∃ a' b', t.sameNum ca va cb vb = .ok (a', b') := by
    intro ca va cb vb h1 h2
    obtain ⟨w1, e1⟩ := upLoop_ok (t := t) (cb - ca) ca va (fun c' v' h3 h4 => hup c' v' (by omega))
    obtain ⟨w2, e2⟩ := upLoop_ok (t := t) (max ca cb - cb) cb vb (fun c' v' h3 h4 => hup c' v' (by omega))
    refine ⟨.num (max ca cb) w1, .num (max ca cb) w2, ?_⟩
    unfold Tower.sameNum
    rw [if_neg (by omega), if_neg (by omega)]
    simp only [e1, e2, bind, Except.bind, pure, Except.pure]
  cases a <;> cases b <;> simp only [Tower.sameType, Tower.importN, cls] at *
  case bool.bool => exact ⟨_, _, rfl⟩
  case int.int => exact ⟨_, _, rfl⟩
  case bool.int x y => exact ⟨_, _, rfl⟩
  case int.bool x y => exact ⟨_, _, rfl⟩
  case num.num c v c' v' =>
    split
    · exact ⟨_, _, rfl⟩
    · exact key _ _ _ _ (by omega) (by omega)
  all_goals exact key _ _ _ _ (by omega) (by omega)

theorem uptype_conv {t : Tower V} {n : Numeric} {x y : TNum V} (hn : n = .int → ∃ m, x = .int m)
    (h : t.uptype n x = .ok (some y)) : Conv t x y := by
  cases n with
  | bool =>
    cases x with
    | bool b => simp only [Tower.uptype] at h; cases h; exact .boolInt b (.refl _)
    | int => cases h
    | num => cases h
  | int =>
    obtain ⟨m, rfl⟩ := hn rfl
    simp only [Tower.uptype, Tower.importN] at h; cases h; exact .importInt m (.refl _)
  | cls c =>
    cases x with
    | bool => cases h
    | int => cases h
    | num c' v =>
      simp only [Tower.uptype] at h
      split at h
      · rename_i hc
        subst hc
        cases hu : t.up c v with
        | none => rw [hu] at h; cases h
        | some w => rw [hu] at h; cases h; exact .step (.refl _) hu
      · cases h

/-- the descriptor belongs to the number -/
def Fits (num : Option Numeric) (x : TNum V) : Prop :=
  match num with
  | none => True
  | some .bool => ∃ b, x = .bool b
  | some .int => ∃ n, x = .int n
  | some (.cls c) => ∃ v, x = .num c v

theorem fits_lookup (t : Tower V) (x y : TNum V) (h : cls x = cls y) : Fits (t.lookupType x) x ∧ Fits (t.lookupType x) y := by
  cases x with
  | bool b => exact ⟨trivial, trivial⟩
  | int n => exact ⟨trivial, trivial⟩
  | num c v =>
    simp only [Tower.lookupType]
    split
    · refine ⟨⟨v, rfl⟩, ?_⟩
      cases y with
      | bool b => simp [cls] at h
      | int n => simp [cls] at h
      | num c' v' => (have : c = c' := by simp only [cls] at h; omega); subst this; exact ⟨v', rfl⟩
    · exact ⟨trivial, trivial⟩

theorem uptype_cls {t : Tower V} {num : Numeric} {l r l' r' : TNum V} (fl : Fits (some num) l) (fr : Fits (some num) r)
    (hl : t.uptype num l = .ok (some l')) (hr : t.uptype num r = .ok (some r')) : cls l' = cls r' := by
  cases num with
  | bool =>
    obtain ⟨b, rfl⟩ := fl
    obtain ⟨b', rfl⟩ := fr
    cases hl; cases hr; rfl
  | int =>
    obtain ⟨b, rfl⟩ := fl
    obtain ⟨b', rfl⟩ := fr
    cases hl; cases hr; rfl
  | cls c =>
    obtain ⟨v, rfl⟩ := fl
    obtain ⟨v', rfl⟩ := fr
    simp only [Tower.uptype, if_true] at hl hr
    cases h1 : t.up c v with
    | none => rw [h1] at hl; cases hl
    | some w =>
      cases h2 : t.up c v' with
      | none => rw [h2] at hr; cases hr
      | some w' => rw [h1] at hl; rw [h2] at hr; cases hl; cases hr; rfl

theorem arith2Loop_spec {ρ} {t : Tower V} {fn : TNum V → TNum V → Option ρ} (cnt : Nat) (num : Option Numeric) (l r : TNum V)
    (hc : cls l = cls r) (fl : Fits num l) (fr : Fits num r) (v : ρ) (h : t.arith2Loop fn cnt num l r = .ok v) :
    ∃ l' r', fn l' r' = some v ∧ cls l' = cls r' ∧ Conv t l l' ∧ Conv t r r' := by
  induction cnt generalizing num l r with
  | zero => cases h
  | succ cnt ih =>
    simp only [Tower.arith2Loop] at h
    cases hf : fn l r with
    | some w => rw [hf] at h; cases h; exact ⟨l, r, hf, hc, .refl _, .refl _⟩
    | none =>
      rw [hf] at h
      cases num with
      | none => cases h
      | some num =>
        simp only [bind, Except.bind] at h
        cases hl : t.uptype num l with
        | error e => rw [hl] at h; cases h
        | ok ol =>
          rw [hl] at h
          cases ol with
          | none => cases h
          | some l' =>
            simp only at h
            cases hr : t.uptype num r with
            | error e => rw [hr] at h; cases h
            | ok orr =>
              rw [hr] at h
              cases orr with
              | none => cases h
              | some r' =>
                simp only at h
                have hc' := uptype_cls fl fr hl hr
                obtain ⟨f1, f2⟩ := fits_lookup t l' r' hc'
                obtain ⟨l2, r2, g1, g2, g3, g4⟩ := ih _ l' r' hc' f1 f2 h
                have cl : Conv t l l' := uptype_conv (by rintro rfl; exact fl) hl
                have cr : Conv t r r' := uptype_conv (by rintro rfl; exact fr) hr
                exact ⟨l2, r2, g1, g2, cl.trans g3, cr.trans g4⟩

theorem fits_toNumeric {t : Tower V} {x y : TNum V} {num : Numeric} (h : t.toNumeric x = some num) (hc : cls x = cls y) :
    Fits (some num) x ∧ Fits (some num) y := by
  cases x with
  | bool b =>
    cases h
    cases y with
    | bool b' => exact ⟨⟨b, rfl⟩, ⟨b', rfl⟩⟩
    | int n => simp [cls] at hc
    | num c v => simp [cls] at hc
  | int n =>
    cases h
    cases y with
    | bool b' => simp [cls] at hc
    | int n' => exact ⟨⟨n, rfl⟩, ⟨n', rfl⟩⟩
    | num c v => simp [cls] at hc
  | num c v =>
    simp only [Tower.toNumeric] at h
    split at h
    · cases h
      cases y with
      | bool b' => simp [cls] at hc
      | int n' => simp [cls] at hc
      | num c' v' => (have : c = c' := by simp only [cls] at hc; omega); subst this; exact ⟨⟨v, rfl⟩, ⟨v', rfl⟩⟩
    · cases h

theorem sameGoType_cls {l r : TNum V} (h : sameGoType l r = true) : cls l = cls r := by
  cases l <;> cases r <;> simp_all [sameGoType, cls]

/-- C34: a dyadic arithmetic function is only ever evaluated on two numbers of the same class of the
tower, obtained from the arguments by upward conversions; that result is returned. -/
theorem C34_arith2 {ρ} (t : Tower V) (fn : TNum V → TNum V → Option ρ) (L R : TNum V) (v : ρ)
    (h : t.arith2 fn L R = .ok v) :
    ∃ l r, fn l r = some v ∧ cls l = cls r ∧ Conv t L l ∧ Conv t R r ∧ cls L ≤ cls l ∧ cls R ≤ cls l := by
  have key : ∃ l r, fn l r = some v ∧ cls l = cls r ∧ Conv t L l ∧ Conv t R r := by
    unfold Tower.arith2 at h
    split at h
    · rename_i w hw
      cases h
      split at hw
      · rename_i hs
        exact ⟨L, R, hw, sameGoType_cls hs, .refl _, .refl _⟩
      · cases hw
    · simp only [bind, Except.bind] at h
      cases hs : t.sameType L R with
      | error e => rw [hs] at h; cases h
      | ok p =>
        obtain ⟨l, r⟩ := p
        rw [hs] at h
        simp only at h
        obtain ⟨c1, c2, c3, _⟩ := C34_same_class t L R l r hs
        cases hn : t.toNumeric l with
        | none => rw [hn] at h; cases h
        | some num =>
          rw [hn] at h
          obtain ⟨f1, f2⟩ := fits_toNumeric hn c3
          obtain ⟨l', r', g1, g2, g3, g4⟩ := arith2Loop_spec _ _ l r c3 f1 f2 v h
          exact ⟨l', r', g1, g2, c1.trans g3, c2.trans g4⟩
  obtain ⟨l, r, h1, h2, h3, h4⟩ := key
  exact ⟨l, r, h1, h2, h3, h4, h3.le, by rw [h2]; exact h4.le⟩

/-- C34: numbers of equal type are not converted if the function handles them: the lowest class is tried
first. -/
theorem C34_direct {ρ} (t : Tower V) (fn : TNum V → TNum V → Option ρ) (l r : TNum V) (hs : sameGoType l r = true) (v : ρ)
    (hf : fn l r = some v) : t.arith2 fn l r = .ok v := by
  unfold Tower.arith2
  rw [hs, if_pos rfl, hf]

/-- C34: an integer and a Bool are compared and combined as integers, without leaving the integer type,
when the function handles integers. -/
theorem C34_bool_int {ρ} (t : Tower V) (fn : TNum V → TNum V → Option ρ) (b : Bool) (n : Int) (v : ρ) :
    (fn (.int (if b then 1 else 0)) (.int n) = some v → t.arith2 fn (.bool b) (.int n) = .ok v) ∧
    (fn (.int n) (.int (if b then 1 else 0)) = some v → t.arith2 fn (.int n) (.bool b) = .ok v) := by
  constructor
  all_goals
    intro h
    unfold Tower.arith2
    simp only [sameGoType, Tower.sameType, bind, Except.bind, Tower.toNumeric, cls]
    have : ((t.len : Int) - (-1)).toNat = t.len + 1 := by omega
    simp only [Bool.false_eq_true, if_false, this, Tower.arith2Loop]
    rw [show bool2int b = if b then 1 else 0 from rfl, h]

/-- C34: conversion in monadic functions terminates for every tower whose top class refuses to uptype:
`len + 4` rounds are always enough. -/
theorem C34_arith1_terminates {ρ} (t : Tower V) (fn : TNum V → Option ρ) (R : TNum V)
    (hi : t.impClass < t.len) (htop : ∀ v, t.up (t.len - 1) v = none) : (t.arith1 fn (t.len + 4) R).isSome := by
  have key : ∀ (fuel : Nat) (num : Option Numeric) (x : TNum V), Fits num x → cls x < t.len → ((t.len : Int) - cls x).toNat < fuel →
      (num = some .int → t.impClass < t.len) →
      (t.arith1Loop fn fuel num x).isSome := by
    intro fuel
    induction fuel with
    | zero => intro num x _ _ h _; omega
    | succ fuel ih =>
      intro num x fx hx hf hint
      simp only [Tower.arith1Loop]
      cases fn x with
      | some v => rfl
      | none =>
        cases num with
        | none => rfl
        | some num =>
          simp only
          cases num with
          | bool =>
            obtain ⟨b, rfl⟩ := fx
            simp only [Tower.uptype, Tower.lookupType]
            simp only [cls] at hf
            apply ih
            · trivial
            · simp only [cls]; omega
            · simp only [cls]; omega
            · simp
          | int =>
            obtain ⟨n, rfl⟩ := fx
            have hi := hint rfl
            simp only [Tower.uptype, Tower.importN]
            simp only [cls] at hf
            apply ih
            · exact (fits_lookup t _ _ rfl).1
            · simp only [cls]; omega
            · simp only [cls]; omega
            · simp [Tower.lookupType]
          | cls c =>
            obtain ⟨v, rfl⟩ := fx
            simp only [Tower.uptype, if_true]
            cases hu : t.up c v with
            | none => rfl
            | some w =>
              simp only [Option.map_some]
              simp only [cls] at hf hx
              have hlt : c + 1 < t.len := by
                by_contra hc
                have : c = t.len - 1 := by omega
                subst this
                rw [htop] at hu; cases hu
              apply ih
              · exact (fits_lookup t _ _ rfl).1
              · simp only [cls]; omega
              · simp only [cls]; omega
              · simp [Tower.lookupType]
  unfold Tower.arith1
  cases fn R with
  | some v => rfl
  | none =>
    simp only
    cases hn : t.toNumeric R with
    | none => rfl
    | some num =>
      simp only
      have hR : cls R < t.len := by
        cases R with
        | bool b => simp only [cls]; omega
        | int n => simp only [cls]; omega
        | num c v =>
          simp only [Tower.toNumeric] at hn
          split at hn
          · simp only [cls]; omega
          · cases hn
      have hR' : -2 ≤ cls R := by cases R <;> simp only [cls] <;> omega
      exact key _ _ R (fits_toNumeric hn rfl).1 hR (by omega) (fun _ => hi)

/-! ### C36: comparison -/

/-- Specification of the six comparison functions in a linear order. -/
def CmpSpec {Q : Type} [LinearOrder Q] (x y : Q) : Cmp → Prop
  | .eq => x = y
  | .lt => x < y
  | .gt => y < x
  | .ne => ¬ x = y
  | .le => ¬ y < x
  | .ge => ¬ x < y

theorem compareFn_spec {N Q : Type} [LinearOrder Q] (equals less : N → N → Option Bool) (val : N → Q)
    (L R : N) (he : ∃ b, equals L R = some b ∧ (b = true ↔ val L = val R))
    (hl : ∃ b, less L R = some b ∧ (b = true ↔ val L < val R)) (op : Cmp) :
    ∃ b, compareFn equals less op L R = some b ∧ (b = true ↔ CmpSpec (val L) (val R) op) := by
  obtain ⟨e, he, he'⟩ := he
  obtain ⟨l, hl, hl'⟩ := hl
  cases op
  · exact ⟨e, he, he'⟩
  · exact ⟨l, hl, hl'⟩
  · refine ⟨!e && !l, by simp [compareFn, he, hl], ?_⟩
    simp only [Bool.and_eq_true, Bool.not_eq_true', ← Bool.not_eq_true, he', hl', CmpSpec]
    exact ⟨fun h => lt_of_le_of_ne (not_lt.1 h.2) (Ne.symm h.1), fun h => ⟨ne_of_gt h, lt_asymm h⟩⟩
  · refine ⟨!e, by simp [compareFn, he], ?_⟩
    simp only [Bool.not_eq_true', ← Bool.not_eq_true, he', CmpSpec]
  · refine ⟨e || l, by simp [compareFn, he, hl], ?_⟩
    simp only [Bool.or_eq_true, he', hl', CmpSpec, not_lt]
    rw [or_comm]; exact le_iff_lt_or_eq.symm
  · refine ⟨e || !l, by simp [compareFn, he, hl], ?_⟩
    simp only [Bool.or_eq_true, Bool.not_eq_true', ← Bool.not_eq_true, he', hl', CmpSpec]
    exact ⟨fun h => h.elim (fun h => by rw [h]; exact lt_irrefl _) id, Or.inr⟩

/-- The tower is exact for a valuation: importing and uptyping keep the value, and the `Equals` and `Less`
methods of the registered types decide equality and order of the values. -/
structure ExactTower {Q : Type} [LinearOrder Q] (t : Tower V) (eqs les : Nat → V → V → Option Bool) (val : TNum V → Q) : Prop where
  bool : ∀ b, val (.bool b) = val (.int (if b then 1 else 0))
  imp_bool : ∀ b, val (.num t.impClass (t.imp (.bool b))) = val (.bool b)
  imp_int : ∀ n, val (.num t.impClass (t.imp (.int n))) = val (.int n)
  up : ∀ c v w, t.up c v = some w → val (.num (c + 1) w) = val (.num c v)
  mono : ∀ m n, val (.int m) < val (.int n) ↔ m < n
  eqs : ∀ c v w, ∃ b, eqs c v w = some b ∧ (b = true ↔ val (.num c v) = val (.num c w))
  les : ∀ c v w, ∃ b, les c v w = some b ∧ (b = true ↔ val (.num c v) < val (.num c w))

theorem Conv.val {Q : Type} [LinearOrder Q] {t : Tower V} {eqs les} {val : TNum V → Q} (ht : ExactTower t eqs les val) {x y : TNum V}
    (h : Conv t x y) : val y = val x := by
  induction h with
  | refl => rfl
  | boolInt b _ ih => rw [← ht.bool, ih]
  | importBool b _ ih => rw [ht.imp_bool, ih]
  | importInt n _ ih => rw [ht.imp_int, ih]
  | step _ hu ih => rw [ht.up _ _ _ hu, ih]

theorem ExactTower.inj {Q : Type} [LinearOrder Q] {t : Tower V} {eqs les} {val : TNum V → Q} (ht : ExactTower t eqs les val)
    (m n : Int) : val (.int m) = val (.int n) ↔ m = n := by
  constructor
  · intro h
    rcases Int.lt_trichotomy m n with h1 | h1 | h1
    · exact absurd ((ht.mono m n).2 h1) (by rw [h]; exact lt_irrefl _)
    · exact h1
    · exact absurd ((ht.mono n m).2 h1) (by rw [h]; exact lt_irrefl _)
  · rintro rfl; rfl

theorem cmpNum_spec {Q : Type} [LinearOrder Q] {t : Tower V} {eqs les} {val : TNum V → Q} (ht : ExactTower t eqs les val)
    (op : Cmp) (l r : TNum V) (hc : cls l = cls r) :
    ∃ b, cmpNum eqs les op l r = some b ∧ (b = true ↔ CmpSpec (val l) (val r) op) := by
  cases l with
  | bool x =>
    cases r with
    | bool y =>
      refine compareFn_spec goEquals boolLess (fun b => val (.bool b)) x y ⟨_, rfl, ?_⟩ ⟨_, rfl, ?_⟩ op
      · rw [ht.bool, ht.bool, ht.inj]; cases x <;> cases y <;> decide
      · rw [ht.bool, ht.bool, ht.mono]; cases x <;> cases y <;> decide
    | int => simp [cls] at hc
    | num => simp [cls] at hc
  | int x =>
    cases r with
    | int y =>
      refine compareFn_spec goEquals intLess (fun n => val (.int n)) x y ⟨_, rfl, ?_⟩ ⟨_, rfl, ?_⟩ op
      · rw [ht.inj]; exact decide_eq_true_iff
      · rw [ht.mono]; exact decide_eq_true_iff
    | bool => simp [cls] at hc
    | num => simp [cls] at hc
  | num c v =>
    cases r with
    | bool => simp [cls] at hc
    | int => simp [cls] at hc
    | num c' w =>
      have : c = c' := by simp only [cls] at hc; omega
      subst this
      exact compareFn_spec (eqs c) (les c) (fun v => val (.num c v)) v w (ht.eqs c v w) (ht.les c v w) op

/-- C36: a comparison of two numbers, of the same or of different types of an exact tower, is the
comparison of their values. -/
theorem C36_compare {Q : Type} [LinearOrder Q] (t : Tower V) (eqs les : Nat → V → V → Option Bool) (val : TNum V → Q)
    (ht : ExactTower t eqs les val) (op : Cmp) (L R : TNum V) (b : Bool)
    (h : t.arith2 (cmpNum eqs les op) L R = .ok b) : b = true ↔ CmpSpec (val L) (val R) op := by
  obtain ⟨l, r, h1, h2, h3, h4, _⟩ := C34_arith2 t _ L R b h
  obtain ⟨b', e, hb⟩ := cmpNum_spec ht op l r h2
  rw [h1] at e
  cases e
  rw [hb, h3.val ht, h4.val ht]

theorem sameNum_ok_lt {t : Tower V} {ca cb : Nat} {va vb : V} {a' b' : TNum V} (h : t.sameNum ca va cb vb = .ok (a', b')) :
    cls a' < t.len := by
  obtain ⟨_, _, h3, _, h5, h6⟩ := sameNum_conv h
  rw [h3]; omega

theorem sameType_lt {t : Tower V} {a b a' b' : TNum V} (hi : t.impClass < t.len) (ha : cls a < t.len) (hb : cls b < t.len)
    (h : t.sameType a b = .ok (a', b')) : cls a' < t.len := by
  cases a <;> cases b <;> simp only [Tower.sameType, Tower.importN] at h
  case num.num c v c' v' =>
    split at h
    · cases h; exact ha
    · exact sameNum_ok_lt h
  case bool.num => exact sameNum_ok_lt h
  case int.num => exact sameNum_ok_lt h
  case num.bool => exact sameNum_ok_lt h
  case num.int => exact sameNum_ok_lt h
  all_goals (cases h; simp only [cls] at *; omega)

/-- C36: the comparison gives a result for every two numbers of a tower in which all uptypes below the top succeed. -/
theorem C36_defined {Q : Type} [LinearOrder Q] (t : Tower V) (eqs les : Nat → V → V → Option Bool) (val : TNum V → Q)
    (ht : ExactTower t eqs les val) (op : Cmp) (L R : TNum V) (hi : t.impClass < t.len)
    (hup : ∀ c v, c + 1 < t.len → (t.up c v).isSome) (hL : cls L < t.len) (hR : cls R < t.len) :
    ∃ b, t.arith2 (cmpNum eqs les op) L R = .ok b := by
  unfold Tower.arith2
  split
  · exact ⟨_, rfl⟩
  · obtain ⟨a', b', hs⟩ := C34_same_class_total t L R hi hup hL hR
    obtain ⟨_, _, c3, _⟩ := C34_same_class t L R a' b' hs
    obtain ⟨b, e, _⟩ := cmpNum_spec ht op a' b' c3
    have hlt : cls a' < t.len := by
      have := sameType_lt hi hL hR hs
      exact this
    have hn : ∃ num, t.toNumeric a' = some num := by
      cases a' with
      | bool => exact ⟨_, rfl⟩
      | int => exact ⟨_, rfl⟩
      | num c v => simp only [cls] at hlt; exact ⟨.cls c, by simp only [Tower.toNumeric]; rw [if_pos (by omega)]⟩
    obtain ⟨num, hn⟩ := hn
    refine ⟨b, ?_⟩
    simp only [hs, bind, Except.bind, hn]
    obtain ⟨k, hk⟩ : ∃ k, ((t.len : Int) - cls a').toNat = k + 1 := ⟨((t.len : Int) - cls a').toNat - 1, by omega⟩
    rw [hk]
    simp only [Tower.arith2Loop, e]

/-- C36: exactly one of < = > holds; ≤ is not >, ≥ is not <, ≠ is not =; L<R equals R>L.  The Booleans are the
results of the six functions. -/
theorem C36_consistent {Q : Type} [LinearOrder Q] (t : Tower V) (eqs les : Nat → V → V → Option Bool) (val : TNum V → Q)
    (ht : ExactTower t eqs les val) (L R : TNum V) (res : Cmp → Bool)
    (h : ∀ op, t.arith2 (cmpNum eqs les op) L R = .ok (res op)) (g : Bool)
    (hg : t.arith2 (cmpNum eqs les .gt) R L = .ok g) :
    ([res .lt, res .eq, res .gt].count true = 1) ∧ res .le = !res .gt ∧ res .ge = !res .lt ∧ res .ne = !res .eq ∧
      res .lt = g := by
  have hs := fun op => C36_compare t eqs les val ht op L R (res op) (h op)
  have hg' := C36_compare t eqs les val ht .gt R L g hg
  have h1 := hs .lt
  have h2 := hs .eq
  have h3 := hs .gt
  have h4 := hs .le
  have h5 := hs .ge
  have h6 := hs .ne
  simp only [CmpSpec] at *
  have e1 : res .le = !res .gt := by
    rw [← h3] at h4; cases hx : res .le <;> cases hy : res .gt <;> simp_all
  have e2 : res .ge = !res .lt := by
    rw [← h1] at h5; cases hx : res .ge <;> cases hy : res .lt <;> simp_all
  have e3 : res .ne = !res .eq := by
    rw [← h2] at h6; cases hx : res .ne <;> cases hy : res .eq <;> simp_all
  have e4 : res .lt = g := by
    rw [← h1] at hg'; cases hx : res .lt <;> cases hy : g <;> simp_all
  refine ⟨?_, e1, e2, e3, e4⟩
  rcases lt_trichotomy (val L) (val R) with hlt | heq | hgt
  · have a1 : res .lt = true := h1.2 hlt
    have a2 : res .eq = false := by rw [Bool.eq_false_iff]; exact fun hx => absurd (h2.1 hx) (ne_of_lt hlt)
    have a3 : res .gt = false := by rw [Bool.eq_false_iff]; exact fun hx => absurd (h3.1 hx) (lt_asymm hlt)
    rw [a1, a2, a3]; rfl
  · have a1 : res .eq = true := h2.2 heq
    have a2 : res .lt = false := by rw [Bool.eq_false_iff]; exact fun hx => absurd (h1.1 hx) (by rw [heq]; exact lt_irrefl _)
    have a3 : res .gt = false := by rw [Bool.eq_false_iff]; exact fun hx => absurd (h3.1 hx) (by rw [heq]; exact lt_irrefl _)
    rw [a1, a2, a3]; rfl
  · have a1 : res .gt = true := h3.2 hgt
    have a2 : res .eq = false := by rw [Bool.eq_false_iff]; exact fun hx => absurd (h2.1 hx).symm (ne_of_lt hgt)
    have a3 : res .lt = false := by rw [Bool.eq_false_iff]; exact fun hx => absurd (h1.1 hx) (lt_asymm hgt)
    rw [a1, a2, a3]; rfl

/-- C36 for strings: the six functions compare in the order of the string type. -/
theorem C36_strings (op : Cmp) (l r : String) :
    ∃ b, compareFn goEquals (fun l r => some (decide (l < r))) op l r = some b ∧ (b = true ↔ CmpSpec l r op) :=
  compareFn_spec _ _ id l r ⟨_, rfl, decide_eq_true_iff⟩ ⟨_, rfl, decide_eq_true_iff⟩ op

/-- The exactness hypothesis matters: with an incomparable value (a NaN in the Float type, modelled as an
element that is neither equal to nor less than anything) `>` holds in both directions. -/
theorem C36_nan (equals less : V → V → Option Bool) (x y : V) (he : equals x y = some false) (hl : less x y = some false)
    (he' : equals y x = some false) (hl' : less y x = some false) :
    compareFn equals less .gt x y = some true ∧ compareFn equals less .gt y x = some true := by
  simp [compareFn, he, hl, he', hl']

/-! ### The hypotheses are met by a concrete tower: two registered integer-valued types -/
def demoTower : Tower Int := ⟨2, 0, fun | .bool b => if b then 1 else 0 | .int n => n, fun c v => if c = 0 then some v else none⟩
def demoVal : TNum Int → Int | .bool b => if b then 1 else 0 | .int n => n | .num _ v => v
example : ExactTower demoTower (fun _ => goEquals) (fun _ => intLess) demoVal where
  bool b := by cases b <;> rfl
  imp_bool b := by cases b <;> rfl
  imp_int n := rfl
  up c v w h := by
    simp only [demoTower] at h; split at h
    · cases h; rfl
    · cases h
  mono m n := Iff.rfl
  eqs c v w := ⟨_, rfl, decide_eq_true_iff⟩
  les c v w := ⟨_, rfl, decide_eq_true_iff⟩
example : demoTower.impClass < demoTower.len ∧ (∀ c v, c + 1 < demoTower.len → (demoTower.up c v).isSome) ∧
    (∀ v, demoTower.up (demoTower.len - 1) v = none) := by
  refine ⟨by decide, ?_, fun v => rfl⟩
  intro c v h
  have : c = 0 := by simp only [demoTower] at h; omega
  subst this; rfl
example : demoTower.sameType (.bool true) (.num 1 7) = .ok (.num 1 1, .num 1 7) := by decide
example : demoTower.arith2 (cmpNum (fun _ => goEquals) (fun _ => intLess) .lt) (.bool true) (.num 1 7) = .ok true := by decide
example : demoTower.arith2 (cmpNum (fun _ => goEquals) (fun _ => intLess) .ge) (.int 9) (.bool true) = .ok true := by decide
/-- uptyping inside the loop: a function that only knows class 1 -/
example : demoTower.arith2 (fun | .num 1 a, .num 1 b => some (a + b) | _, _ => none) (.int 2) (.int 3) = .ok 5 := by decide
/-- a Bool argument whose Int case fails panics (nil descriptor) -/
example : demoTower.arith2 (fun | .num 1 a, .num 1 b => some (a + b) | _, _ => none) (.bool true) (.bool true) = .error .panic := by decide

/-- C34: `SetTower` accepts a set of number types exactly if their classes are 0, 1, ... without gap and repetition, whatever the
(unspecified, changing) order is in which the map is visited; the type found for a class is then the one registered with it. -/
theorem C34_set_tower {ν : Type} (nums : List (Int × ν)) (order : Nat → List (Int × ν)) (ho : ∀ i, (order i).Perm nums) :
    (((nums.map Prod.fst).Perm ((List.range nums.length).map Int.ofNat) →
      ∃ idx, setTower nums.length order = .ok idx ∧ idx.length = nums.length ∧
        ∀ (i : Nat) (v : ν), i < nums.length → (idx[i]? = some v ↔ ((i : Int), v) ∈ nums)) ∧
     (¬ (nums.map Prod.fst).Perm ((List.range nums.length).map Int.ofNat) → setTower nums.length order = .error .err)) := by
  have herr : ∀ (l : List Nat) (f : Nat → Res ν), (∀ i e, f i = .error e → e = .err) → (∀ i ∈ l, ∃ v, f i = .ok v) ∨ l.mapM f = .error .err := by
    intro l f hf
    induction l with
    | nil => exact .inl (by simp)
    | cons x l ih =>
      rw [List.mapM_cons]
      cases hx : f x with
      | error e => exact .inr (by rw [hf x e hx]; rfl)
      | ok v =>
        obtain h | h := ih
        · exact .inl (by intro i hi; obtain rfl | hi := List.mem_cons.1 hi; exacts [⟨v, hx⟩, h i hi])
        · exact .inr (by rw [h]; rfl)
  have hok : ∀ (l : List Nat) (f : Nat → Res ν), (∀ i ∈ l, ∃ v, f i = .ok v) → ∃ r, l.mapM f = .ok r ∧ r.length = l.length ∧
      ∀ (j i : Nat), l[j]? = some i → ∃ v, r[j]? = some v ∧ f i = .ok v := by
    intro l f
    induction l with
    | nil => intro _; exact ⟨[], rfl, rfl, by simp⟩
    | cons x l ih =>
      intro h
      obtain ⟨v, hv⟩ := h x (by simp)
      obtain ⟨r, e1, e2, e3⟩ := ih (fun i hi => h i (by simp [hi]))
      refine ⟨v :: r, by rw [List.mapM_cons, hv, e1]; rfl, by simp [e2], ?_⟩
      intro j i hj
      match j with
      | 0 => simp only [List.getElem?_cons_zero, Option.some.injEq] at hj; subst hj; exact ⟨v, rfl, hv⟩
      | j + 1 => exact e3 j i (by simpa using hj)
  have hf : ∀ (i : Nat) (v : ν), (match ((order i).filter (fun e => e.1 = (i : Int))).getLast? with
      | some e => (.ok e.2 : Res ν)
      | none => .error .err) = .ok v → ((i : Int), v) ∈ nums := by
    intro i v h
    cases hg : ((order i).filter (fun e => e.1 = (i : Int))).getLast? with
    | none => rw [hg] at h; cases h
    | some e =>
      rw [hg] at h
      cases h
      obtain ⟨h1, h2⟩ := List.mem_filter.1 (List.mem_of_getLast? hg)
      have h2 : e.1 = (i : Int) := by simpa using h2
      rw [← h2]
      exact (ho i).mem_iff.1 h1
  constructor
  · intro hp
    have hall : ∀ i ∈ List.range nums.length, ∃ v, (match ((order i).filter (fun e => e.1 = (i : Int))).getLast? with
        | some e => (.ok e.2 : Res ν)
        | none => .error .err) = .ok v := by
      intro i hi
      have : (i : Int) ∈ nums.map Prod.fst := hp.mem_iff.2 (List.mem_map.2 ⟨i, hi, rfl⟩)
      obtain ⟨e, he, hei⟩ := List.mem_map.1 this
      have hm : e ∈ (order i).filter (fun e => e.1 = (i : Int)) := List.mem_filter.2 ⟨(ho i).mem_iff.2 he, by simpa using hei⟩
      cases hg : ((order i).filter (fun e => e.1 = (i : Int))).getLast? with
      | none => rw [List.getLast?_eq_none_iff] at hg; rw [hg] at hm; cases hm
      | some e' => exact ⟨e'.2, rfl⟩
    obtain ⟨r, e1, e2, e3⟩ := hok _ _ hall
    refine ⟨r, e1, by rw [e2, List.length_range], ?_⟩
    intro i v hi
    obtain ⟨w, h1, h2⟩ := e3 i i (by rw [List.getElem?_range hi])
    have hw := hf i w h2
    rw [h1]
    constructor
    · intro h; cases h; exact hw
    · intro hv
      have hnd : (nums.map Prod.fst).Nodup := hp.nodup_iff.2 (List.pairwise_map.2 (List.nodup_range.imp (fun h e => h (Int.ofNat.inj e))))
      have := List.inj_on_of_nodup_map hnd hw hv rfl
      rw [Prod.mk.injEq] at this
      rw [this.2]
  · intro hp
    obtain h | h := herr (List.range nums.length) (fun i => match ((order i).filter (fun e => e.1 = (i : Int))).getLast? with
        | some e => (.ok e.2 : Res ν)
        | none => .error .err) (by intro i e he; split at he <;> cases he; rfl)
    · exfalso
      apply hp
      have hsub : (List.range nums.length).map Int.ofNat ⊆ nums.map Prod.fst := by
        intro c hc
        obtain ⟨i, hi, rfl⟩ := List.mem_map.1 hc
        obtain ⟨v, hv⟩ := h i hi
        exact List.mem_map.2 ⟨_, hf i v hv, rfl⟩
      have hnd : ((List.range nums.length).map Int.ofNat).Nodup := List.pairwise_map.2 (List.nodup_range.imp (fun h e => h (Int.ofNat.inj e)))
      exact ((List.subperm_of_subset hnd hsub).perm_of_length_le (by simp)).symm
    · exact h

-- the default tower (Float 0, Complex 1, Time 2) visited in three different orders; a tower with a gap; a repeated class
example : setTower 3 (fun | 0 => [(2, "Time"), (0, "Float"), (1, "Complex")] | 1 => [(1, "Complex"), (2, "Time"), (0, "Float")] | _ => [(0, "Float"), (2, "Time"), (1, "Complex")]) =
    .ok ["Float", "Complex", "Time"] := by decide
example : setTower 2 (fun _ => [(0, "Int"), (2, "Rat")]) = .error .err := by decide
example : setTower 2 (fun _ => [(0, "Int"), (0, "Rat")]) = .error .err := by decide
end Iv
