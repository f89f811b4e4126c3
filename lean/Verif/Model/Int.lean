import Verif.Model.Basic
/-
apl/int.go: the integer type `Int` (a 64 bit machine integer) and the integer cases of
apl/primitives/elementary.go.
A machine integer is represented by its mathematical value; every arithmetic result is reduced by
`wrap`, which is Go's two's complement wrap-around.
`none` stands for the second result `false`: "not handled by this type", upon which `arith1`/`arith2`
move on to the next numeric type.
-/
namespace Iv

/-- Two's complement wrap-around to 64 bits. -/
def wrap (n : Int) : Int := Int.bmod n (2 ^ 64)

/-- A value representable as a 64 bit integer. -/
def I64 (n : Int) : Prop := -2 ^ 63 ≤ n ∧ n < 2 ^ 63

instance (n : Int) : Decidable (I64 n) := inferInstanceAs (Decidable (_ ∧ _))

/-- apl/int.go:70-72 `Add2`. -/
def intAdd2 (i r : Int) : Option Int := some (wrap (i + r))
/-- apl/int.go:74-76 `Sub`. -/
def intSub (i : Int) : Option Int := some (wrap (-i))
/-- apl/int.go:77-79 `Sub2`. -/
def intSub2 (i r : Int) : Option Int := some (wrap (i - r))
/-- apl/int.go:81-88 `Mul` (sign). -/
def intMul (i : Int) : Option Int := some (if i > 0 then 1 else if i < 0 then -1 else 0)
/-- apl/int.go:89-91 `Mul2`. -/
def intMul2 (i r : Int) : Option Int := some (wrap (i * r))
/-- apl/int.go:93-100 `Div` (reciprocal). -/
def intDiv (i : Int) : Option Int := if i = 1 then some 1 else if i = -1 then some (-1) else none
/-- apl/int.go:101-111 `Div2`: Go division truncates; `MinInt64 / -1` wraps. -/
def intDiv2 (a n : Int) : Option Int :=
  if n = 0 then none
  else
    let r := wrap (Int.tdiv a n)
    if wrap (r * n) = a then some r else none
/-- apl/int.go:130-135 `Abs`. -/
def intAbs (i : Int) : Option Int := some (if i < 0 then wrap (-i) else i)
/-- apl/int.go:63-65 `Less`. -/
def intLess (i r : Int) : Option Bool := some (decide (i < r))

/-- apl/int.go:151-154: `for k := 1; k <= i; k++ { n *= k }`. -/
def gammaLoop : (cnt : Nat) → (k n : Int) → Int
  | 0, _, n => n
  | c + 1, k, n => gammaLoop c (k + 1) (wrap (n * k))

/-- apl/int.go:144-156 `Gamma`. -/
def intGamma (i : Int) : Option Int :=
  if i < 0 ∨ i > 20 then none
  else if i = 0 then some 1
  else some (gammaLoop i.toNat 1 1)

/-- apl/int.go:158-163 `m1exp`. -/
def m1exp (n : Int) : Int := if Int.tmod n 2 = 0 then 1 else -1

/-- apl/int.go:166-179: the case `0 ≤ L ≤ R` of `Gamma2`. -/
def gamma2Pos (L R : Int) : Option Int := do
  let lg ← intGamma L
  let rg ← intGamma R
  let rlg ← intGamma (wrap (R - L))
  return wrap (Int.tdiv rg (wrap (lg * rlg)))

/-- apl/int.go:157-204 `Gamma2`.  The two recursive calls (lines 183 and 196) have non-negative
arguments, for which the first two cases apply; they are unfolded here with `gamma2NN`. -/
def gamma2NN (L R : Int) : Option Int :=
  if L ≥ 0 ∧ R ≥ 0 ∧ wrap (R - L) ≥ 0 then gamma2Pos L R
  else if L ≥ 0 ∧ R ≥ 0 ∧ wrap (R - L) < 0 then some 0
  else none

def intGamma2 (L R : Int) : Option Int :=
  if L ≥ 0 ∧ R ≥ 0 ∧ wrap (R - L) ≥ 0 then gamma2Pos L R
  else if L ≥ 0 ∧ R ≥ 0 ∧ wrap (R - L) < 0 then some 0
  else if L ≥ 0 ∧ R < 0 ∧ wrap (R - L) < 0 then do
    let v ← gamma2NN L (wrap (L - wrap (1 + R)))
    return wrap (m1exp L * v)
  else if L < 0 ∧ R ≥ 0 ∧ wrap (R - L) ≥ 0 then some 0
  else if L < 0 ∧ R < 0 ∧ wrap (R - L) ≥ 0 then do
    let al1 := wrap (1 + L)
    let al1 := if al1 < 0 then wrap (-al1) else al1
    let v ← gamma2NN (wrap (-(wrap (R + 1)))) al1
    return wrap (m1exp (wrap (R - L)) * v)
  else if L < 0 ∧ R < 0 ∧ wrap (R - L) < 0 then some 0
  else none

/-- apl/int.go:206-210 `Gcd`: `math/big`'s GCD (for positive arguments; its result fits).
The library function is assumed to compute the greatest common divisor. -/
def intGcd (L R : Int) : Option Int := some (wrap (Int.gcd L R))

/-- apl/tower.go `ToBool`/`IsZero` on an integer. -/
def intToBool (n : Int) : Option Bool := if n < 0 ∨ n > 1 then none else some (n = 1)

/-- apl/tower.go:132-138 `IsZero`. -/
def intIsZero (n : Int) : Bool := intToBool n = some false

/-- The methods of a number type used by `abs2` (the interfaces `adder2`, `divider2`, `floorer`,
`multiplier2`, `substracter2` of apl/primitives/elementary.go; `ofBool` is the conversion of a Bool by
`SameType`). -/
structure NumOps (N : Type) where
  isZero : N → Bool
  ofBool : Bool → N
  add2 : N → N → Option N
  div2 : N → N → Option N
  floor : N → Option N
  mul2 : N → N → Option N
  sub2 : N → N → Option N

/-- apl/primitives/elementary.go:345-375 `abs2`: `R-L×⌊R÷L+0=L`, in one number type. -/
def genAbs2 {N : Type} (o : NumOps N) (L R : N) : Option N := do
  let L0 := o.ofBool (o.isZero L)
  let x ← o.add2 L L0
  let x ← o.div2 R x
  let x ← o.floor x
  let x ← o.mul2 L x
  o.sub2 R x

/-- The integer type (apl/int.go; `Floor` is the identity, lines 140-142). -/
def intOps : NumOps Int :=
  { isZero := intIsZero, ofBool := fun b => if b then 1 else 0, add2 := intAdd2, div2 := intDiv2,
    floor := some, mul2 := intMul2, sub2 := intSub2 }

/-- `abs2` on two integers. -/
def intAbs2 (L R : Int) : Option Int := genAbs2 intOps L R

/-- The rational type (apl/big/rat.go): exact arithmetic.  Its `Floor` method (lines 181-184) goes through
a 64 bit float and is the parameter `floor`.  Division by zero (lines 110-125: NaN or infinity, no rationals) is left out; `abs2` does not divide by zero. -/
def ratOps (floor : Rat → Option Rat) : NumOps Rat :=
  { isZero := fun x => x = 0, ofBool := fun b => if b then 1 else 0, add2 := fun x y => some (x + y),
    div2 := fun x y => if y = 0 then none else some (x / y), floor := floor,
    mul2 := fun x y => some (x * y), sub2 := fun x y => some (x - y) }

/-- apl/primitives/elementary.go:495-507 `gcd` on two integers. -/
def intGcd2 (L R : Int) : Option Int :=
  if intIsZero L then some R
  else if intIsZero R then some L
  else intGcd L R

/-- apl/primitives/elementary.go:475-494 `lcm` on two integers. -/
def intLcm (L R : Int) : Option Int :=
  if intIsZero L ∨ intIsZero R then some 0
  else do
    let p ← intMul2 L R
    let ab ← intAbs p
    let g ← intGcd2 L R
    intDiv2 ab g

/-- Connective of apl/primitives/boolean.go:15-21. -/
inductive Logic | and | or | nand | nor
deriving DecidableEq, Repr

/-- A scalar Bool or Int. -/
inductive BI | bool (b : Bool) | int (n : Int)
deriving DecidableEq, Repr

/-- apl/tower.go:140-150 `ToBool` on a Bool or Int. -/
def biToBool : BI → Option Bool
  | .bool b => some b
  | .int n => intToBool n

/-- apl/primitives/boolean.go:67-94 `logical` on two integers (`none`: not handled). -/
def logicalInt (op : Logic) (L R : Int) : Option BI :=
  match intToBool L, intToBool R with
  | some l, some r =>
    some (.bool (match op with
      | .and => l && r
      | .or => l || r
      | .nand => !(l && r)
      | .nor => !(l || r)))
  | _, _ =>
    match op with
    | .and => (intLcm L R).map .int
    | .or => (intGcd2 L R).map .int
    | _ => none

/-- `logical` on two Bools (both convert). -/
def logicalBool (op : Logic) (l r : Bool) : Option BI :=
  some (.bool (match op with
    | .and => l && r
    | .or => l || r
    | .nand => !(l && r)
    | .nor => !(l || r)))

/-- apl/tower.go:125-130 `bool2int`, used by `SameType` when one argument is a Bool and the other an Int. -/
def bool2int (b : Bool) : Int := if b then 1 else 0

/-- apl/primitives/elementary.go:147-189 `arith2` for a connective on Bool/Int arguments, up to the point
where the next type of the tower would be tried (`none`). -/
def logicalScalar (op : Logic) : BI → BI → Option BI
  | .bool l, .bool r => logicalBool op l r
  | .int l, .int r => logicalInt op l r
  | .bool l, .int r => logicalInt op (bool2int l) r
  | .int l, .bool r => logicalInt op l (bool2int r)

/-- apl/primitives/boolean.go:59-65 `logicalNot`. -/
def logicalNot (x : BI) : Option BI := (biToBool x).map (fun b => .bool (!b))

end Iv
