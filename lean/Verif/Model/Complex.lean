import Mathlib.Algebra.Order.Floor.Ring
import Mathlib.Algebra.Field.Basic
import Verif.Model.Basic
/-
Complex numbers: apl/numbers/complex.go and apl/big/complex.go.
Simplifications: exact arithmetic in an ordered field instead of rounding (float64, big.Float with a precision); no infinities and NaN, except where the code
tests for a zero divisor.  A big complex number is a pair of pointers to big.Floats that the methods overwrite; the heap of big.Floats is modelled.
-/
namespace Iv
namespace Cplx

/-- a complex number by value (apl/numbers/complex.go:20-22) -/
structure Cx (K : Type) where
  re : K
  im : K
deriving DecidableEq

/-- big.Floats in memory: the values by address, and the next free address -/
structure FHeap (K : Type) where
  get : Nat → K
  next : Nat

/-- a big complex number: two pointers (apl/big/complex.go:12-14) -/
structure BC where
  re : Nat
  im : Nat

/-- a method that reads and writes big.Floats -/
abbrev FM (K α : Type) := StateM (FHeap K) α

section
variable {K : Type}

/-- the value a pointer points to -/
def rd (r : Nat) : FM K K := fun h => (h.get r, h)
/-- overwrite a big.Float: `z.Neg(x)`, `z.Add(x, y)`, … store their result in `z` -/
def wr (r : Nat) (v : K) : FM K Unit := fun h => ((), ⟨fun i => if i = r then v else h.get i, h.next⟩)
/-- `new(big.Float)` with a value -/
def new (v : K) : FM K Nat := fun h => (h.next, ⟨fun i => if i = h.next then v else h.get i, h.next + 1⟩)

end

variable {K : Type} [Field K] [LinearOrder K] [FloorRing K]

/-! ### apl/numbers/complex.go -/

/-- apl/numbers/complex.go:204-217 `Complex.Floor` -/
def floor (c : Cx K) : Cx K :=
  let fa : K := ⌊c.re⌋
  let fb : K := ⌊c.im⌋
  if 1 > (c.re - fa) + (c.im - fb) then ⟨fa, fb⟩
  else if c.re - fa ≥ c.im - fb then ⟨1 + fa, fb⟩
  else ⟨fa, 1 + fb⟩

/-- apl/numbers/complex.go:218-224 `Complex.Ceil` -/
def ceil (c : Cx K) : Cx K :=
  let f := floor (⟨-c.re, -c.im⟩ : Cx K)
  ⟨-f.re, -f.im⟩

/-- apl/numbers/complex.go:120-131 `Complex.ToIndex` (`int(r)` cuts off the fraction) -/
def toIndex (c : Cx K) : Option Int :=
  if c.im ≠ 0 then none
  else
    let n : Int := if 0 ≤ c.re then ⌊c.re⌋ else ⌈c.re⌉
    if (n : K) = c.re then some n else none

/-- apl/numbers/complex.go:147-153 `Complex.Mul`; `abs` is `cmplx.Abs` -/
def direction (abs : Cx K → K) (c : Cx K) : Cx K :=
  if c = ⟨0, 0⟩ then c else ⟨c.re / abs c, c.im / abs c⟩

/-! ### apl/big/complex.go -/

/-- apl/big/complex.go:95-98 `cpy` -/
def cpy (c : BC) : FM K BC := do
  let re ← new (← rd c.re)
  let im ← new (← rd c.im)
  return ⟨re, im⟩

/-- apl/big/complex.go:105-109 `Add`, the conjugate -/
def conj (c : BC) : FM K BC := do
  let z ← cpy c
  wr z.im (-(← rd z.im))
  return z

/-- apl/big/complex.go:110-116 `Add2` -/
def add2 (c r : BC) : FM K BC := do
  let z ← cpy c
  wr z.re ((← rd z.re) + (← rd r.re))
  wr z.im ((← rd z.im) + (← rd r.im))
  return z

/-- apl/big/complex.go:118-123 `Sub` -/
def neg (c : BC) : FM K BC := do
  let z ← cpy c
  wr z.re (-(← rd z.re))
  wr z.im (-(← rd z.im))
  return z

/-- apl/big/complex.go:124-130 `Sub2` -/
def sub2 (c r : BC) : FM K BC := do
  let z ← cpy c
  wr z.re ((← rd z.re) - (← rd r.re))
  wr z.im ((← rd z.im) - (← rd r.im))
  return z

/-- `if x.Sign() < 0 { x = x.Neg(x) }` (apl/big/complex.go:244-249): overwrite a big.Float by its magnitude -/
def positive (x : Nat) : FM K Unit := do
  if (← rd x) < 0 then wr x (-(← rd x))

/-- apl/big/complex.go:250-263, the rest of `abs`: `x` and `y` are not negative -/
def hypot (sqrt : K → K) (x y : Nat) : FM K Nat := do
  if (← rd x) = 0 then return y
  wr y ((← rd y) / (← rd x))
  wr y ((← rd y) * (← rd y))
  let one ← new (1 : K)
  wr y ((← rd y) + (← rd one))
  wr y (sqrt (← rd y))
  wr x ((← rd x) * (← rd y))
  return x

/-- apl/big/complex.go:241-264 `abs`: it overwrites the parts of its receiver -/
def absIn (sqrt : K → K) (c : BC) : FM K Nat := do
  positive c.re
  positive c.im
  if (← rd c.re) < (← rd c.im) then hypot sqrt c.im c.re
  else hypot sqrt c.re c.im

/-- apl/big/complex.go:132-139 `Mul`, the direction -/
def dir (sqrt : K → K) (c : BC) : FM K BC := do
  let z ← cpy c
  let r ← absIn sqrt c
  if (← rd r) = 0 then
    wr z.re 0
    wr z.im 0
    return z
  wr z.re ((← rd z.re) / (← rd r))
  wr z.im ((← rd z.im) / (← rd r))
  return z

/-- apl/big/complex.go:236-239 `Abs` -/
def abs (sqrt : K → K) (c : BC) : FM K Nat := do absIn sqrt (← cpy c)

/-- apl/big/complex.go:140-156 `Mul2` -/
def mul2 (l' r' : BC) : FM K BC := do
  let l ← cpy l'
  let r ← cpy r'
  let ac ← new (← rd l.re)
  let bd ← new (← rd l.im)
  let ad ← new (← rd l.re)
  let bc ← new (← rd l.im)
  wr ac ((← rd l.re) * (← rd r.re))
  wr bd ((← rd l.im) * (← rd r.im))
  wr ad ((← rd l.re) * (← rd r.im))
  wr bc ((← rd l.im) * (← rd r.re))
  wr l.re ((← rd ac) - (← rd bd))
  wr l.im ((← rd ad) + (← rd bc))
  return l

/-- apl/big/complex.go:199-226 `div_` -/
def divPart (a b c d : Nat) : FM K (Nat × Nat) := do
  let r ← new ((← rd d) / (← rd c))
  let t ← new ((← rd d) * (← rd r))
  wr t ((← rd t) + (← rd c))
  let one ← new (1 : K)
  wr t ((← rd one) / (← rd t))
  let e ← new (0 : K)
  let f ← new (0 : K)
  if (← rd r) ≠ 0 then
    wr e ((← rd b) * (← rd r))
    wr e ((← rd e) + (← rd a))
    wr e ((← rd e) * (← rd t))
    wr f ((← rd a) * (← rd r))
    wr f ((← rd b) - (← rd f))
    wr f ((← rd f) * (← rd t))
    return (e, f)
  else
    wr e ((← rd b) / (← rd c))
    wr e ((← rd e) * (← rd d))
    wr e ((← rd e) + (← rd a))
    wr e ((← rd e) * (← rd t))
    wr f ((← rd a) / (← rd c))
    wr f ((← rd f) * (← rd d))
    wr f ((← rd b) - (← rd f))
    wr f ((← rd f) * (← rd t))
    return (e, f)

/-- the magnitude of a big.Float in a copy (apl/big/complex.go:181-188) -/
def absNew (x : Nat) : FM K Nat := do
  let d ← new (← rd x)
  if (← rd d) < 0 then wr d (-(← rd d))
  return d

/-- the quotient of the copies (apl/big/complex.go:181-196) -/
def divMain (a b c d : Nat) : FM K BC := do
  let dd ← absNew d
  let cc ← absNew c
  if (← rd dd) ≤ (← rd cc) then
    let (e, f) ← divPart a b c d
    return ⟨e, f⟩
  else
    let (e, f) ← divPart b a d c
    wr f (-(← rd f))
    return ⟨e, f⟩

/-- apl/big/complex.go:164-197 `Div2`; `none` is the infinity -/
def div2 (l r : BC) : FM K (Option BC) := do
  if (← rd r.re) = 0 ∧ (← rd r.im) = 0 then return none
  if (← rd l.re) = 0 ∧ (← rd l.im) = 0 then return some (← cpy l)
  let a ← new (← rd l.re)
  let b ← new (← rd l.im)
  let c ← new (← rd r.re)
  let d ← new (← rd r.im)
  let z ← divMain a b c d
  return some z

/-- apl/big/complex.go:158-163 `Div` -/
def inv (c : BC) : FM K (Option BC) := do
  let z ← cpy c
  wr z.re 1
  wr z.im 0
  div2 z c

/-- apl/big/float.go:175-178 `Float.Floor`, by way of a float64 (`f64`) -/
def floorPart (f64 : K → K) (x : Nat) : FM K Nat := do
  let z ← rd x
  let f ← new z
  wr f (⌊f64 z⌋ : K)
  return f

/-- `Float.Sub2`, `Float.Add2` (apl/big/float.go:82-95) -/
def subPart (x y : Nat) : FM K Nat := do
  let z ← new (← rd x)
  wr z ((← rd z) - (← rd y))
  return z

/-- `Float.Add2` (apl/big/float.go:82-86) -/
def addPart (x y : Nat) : FM K Nat := do
  let z ← new (← rd x)
  wr z ((← rd z) + (← rd y))
  return z

/-- apl/big/complex.go:266-283 `Floor` -/
def bfloor (f64 : K → K) (c : BC) : FM K BC := do
  let fa ← floorPart f64 c.re
  let fb ← floorPart f64 c.im
  let afa ← subPart c.re fa
  let bfb ← subPart c.im fb
  let sum ← addPart afa bfb
  let one ← new (1 : K)
  if (← rd sum) < (← rd one) then return ⟨fa, fb⟩
  if (← rd afa) < (← rd bfb) then
    wr one ((← rd one) + (← rd fb))
    return ⟨fa, one⟩
  wr one ((← rd one) + (← rd fa))
  return ⟨one, fb⟩

/-- apl/big/complex.go:285-293 `Ceil` -/
def bceil (f64 : K → K) (c : BC) : FM K BC := do
  let z ← neg c
  let f ← bfloor f64 z
  neg f

end Cplx
end Iv
