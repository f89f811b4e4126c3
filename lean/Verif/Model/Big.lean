import Verif.Model.Tower
import Mathlib.Data.Rat.Floor
import Mathlib.Data.Nat.Factorial.Basic
/-
apl/big: the tower of integers of arbitrary size and rationals (`SetBigTower`), and the functions of
apl/primitives/elementary.go on its numbers.
Go's math/big is trusted: `*big.Int` is a mathematical integer, `*big.Rat` a rational in lowest terms.
-/
namespace Iv

/-- A value of the types `Int` (apl/big/int.go:15-17) and `Rat` (apl/big/rat.go:16-18). -/
inductive BigV where
  | int (n : Int)
  | rat (q : ℚ)
deriving DecidableEq

abbrev BigN := TNum BigV

/-- `Int{n}` -/
abbrev bigI (n : Int) : BigN := .num 0 (.int n)
/-- `Rat{q}` -/
abbrev bigR (q : ℚ) : BigN := .num 1 (.rat q)

/-- apl/big/register.go:25-53 `SetBigTower`: `Import` (lines 38-48) and `intToRat` (int.go:54-58); the
`Uptype` of Rat returns false (line 35). -/
def bigTower : Tower BigV where
  len := 2
  impClass := 0
  imp
    | .bool b => .int (if b then 1 else 0)
    | .int n => .int n
  up
    | 0, .int n => some (.rat n)
    | _, _ => none

/-- What a function returns: a number, the floating point values infinity or not-a-number (which are no
numbers of this tower), or it panics. -/
inductive BigRes where
  | num (x : BigN)
  | inf
  | nan
  | crash
deriving DecidableEq

/-- apl/big/int.go:110-134 `Div2` (math/big's `Div` is Euclidean division). -/
def bigIntDiv2 (i r : Int) : Option BigRes :=
  if i = 0 ∧ r = 0 then some .nan
  else if i = 0 then some (.num (bigI 0))
  else if r = 0 then some .inf
  else
    let b := Int.ediv i r
    if b * r = i then some (.num (bigI b)) else none

/-- apl/big/rat.go:110-129 `Div2`. -/
def bigRatDiv2 (l r : ℚ) : Option BigRes :=
  if l = 0 ∧ r = 0 then some .nan
  else if l = 0 then some (.num (bigI 0))
  else if r = 0 then some .inf
  else some (.num (bigR (l / r)))

/-- apl/big/int.go:97-109 `Div`. -/
def bigIntDiv (i : Int) : Option BigRes :=
  if i = 0 then some .inf
  else
    let b := Int.ediv 1 i
    if b * i = i then some (.num (bigI b)) else none

/-- apl/big/rat.go:102-109 `Div`. -/
def bigRatDiv (r : ℚ) : Option BigRes := if r = 0 then some .inf else some (.num (bigR r⁻¹))

/-- The dyadic functions + - × ÷ ⌊ ⌈. -/
inductive BigOp | add | sub | mul | div | min | max
deriving DecidableEq, Repr

/-- A native result. -/
def natRes (o : Option Int) : Option BigRes := o.map (fun n => .num (.int n))

/-- apl/primitives/elementary.go:200-277, 389-425 `add2`, `sub2`, `mul2`, `div2`, `min2`, `max2` on two numbers of
the same type.  Bool (apl/bool.go) has only the method `Less`.  Native integers: apl/int.go.  Big numbers:
apl/big/int.go:60-95, apl/big/rat.go:65-100.  The type assertion of the right argument panics on another
type. -/
def bigFn (op : BigOp) : BigN → BigN → Option BigRes
  | .bool l, .bool r =>
    match op with
    | .min => some (.num (.bool (if !l && r then l else r)))
    | .max => some (.num (.bool (if !l && r then r else l)))
    | _ => none
  | .int l, .int r =>
    match op with
    | .add => natRes (intAdd2 l r)
    | .sub => natRes (intSub2 l r)
    | .mul => natRes (intMul2 l r)
    | .div => natRes (intDiv2 l r)
    | .min => natRes (some (if l < r then l else r))
    | .max => natRes (some (if l < r then r else l))
  | .num 0 (.int l), .num 0 (.int r) =>
    match op with
    | .add => some (.num (bigI (l + r)))
    | .sub => some (.num (bigI (l - r)))
    | .mul => some (.num (bigI (l * r)))
    | .div => bigIntDiv2 l r
    | .min => some (.num (bigI (if l < r then l else r)))
    | .max => some (.num (bigI (if l < r then r else l)))
  | .num 1 (.rat l), .num 1 (.rat r) =>
    match op with
    | .add => some (.num (bigR (l + r)))
    | .sub => some (.num (bigR (l - r)))
    | .mul => some (.num (bigR (l * r)))
    | .div => bigRatDiv2 l r
    | .min => some (.num (bigR (if l < r then l else r)))
    | .max => some (.num (bigR (if l < r then r else l)))
  | _, _ => some .crash

/-- `L + R`, … in the big tower (`arith2`, elementary.go:147-189). -/
def bigDyadic (op : BigOp) (L R : BigN) : Res BigRes := bigTower.arith2 (bigFn op) L R

/-- apl/big/int.go:60-66, rat.go:65-67 `Equals`, `Less`. -/
def bigEq (_ : Nat) : BigV → BigV → Option Bool
  | .int a, .int b => some (decide (a = b))
  | .rat a, .rat b => some (decide (a = b))
  | _, _ => none
def bigLess (_ : Nat) : BigV → BigV → Option Bool
  | .int a, .int b => some (decide (a < b))
  | .rat a, .rat b => some (decide (a < b))
  | _, _ => none

/-- `L = R`, `L < R`, … in the big tower. -/
def bigCompare (op : Cmp) (L R : BigN) : Res Bool := bigTower.arith2 (cmpNum bigEq bigLess op) L R

/-- The monadic functions - × ÷ | ! and * -/
inductive BigOp1 | neg | sign | recip | abs | fact | exp
deriving DecidableEq, Repr

/-- apl/big/int.go:178-181: `for k := 1; k <= m; k++ { n *= k }`. -/
def bigGammaLoop : (cnt : Nat) → (k n : Int) → Int
  | 0, _, n => n
  | c + 1, k, n => bigGammaLoop c (k + 1) (n * k)

/-- apl/big/int.go:167-183 `Gamma`; `ToIndex` (lines 43-52) fails outside of 64 bits. -/
def bigGamma (i : Int) : Option BigRes :=
  if ¬ I64 i then none
  else if i = 0 then some (.num (.int 1))
  else if i < 0 ∨ i > 300 then none
  else some (.num (bigI (bigGammaLoop i.toNat 1 1)))

/-- apl/primitives/elementary.go:222-293, 328-344, 436-441: `sub`, `mul`, `div`, `abs`, `factorial`, `pow` on a number.
Bool has none of these methods; `abs` compares it with 0 after importing both (line 331), so it is never less. -/
def bigFn1 (op : BigOp1) : BigN → Option BigRes
  | .bool b => match op with
    | .abs => some (.num (.bool b))
    | _ => none
  | .int i => match op with
    | .neg => natRes (intSub i)
    | .sign => natRes (intMul i)
    | .recip => natRes (intDiv i)
    | .abs => natRes (intAbs i)
    | .fact => natRes (intGamma i)
    | .exp => if i = 0 then some (.num (.int 1)) else none
  | .num 0 (.int i) => match op with
    | .neg => some (.num (bigI (-i)))
    | .sign => some (.num (bigI (Int.sign i)))
    | .recip => bigIntDiv i
    | .abs => some (.num (bigI (if Int.sign i < 0 then -i else i)))
    | .fact => bigGamma i
    | .exp => if i = 0 then some (.num (bigI 1)) else none
  | .num 1 (.rat q) => match op with
    | .neg => some (.num (bigR (-q)))
    | .sign => some (.num (bigI (Int.sign q.num)))
    | .recip => bigRatDiv q
    | .abs => some (.num (bigR (if q < 0 then -q else q)))
    | .fact => none
    | .exp => if q = 0 then some (.num (bigI 1)) else none
  | _ => some .crash

/-- `-R`, `×R`, `÷R`, `|R`, `!R`, `*R` in the big tower (`arith1`, elementary.go:114-142). -/
def bigMonadic (op : BigOp1) (fuel : Nat) (R : BigN) : Option (Res BigRes) := bigTower.arith1 (bigFn1 op) fuel R

/-- apl/big/rat.go:137-166 `Pow2`.  Line 144 negates the right argument in place: the second result is
its value afterwards.  `z.Inv(z)` of zero panics. -/
def bigRatPow2 (l r : ℚ) : Option BigRes × ℚ :=
  if r = 0 then (some (.num (bigI 1)), r)
  else
    let neg := r < 0
    let r := if neg then -r else r
    if ¬ neg ∧ l = 0 then (some (.num (bigI 0)), r)
    else if r.den ≠ 1 then (none, r)
    else
      let e := r.num.toNat
      let ae := l.num ^ e
      let be := (l.den : Int) ^ e
      let z : ℚ := ae / be
      if neg then (if z = 0 then (some .crash, r) else (some (.num (bigR z⁻¹)), r))
      else (some (.num (bigR z)), r)

/-- `pow2` (elementary.go:294-299) on two numbers of the same type; the second result is the right argument
afterwards.  apl/int.go:119-121 and big/int.go:142-151. -/
def bigPowFn : BigN → BigN → Option BigRes × BigN
  | .bool _, .bool r => (none, .bool r)
  | .int _, .int r => (none, .int r)
  | .num 0 (.int l), .num 0 (.int r) =>
    if r = 0 then (some (.num (bigI 1)), bigI r)
    else if r < 0 then (none, bigI r)
    else (some (.num (bigI (l ^ r.toNat))), bigI r)
  | .num 1 (.rat l), .num 1 (.rat r) => ((bigRatPow2 l r).1, bigR (bigRatPow2 l r).2)
  | _, r => (some .crash, r)

/-- elementary.go:176-186: the loop of `arith2` for a function that may change its right argument.  `own`:
the right number still is the argument `R` itself (no conversion has made a new one); the second result is the
value of `R` afterwards. -/
def powLoop : (cnt : Nat) → (num : Option Numeric) → (own : Bool) → (l r R : BigN) → Res BigRes × BigN
  | 0, _, _, _, _, R => (.error .err, R)
  | cnt + 1, num, own, l, r, R =>
    let p := bigPowFn l r
    let R' := if own then p.2 else R
    match p.1 with
    | some v => (.ok v, R')
    | none =>
      match num with
      | none => (.error .panic, R')
      | some num =>
        match bigTower.uptype num l with
        | .error e => (.error e, R')
        | .ok none => (.error .err, R')
        | .ok (some l') =>
          match bigTower.uptype num p.2 with
          | .error e => (.error e, R')
          | .ok none => (.error .panic, R')
          | .ok (some r') => powLoop cnt (bigTower.lookupType l') false l' r' R'

/-- elementary.go:157-189: the second part of `arith2`. -/
def powRest (L R : BigN) : Res BigRes × BigN :=
  match bigTower.sameType L R with
  | .error e => (.error e, R)
  | .ok (l, r) =>
    match bigTower.toNumeric l with
    | none => (.error .err, R)
    | some num => powLoop ((bigTower.len : Int) - cls l).toNat (some num) (cls r == cls R) l r R

/-- `L*R` in the big tower: the result, and the right argument afterwards. -/
def bigPow (L R : BigN) : Res BigRes × BigN :=
  if sameGoType L R then
    match bigPowFn L R with
    | (some v, R') => (.ok v, R')
    | (none, R') => powRest L R'
  else powRest L R

/-- apl/big/int.go:43-52, rat.go:46-52 and the native `ToIndex` with apl/tower.go:140-150 `ToBool`. -/
def bigToBool : BigN → Option Bool
  | .bool b => some b
  | .int n => intToBool n
  | .num _ (.int n) => if I64 n then intToBool n else none
  | .num _ (.rat q) => if q.den = 1 then (if I64 q.num then intToBool q.num else none) else none

/-- apl/tower.go:132-138 `IsZero`. -/
def bigIsZero (x : BigN) : Bool := bigToBool x = some false

/-- apl/big/rat.go:186-199 `Gcd`; big/int.go:185-187; apl/int.go:206-210. -/
def bigGcdFn : BigN → BigN → Option BigRes
  | .bool _, .bool _ => none
  | .int l, .int r => natRes (intGcd l r)
  | .num 0 (.int l), .num 0 (.int r) => some (.num (bigI (Int.gcd l r)))
  | .num 1 (.rat l), .num 1 (.rat r) =>
    let g : Int := Int.gcd (l.num * r.den) (r.num * l.den)
    some (.num (bigR ((g : ℚ) / ((l.den : Int) * (r.den : Int) : Int))))
  | _, _ => some .crash

/-- elementary.go:495-507 `gcd`. -/
def bigGcd2 (L R : BigN) : Option BigRes :=
  if bigIsZero L then some (.num R)
  else if bigIsZero R then some (.num L)
  else bigGcdFn L R

/-- elementary.go:475-494 `lcm`, after `p := L×R`: `ab := |p`, `ab ÷ gcd(L, R)`. -/
def bigLcm2 (L R : BigN) : Option BigRes :=
  if bigIsZero L || bigIsZero R then some (.num (.int 0))
  else
    match bigFn .mul L R with
    | some (.num p) =>
      match bigFn1 .abs p with
      | some (.num ab) =>
        match bigGcd2 L R with
        | some (.num g) => bigFn .div ab g
        | x => x
      | x => x
    | x => x

/-- boolean.go:67-94 `logical` for `∨` (`gcd`) and `∧` (`lcm`). -/
def bigLogical (and : Bool) (L R : BigN) : Option BigRes :=
  match bigToBool L, bigToBool R with
  | some l, some r => some (.num (.bool (if and then l && r else l || r)))
  | _, _ => if and then bigLcm2 L R else bigGcd2 L R

/-- `L∨R` (`and = false`) and `L∧R` in the big tower. -/
def bigLogic (and : Bool) (L R : BigN) : Res BigRes := bigTower.arith2 (bigLogical and) L R

/-- apl/big/rat.go:177-180 `Ceil`, `Floor` of a rational: through the nearest 64 bit float, a parameter. -/
def bigRatFloor (toFloat : ℚ → ℚ) (q : ℚ) : BigRes := .num (bigR (⌊toFloat q⌋ : ℤ))
def bigRatCeil (toFloat : ℚ → ℚ) (q : ℚ) : BigRes := .num (bigR (⌈toFloat q⌉ : ℤ))

end Iv
