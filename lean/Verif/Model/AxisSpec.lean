import Verif.Model.Select
import Verif.Model.Reduce
import Verif.Model.Take
import Verif.Model.RavelAxis
/-
Axis specifications `f[X]`: apl/operators/axis.go:19-55, apl/primitives/axis.go:10-117 and the heads of the functions that
accept them (apl/primitives/reverse.go:51-60, 102-111, apl/operators/reduce.go:122-131, 253-262, 568-575, apl/primitives/take.go:83,
apl/primitives/comma.go:94-112, 204).
-/
namespace Iv
variable {m : Type → Type} [Monad m] {α V : Type}

/-- The value in the brackets: an `apl.IntArray`, or any other scalar or array of elements `V`. -/
inductive AxisVal (V : Type)
  | ints (a : Arr Int)
  | other (v : Val V)

/-- The right argument of a function: a value, or the `apl.Axis` value `{R, A}` that the operator `⍂` builds for `f[A] R`
(apl/operators/axis.go:19-29; the parser turns `f[A]` into `f⍂A`). -/
inductive AxArg (V α : Type)
  | plain (R : Val α)
  | axis (R : Val α) (A : AxisVal V)

/-- apl/domain/array.go:170-258 `ToIndexArray`; `none`: rejected, `some none`: an `EmptyArray`.  `idx` is the method `ToIndex` of a number
(0 and 1 for booleans), `none` for a value that is not a number or not whole.  Arrays with negative axis lengths are not modelled. -/
def toIdxArray (idx : V → Option Int) : AxisVal V → Option (Option (Arr Int))
  | .ints a => some (some a)
  | .other (.scalar v) => (idx v).map (fun i => some ⟨[1], [i]⟩)
  | .other .empty => some none
  | .other (.arr _ a) =>
    if a.data.length = 0 then some none
    else (a.data.mapM idx).map (fun d => some ⟨a.shape, d⟩)
  | .other (.bad _ _) => none

/-- apl/primitives/axis.go:12-35 `splitAxis` (and the identical apl/operators/axis.go:33-55): the right argument and the axes without the
index origin; `none` if there are none.  The unchecked type assertion panics for an array without elements that is neither an `IntArray`
nor an `EmptyArray`. -/
def splitAxis (idx : V → Option Int) (origin : Int) : AxArg V α → Res (Val α × Option (List Int))
  | .plain R => .ok (R, none)
  | .axis R (.other .empty) => .ok (R, none)
  | .axis R A =>
    match toIdxArray idx A with
    | none => .error .err
    | some none => .error .panic
    | some (some a) =>
      if a.shape.length ≠ 1 then .error .err
      else .ok (R, some (a.data.map (fun n => n - origin)))

/-- The head of `reverse`, `rotate`, `reduct` and `scanfunc` (apl/primitives/reverse.go:51-60, 102-111, apl/operators/reduce.go:122-131,
253-262): the axis specification must contain exactly one axis, and replaces the axis of the symbol. -/
def oneAxis (idx : V → Option Int) (origin : Int) (R : AxArg V α) (axis : Int) : Res (Val α × Int) :=
  match R with
  | .plain R => .ok (R, axis)
  | .axis R A => do
    match ← splitAxis idx origin (.axis R A) with
    | (R, some [n]) => return (R, n)
    | _ => throw .err

/-- The head of `commonReplExp` (apl/operators/reduce.go:568-575): at most one axis. -/
def mayAxis (idx : V → Option Int) (origin : Int) (R : AxArg V α) (axis : Int) : Res (Val α × Int) := do
  match ← splitAxis idx origin R with
  | (R, some [n]) => return (R, n)
  | (_, some (_ :: _ :: _)) => throw .err
  | (R, _) => return (R, axis)

/-- apl/primitives/reverse.go:44-87 `revLast` (`axis` = -1), `revFirst` (0). -/
def reverseX (idx : V → Option Int) (origin axis : Int) (R : AxArg V α) : Res (Val α) := do
  let (R, axis) ← oneAxis idx origin R axis
  reverse R axis

/-- apl/primitives/reverse.go:89-201 `rotLast`, `rotFirst`. -/
def rotateX (idx : V → Option Int) (origin axis : Int) (L : Arr Int) (R : AxArg V α) : Res (Val α) := do
  let (R, axis) ← oneAxis idx origin R axis
  rotateVal L R axis

/-- apl/operators/reduce.go:112-239 `reduct` without left argument, on scalars and arrays. -/
def reductX (idx : V → Option Int) (origin axis : Int) (uk : List α → Kind) (ident : Option α) (f : α → α → ExceptT Fail m α)
    (R : AxArg V α) : ExceptT Fail m (Val α) := do
  let (R, axis) ← ofRes (oneAxis idx origin R axis)
  reduct uk ident f R axis

/-- apl/operators/reduce.go:112-140 `reduct` with left argument, on scalars and arrays. -/
def nwiseX (idx : V → Option Int) (origin axis : Int) (uk : List α → Kind) (zero : α) (ident : Option α)
    (f : α → α → ExceptT Fail m α) (g : Option (α → α → ExceptT Fail m α)) (n0 : Int) (R : AxArg V α) : ExceptT Fail m (Val α) := do
  let (R, axis) ← ofRes (oneAxis idx origin R axis)
  nwise uk zero ident f g n0 R axis

/-- apl/operators/reduce.go:248-338 `scanfunc`, on scalars and arrays. -/
def scanX (idx : V → Option Int) (origin axis : Int) (uk : List α → Kind) (f : α → α → ExceptT Fail m α) (R : AxArg V α) :
    ExceptT Fail m (Val α) := do
  let (R, axis) ← ofRes (oneAxis idx origin R axis)
  scanfunc uk f R axis

/-- apl/operators/reduce.go:379-451 `Replicate`. -/
def replicateX (idx : V → Option Int) (origin axis : Int) (uk : List α → Kind) (zero : α) (L : List Int) (R : AxArg V α) : Res (Val α) := do
  let (R, axis) ← mayAxis idx origin R axis
  replicateVal uk zero L R axis

/-- apl/operators/reduce.go:467-558 `Expand`. -/
def expandX (idx : V → Option Int) (origin axis : Int) (uk : List α → Kind) (zero : α) (L : List Int) (R : AxArg V α) : Res (Val α) := do
  let (R, axis) ← mayAxis idx origin R axis
  expandVal uk zero L R axis

/-- apl/primitives/take.go:75-171 `takedrop`.  For an `EmptyArray` as `L` (`none`) line 77 returns the right argument as it came, with its
axis specification. -/
def takedropX (idx : V → Option Int) (origin : Int) (uk : List α → Kind) (take : Bool) (zero z : α) (L : Option (List Int))
    (R : AxArg V α) : Res (AxArg V α) :=
  match L with
  | none => .ok R
  | some L => do
    let (R, x) ← splitAxis idx origin R
    let r ← takedrop uk take zero z (some L) R (x.getD [])
    return .plain r

/-- apl/primitives/axis.go:71-116: the number in the brackets of `,[X]`: a scalar or the only element of an array. -/
def oneNumber : AxisVal V → Option (Int ⊕ V)
  | .ints ⟨_, [n]⟩ => some (.inl n)
  | .other (.scalar v) => some (.inr v)
  | .other (.arr _ ⟨_, [v]⟩) => some (.inr v)
  | _ => none

/-- apl/primitives/axis.go:43-116: the axis of `,` from the brackets.  `fl` is the index of the floor of a number (`none`: not a number, or it
has no floor that is an index). -/
def catAxisOf (idx fl : V → Option Int) (origin : Int) : AxArg V α → Res (Val α × CatAxis)
  | .plain R => .ok (R, .last)
  | .axis R A =>
    match oneNumber A with
    | none => .error .err
    | some (.inl n) => .ok (R, .int (n - origin))
    | some (.inr v) =>
      match idx v with
      | some n => .ok (R, .int (n - origin))
      | none => match fl v with
        | some n => .ok (R, .frac (n - origin))
        | none => .error .err

/-- apl/primitives/comma.go:190-310 `catenate`, on scalars and arrays. -/
def catenateX (idx fl : V → Option Int) (origin : Int) (uk : List α → Kind) (L : Val α) (R : AxArg V α) : Res (Val α) := do
  let (R, ax) ← catAxisOf idx fl origin R
  catenate uk ax L R

/-- apl/primitives/comma.go:93-183 `ravelWithAxis`: whole numbers, or else a fractional number (lines 94-105). -/
def ravelX (idx fl : V → Option Int) (origin : Int) (zero : α) (uk : List α → Kind) (R : AxArg V α) : Res (Val α) :=
  match splitAxis idx origin R with
  | .ok (R, x) => ravelAxis zero uk (.ints (x.getD [])) R
  | .error .panic => .error .panic
  | .error .err => do
    match ← catAxisOf idx fl origin R with
    | (R, .frac n) => ravelAxis zero uk (.frac n) R
    | (_, .int _) => throw .err
    | (_, .last) => throw .err

end Iv
