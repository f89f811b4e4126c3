import Verif.Model.Index
import Verif.Model.Take
import Verif.Model.Reverse
import Verif.Model.Transpose
import Verif.Model.Replicate
/-
Selective assignment: apl/primitives/selection.go, takeDropSelection (apl/primitives/take.go), ravelSelection
(apl/primitives/comma.go), apl/operators/select.go.
-/
namespace Iv
variable {α : Type}

/-- apl/domain/array.go:177-179, 191-258 `ToIndexArray` on the result of a structural function of an integer array, followed by the
type assertion `.(apl.IntArray)` (apl/primitives/selection.go:35): an `EmptyArray` passes the conversion and fails the
assertion.  (A scalar becomes a one-element vector, line 208.) -/
def toIndexArr : Val Int → Res (List Nat × List Int)
  | .arr _ a => .ok (a.shape, a.data)
  | .scalar n => .ok ([1], [n])
  | .empty => .error .panic
  | .bad _ _ => .error .panic

/-- the index array of the shape of an array, counting from `k` (apl/primitives/selection.go:20-24, take.go:196-200,
apl/operators/select.go:65-69) -/
def countArr (k : Nat) (a : Arr α) : Arr Int := ⟨a.shape, (List.range a.data.length).map (fun n => ((n + k : Nat) : Int))⟩

/-- apl/primitives/selection.go:12-39 `selection`: apply the function to the index array. -/
def selection (f : Val Int → Res (Val Int)) : Val α → Res (List Nat × List Int)
  | .arr _ a => do
    let v ← f (.arr .int (countArr 0 a))
    toIndexArr v
  | _ => .error .err  -- simplification: `EmptyArray` is an array too, but cannot be assigned to either

/-- apl/primitives/take.go:180-232 `takeDropSelection`: counts from 1, as the fill is 0; a fill position is an error. -/
def takeDropSelection (f : Val Int → Res (Val Int)) : Val α → Res (List Nat × List Int)
  | .arr _ a => do
    let v ← f (.arr .int (countArr 1 a))
    let (s, d) ← toIndexArr v
    if d.any (fun i => i - 1 < 0) then .error .err else return (s, d.map (· - 1))
  | _ => .error .err

/-- apl/operators/select.go:53-86 `selectSimple` (replicate, expand) and 12-48 `selection` (functions with an axis): counts
from 1; fill positions become -1, which the assignment skips. -/
def selectSimple (f : Val Int → Res (Val Int)) : Val α → Res (List Nat × List Int)
  | .arr _ a => do
    let v ← f (.arr .int (countArr 1 a))
    let (s, d) ← toIndexArr v
    return (s, d.map (· - 1))
  | _ => .error .err

/-- apl/primitives/comma.go:80-91 `ravelSelection` -/
def ravelSelection : Val α → Res (List Nat × List Int)
  | .arr _ a => .ok ([a.data.length], (List.range a.data.length).map (fun (n : Nat) => (n : Int)))
  | _ => .error .err

/-- apl/operators/reduce.go:467-558 `Expand`; a scalar becomes a one-element vector (lines 582-589) -/
def expandVal (uk : List α → Kind) (zero : α) (L : List Int) (R : Val α) (axis : Int) : Res (Val α) :=
  match toArrayVal uk R with
  | .arr k a => do return .arr k (← expandArr zero L a axis)
  | _ => .error .panic

/-- apl/primitives/reverse.go:90-122 `rotLast`, `rotFirst`, head of `rotate`: a scalar `R` is returned unchanged. -/
def rotateVal (L : Arr Int) (R : Val α) (axis : Int) : Res (Val α) :=
  match R with
  | .scalar x => .ok (.scalar x)
  | .arr k a => do return .arr k (← rotateArr L a axis)
  | _ => .error .panic

end Iv
