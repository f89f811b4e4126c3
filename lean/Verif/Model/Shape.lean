import Verif.Model.Basic
/-
Model of the index arithmetic of apl/array.go.
Simplification: Go `int`s are modelled as unbounded `Nat`s (shapes and offsets are never negative
in the modelled functions).
-/
namespace Iv

/-- apl/array.go:136-145 `Prod`: the product of the axis lengths, but 0 for the empty shape. -/
def prod : List Nat → Nat
  | [] => 0
  | n :: ns => ns.foldl (· * ·) n

/-- apl/array.go:160-165, the stride loop of `NewIdxConverter` (from the last axis to the first:
`ic[len-1]=1; ic[i] = ic[i+1]*shape[i+1]`). -/
def strides : List Nat → List Nat
  | [] => []
  | [_] => [1]
  | _ :: m :: s =>
    let cs := strides (m :: s)
    (cs.headD 1 * m) :: cs

/-- apl/array.go:159-166 `NewIdxConverter`: strides and a zero index slice.
For an empty shape `ic[len(ic)-1]` panics. -/
def newIdxConverter (shape : List Nat) : Res (List Nat × List Nat) :=
  match shape with
  | [] => .error .panic
  | s => .ok (strides s, List.replicate s.length 0)

/-- apl/array.go:169-175 `IdxConverter.Index`, the accumulating loop
(`idx` shorter than `ic` would panic; callers pass slices of equal length). -/
def icIndex (ic idx : List Nat) : Nat :=
  (ic.zip idx).foldl (fun n p => n + p.1 * p.2) 0

/-- apl/array.go:178-183 `IdxConverter.Indexes`: successive division.
Go panics on a zero stride (`n / ic[i]`), which needs a zero axis length, hence an empty array. -/
def icIndexes : List Nat → Nat → List Nat
  | [], _ => []
  | c :: cs, n => n / c :: icIndexes cs (n - n / c * c)

/-- The loop of apl/array.go:187-193 on the reversed slices (the loop runs from the last
component to the first and breaks when no carry occurs). -/
def incRev : List Nat → List Nat → List Nat
  | i :: is, n :: ns => if i + 1 < n then (i + 1) :: is else 0 :: incRev is ns
  | is, _ => is

/-- apl/array.go:186-194 `IncArrayIndex`. -/
def incArrayIndex (idx shape : List Nat) : List Nat :=
  (incRev idx.reverse shape.reverse).reverse

/-- The ubiquitous loop
`for i := 0; i < n; i++ { res[i] = body(i, idx); apl.IncArrayIndex(idx, shape) }`
(e.g. apl/primitives/reverse.go:78-87, apl/operators/rank.go:352-376).
`i` counts the iterations done, `n` the remaining ones. -/
def odoLoop {β} (shape : List Nat) (body : Nat → List Nat → Res β) :
    (n i : Nat) → (idx : List Nat) → Res (List β)
  | 0, _, _ => .ok []
  | n + 1, i, idx => do
    let x ← body i idx
    let xs ← odoLoop shape body n (i + 1) (incArrayIndex idx shape)
    return x :: xs

/-- The index vector after `k` increments from the start vector. -/
def incTimes (shape : List Nat) : Nat → List Nat → List Nat
  | 0, idx => idx
  | k + 1, idx => incTimes shape k (incArrayIndex idx shape)

/-- A plain counting loop `for i := i0; i < i0+n; i++ { res[i] = body(i) }`. -/
def forLoop {β} (body : Nat → Res β) : (n i : Nat) → Res (List β)
  | 0, _ => .ok []
  | n + 1, i => do
    let x ← body i
    let xs ← forLoop body n (i + 1)
    return x :: xs

end Iv
