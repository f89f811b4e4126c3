import Verif.Model.Value
/-
apl/operators/reduce.go:367-650: replicate, compress, expand.
The left operand is an index vector (domain `ToIndexArray`, line 43); a higher-rank left operand is
rejected (line 563) and not represented.  An `EmptyArray` left operand makes `L.(apl.IntArray)`
(line 562) panic; the special case of `Expand` for it (lines 456-471) is not modelled.
-/
namespace Iv

/-- apl/operators/reduce.go:602-617: extend an axis of length 1 by repeating its only position. -/
def extendAxis {α} (n k : Nat) (a : Arr α) : Res (Arr α) := do
  let (ic, _) ← newIdxConverter a.shape
  let shape := a.shape.set k n
  let d ← odoLoop shape (fun _ dst => sliceAt a.data (icIndex ic (dst.set k 0)))
    (prod shape) 0 (List.replicate shape.length 0)
  return ⟨shape, d⟩

/-- apl/operators/reduce.go:560-623 `commonReplExp` for an array right argument: the possibly extended
array and the axis.  `rs[axis]` (line 596) panics before the range check of line 613 is reached. -/
def commonReplExp {α} (L : List Int) (a : Arr α) (axis : Int) : Res (Arr α × Nat) :=
  if a.shape = [] then .ok (a, 0)
  else
    let axis := if axis < 0 then (a.shape.length : Int) + axis else axis
    if axis < 0 then .error .err
    else do
      let len ← sliceAt a.shape axis.toNat
      let a' ← if len = 1 ∧ L.length > 1 then extendAxis L.length axis.toNat a else .ok a
      return (a', axis.toNat)

/-- apl/operators/reduce.go:627-650 `compress`: walk over the elements of `R` in row-major order and
keep those whose axis position is marked; `res.Set(n, …)` with a counting `n` fills the result from
the front. -/
def compressLoop {α} (L : List Int) (a : Arr α) (k : Nat) : (n i : Nat) → (ridx : List Nat) → Res (List α)
  | 0, _, _ => .ok []
  | n + 1, i, ridx => do
    let b ← sliceAt L (ridx.getD k 0)
    if b = 1 then do
      let v ← sliceAt a.data i
      let rest ← compressLoop L a k n (i + 1) (incArrayIndex ridx a.shape)
      return v :: rest
    else compressLoop L a k n (i + 1) (incArrayIndex ridx a.shape)

def compress {α} (L : List Int) (a : Arr α) (k : Nat) : Res (Arr α) := do
  let count := L.foldl (· + ·) 0
  let d ← compressLoop L a k a.data.length 0 (List.replicate a.shape.length 0)
  return ⟨a.shape.set k count.toNat, d⟩

/-- apl/operators/reduce.go:415-431: source position along the axis (`none` is the code's -1: fill)
for every position of the result axis; `k` is the position in `L`. -/
def axisMap : List Int → (k : Nat) → List (Option Nat)
  | [], _ => []
  | n :: ns, k =>
    (if n > 0 then List.replicate n.toNat (some k)
     else if n < 0 then List.replicate (-n).toNat none else []) ++ axisMap ns (k + 1)

/-- apl/operators/reduce.go:391-401: a one-element `L` is extended to the axis length. -/
def extendL (L : List Int) (len : Nat) : List Int :=
  match L with
  | [n] => if len > 1 then List.replicate len n else [n]
  | l => l

/-- apl/operators/reduce.go:379-451 `Replicate` on an array; `zero` is the fill (lines 434-437). -/
def replicateArr {α} (zero : α) (L : List Int) (a : Arr α) (axis : Int) : Res (Arr α) := do
  let (ar, k) ← commonReplExp L a axis
  let len ← sliceAt ar.shape k
  let L := extendL L len
  if L.length ≠ len then .error .err
  else if ¬ L.any (fun n => n < 0 ∨ n > 1) then compress L ar k
  else do
    let am := axisMap L 0
    let shape := ar.shape.set k am.length
    let (ic, _) ← newIdxConverter ar.shape
    let d ← odoLoop shape (fun _ dst => do
      match ← sliceAt am (dst.getD k 0) with
      | none => return zero
      | some n => sliceAt ar.data (icIndex ic (dst.set k n))) (prod shape) 0 (List.replicate shape.length 0)
    return ⟨shape, d⟩

/-- apl/operators/reduce.go:533-553: what is written at successive positions of the result axis
(`d` counts up by one with every `res.Set`): `some j` the `j`-th source position, `none` the fill. -/
def expAxis : List Int → (j : Nat) → List (Option Nat)
  | [], _ => []
  | k :: ks, j =>
    if k > 0 then List.replicate k.toNat (some j) ++ expAxis ks (j + 1)
    else if k = 0 then none :: expAxis ks j
    else List.replicate (-k).toNat none ++ expAxis ks j

/-- apl/operators/reduce.go:502-516: `+/1⌈|L` -/
def expLen (L : List Int) : Nat :=
  L.foldl (fun s k => if k.natAbs > 1 then s + k.natAbs else s + 1) 0

/-- A sequence of `res.Set(pos, value)`. -/
def applySets {α} (d : List α) (ws : List (Nat × α)) : List α :=
  ws.foldl (fun d w => d.set w.1 w.2) d

/-- apl/operators/reduce.go:529-556: the writes of one outer iteration. -/
def expCell {α} (zero : α) (am : List (Option Nat)) (ar : Arr α) (k : Nat) (ic dic : List Nat) (dst : List Nat) :
    Res (List (Nat × α)) :=
  forLoop (fun d => do
    match ← sliceAt am d with
    | none => return (icIndex dic (dst.set k d), zero)
    | some j => do
      let v ← sliceAt ar.data (icIndex ic (dst.set k j))
      return (icIndex dic (dst.set k d), v)) am.length 0

/-- apl/operators/reduce.go:467-558 `Expand` on an array (not `EmptyArray`). -/
def expandArr {α} (zero : α) (L : List Int) (a : Arr α) (axis : Int) : Res (Arr α) := do
  let (ar, k) ← commonReplExp L a axis
  let shape := ar.shape.set k (expLen L)
  let short := shape.set k 1
  let (ic, _) ← newIdxConverter ar.shape
  let (dic, _) ← newIdxConverter shape
  if expLen L = 0 then .error .panic -- division by zero
  else do
    let ws ← odoLoop short (fun _ dst => expCell zero (expAxis L 0) ar k ic dic dst)
      (prod shape / expLen L) 0 (List.replicate short.length 0)
    return ⟨shape, applySets (List.replicate (prod shape) zero) ws.flatten⟩

/-- Scalars become one-element vectors (apl/operators/reduce.go:579-588). -/
def replicateVal {α} (uk : List α → Kind) (zero : α) (L : List Int) (R : Val α) (axis : Int) : Res (Val α) :=
  match toArrayVal uk R with
  | .arr k a => do return .arr k (← replicateArr zero L a axis)
  | .empty => .error .panic
  | _ => .error .panic

end Iv
