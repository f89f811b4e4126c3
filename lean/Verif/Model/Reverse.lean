import Verif.Model.Value
/-
apl/primitives/reverse.go
-/
namespace Iv

/-- Axis normalisation used by reverse and rotate (apl/primitives/reverse.go:70-75, 146-151):
negative axes count from the end; out of range is an error. -/
def normAxis (rank : Nat) (axis : Int) : Res Nat :=
  let axis := if axis < 0 then (rank : Int) + axis else axis
  if axis < 0 ∨ (rank : Int) ≤ axis then .error .err else .ok axis.toNat

/-- apl/primitives/reverse.go:77-86, the element loop of `reverse`.
(`shape[axis] - src[axis] - 1` cannot be negative: `src` is inside the shape.) -/
def reverseArr {α} (a : Arr α) (axis : Nat) : Res (Arr α) := do
  let (ic, _) ← newIdxConverter a.shape
  let d ← odoLoop a.shape (fun _ dst =>
    let src := dst.set axis (a.shape.getD axis 0 - dst.getD axis 0 - 1)
    sliceAt a.data (icIndex ic src)) (prod a.shape) 0 (List.replicate a.shape.length 0)
  return ⟨a.shape, d⟩

/-- apl/primitives/reverse.go:50-87 `reverse`; `axis` is -1 for `⌽`, 0 for `⊖`, or the given axis
(already shifted by the index origin). `EmptyArray` has rank 0, so every axis is out of range. -/
def reverse {α} (R : Val α) (axis : Int) : Res (Val α) :=
  match R with
  | .scalar x => .ok (.scalar x)
  | .empty => do
    let _ ← normAxis 0 axis
    .error .panic
  | .arr k a => do
    let ax ← normAxis a.shape.length axis
    let r ← reverseArr a ax
    return .arr k r
  | .bad _ _ => .error .panic

/-- apl/primitives/reverse.go:125-131 `rot`: `%` is Go's truncated remainder. -/
def rot (i : Nat) (n : Int) (size : Nat) : Int :=
  let k := Int.tmod ((i : Int) + n) size
  if k < 0 then size + k else k

/-- apl/primitives/reverse.go:154-166: a vector `L` for a rank > 2 array is reshaped to rank-1
axes, all of `L`'s length.  `IntArray.Reshape` of an empty vector is `EmptyArray`, on which the
type assertion panics. -/
def extendRot (L : Arr Int) (rank : Nat) : Res (Arr Int) :=
  match L.shape with
  | [n] =>
    if 2 < rank then
      if L.data = [] then .error .panic
      else do
        let d ← cycFill L.data (prod (List.replicate (rank - 1) n)) 0
        return ⟨List.replicate (rank - 1) n, d⟩
    else .ok L
  | _ => .ok L

/-- apl/primitives/reverse.go:101-201 `rotate` on an array `R` of rank ≥ 1 with an integer array `L`
(a scalar `L` arrives as a one-element vector, apl/domain/array.go:208-223). -/
def rotateArr {α} (L : Arr Int) (a : Arr α) (axis : Int) : Res (Arr α) :=
  match a.shape with
  | [size] =>
    if L.shape ≠ [1] then .error .err
    else do
      let n ← sliceAt L.data 0
      let d ← forLoop (fun i => sliceAtI a.data (rot i n size)) size 0
      return ⟨[size], d⟩
  | shape => do
    let ax ← normAxis shape.length axis
    let L ← extendRot L shape.length
    if L.shape.length ≠ shape.length - 1 then .error .err
    -- lines 171-179: every axis of L must match R's axis, skipping the rotated one
    else if ¬ ((List.range L.shape.length).all (fun i =>
        shape.getD (if ax ≤ i then i + 1 else i) 0 == L.shape.getD i 0)) then .error .err
    else do
      let (lic, _) ← newIdxConverter L.shape
      let (ric, _) ← newIdxConverter shape
      let axsize := shape.getD ax 0
      let d ← odoLoop shape (fun _ dst => do
        let n ← sliceAt L.data (icIndex lic (dst.take ax ++ dst.drop (ax + 1)))
        let s := rot (dst.getD ax 0) n axsize
        if s < 0 then .error .panic
        else sliceAt a.data (icIndex ric (dst.set ax s.toNat))) (prod shape) 0
          (List.replicate shape.length 0)
      return ⟨shape, d⟩

end Iv
