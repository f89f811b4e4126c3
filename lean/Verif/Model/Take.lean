import Verif.Model.Value
/-
apl/operators/rank.go `Take`, apl/primitives/take.go `takedrop`.
-/
namespace Iv

/-- `for i, k := range x { s[k] = v[i] }` on a slice (writes outside the slice panic; the callers
below check the positions). -/
def setAll {β} (s : List β) : List (Nat × β) → List β
  | [] => s
  | (k, v) :: ps => setAll (s.set k v) ps

/-- apl/operators/rank.go:333-338, result shape: copy of `rs` with `shape[x[i]] = |L[i]|`. -/
def takeShape (rs : List Nat) (ai : List Int) (x : List Nat) : List Nat :=
  setAll rs (x.zip (ai.map Int.natAbs))

/-- apl/operators/rank.go:341-349, offsets for negative counts:
`off[x[i]] = rs[x[i]] + L[i]` when `L[i] < 0`.
Every `i` below `len(L)` is also below the rank, because `len(L) = len(x) ≤ rank`. -/
def takeOffLoop (rs : List Nat) (off : List Int) : List (Nat × Int) → List Int
  | [] => off
  | (k, n) :: ps => takeOffLoop rs (if n < 0 then off.set k ((rs.getD k 0 : Int) + n) else off) ps

/-- apl/operators/rank.go:341-349, starting from the zero slice. -/
def takeOff (rs : List Nat) (ai : List Int) (x : List Nat) : List Int :=
  takeOffLoop rs (rs.map (fun _ => (0 : Int))) (x.zip ai)

/-- apl/operators/rank.go:317-377 `Take`.  `z` is the fill value (`Zero()` of the uniform type,
or 0).  The result has the representation of the source (`MakeArray`), so `Set` never fails and the
representation is left out. -/
def takeArr {α} (z : α) (ai : List Int) (a : Arr α) (x : List Nat) : Res (Arr α) :=
  if ai.length ≠ x.length then .error .err
  else if x.any (a.shape.length ≤ ·) then .error .panic
  else do
    let shape := takeShape a.shape ai x
    let off := takeOff a.shape ai x
    let (ic, _) ← newIdxConverter a.shape
    let d ← odoLoop shape (fun _ idx =>
      let src : List Int := List.zipWith (fun (i : Nat) o => (i : Int) + o) idx off
      if (List.zipWith (fun (s : Int) (r : Nat) => decide (s < 0 ∨ (r : Int) ≤ s)) src a.shape).any id then .ok z
      else sliceAt a.data (icIndex ic (src.map Int.toNat))) (prod shape) 0
      (List.replicate shape.length 0)
    return ⟨shape, d⟩

/-- apl/primitives/take.go:112-138: complete the axis list.  The given axes come first (each must
be a valid, not yet used axis), the remaining ones follow in ascending order. -/
def completeAxes (rank : Nat) (x : List Int) : Res (List Nat) :=
  if rank < x.length then .error .err
  else if ¬ x.all (fun n => 0 ≤ n ∧ n < rank) then .error .err
  else if ¬ x.Nodup then .error .err
  else .ok (x.map Int.toNat ++ (List.range rank).filter (fun (k : Nat) => ¬ x.contains (k : Int)))

/-- apl/primitives/take.go:140-154: pad the counts: `⍴R[x]` for take, 0 for drop. -/
def padCounts (take : Bool) (rs : List Nat) (L : List Int) (x : List Nat) : List Int :=
  L ++ ((x.drop L.length).map (fun k => if take then (rs.getD k 0 : Int) else 0))

/-- apl/primitives/take.go:158-167: a drop count as a take count for axis length `m`. -/
def dropToTake (m : Nat) (n : Int) : Int :=
  if (m : Int) ≤ n ∨ (m : Int) ≤ -n then 0
  else if 0 < n then n - m
  else n + m

/-- apl/primitives/take.go:75-171 `takedrop` on an array `R` of rank ≥ 1 with an index vector `L`
and zero-based axis list `x` (`[]` when no axis is given).  The in-place update of `L` is the
subject of `Model/Alias.lean`; here only the result is modelled. -/
def takedropArr {α} (take : Bool) (z : α) (L : List Int) (a : Arr α) (x : List Int) : Res (Arr α) := do
  let ax ← completeAxes a.shape.length x
  if a.shape.length < L.length then .error .err
  else
    let ai := padCounts take a.shape L ax
    let ai := if take then ai
      else List.zipWith (fun k n => dropToTake (a.shape.getD k 0) n) ax ai
    takeArr z ai a ax

/-- apl/primitives/take.go:75-171 `takedrop` on any value.  An `EmptyArray` as `L` returns `R`
(line 77); an `EmptyArray` as `R` gives `|L|` zeros when `L` has one item (line 93), otherwise its
rank 0 makes `L` too long; a scalar `R` becomes an array with as many axes of length 1 as `L` has
items (line 107).  `z` is the fill of the source representation. -/
def takedrop {α} (uk : List α → Kind) (take : Bool) (zero z : α) (L : Option (List Int)) (R : Val α) (x : List Int) :
    Res (Val α) :=
  match L with
  | none => .ok R
  | some L =>
    match R with
    | .empty =>
      match L with
      | [n] => .ok (.arr .int ⟨[n.natAbs], List.replicate n.natAbs zero⟩)
      | [] => .error .panic
      | _ => .error .err
    | .scalar v => do
      let r ← takedropArr take z L ⟨List.replicate L.length 1, [v]⟩ x
      return .arr (uk [v]) r
    | .arr k a => do
      let r ← takedropArr take z L a x
      return .arr k r
    | .bad _ _ => .error .panic

end Iv
