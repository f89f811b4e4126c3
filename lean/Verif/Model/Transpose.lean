import Verif.Model.Value
/-
apl/primitives/transpose.go:46-154
-/
namespace Iv

/-- apl/primitives/transpose.go:71-84: for the monadic form the axis vector is built: reversed axes. -/
def transposeL (origin : Int) (L : Option (List Int)) (rank : Nat) : List Int :=
  match L with
  | none => (List.range rank).map (fun (i : Nat) => (rank : Int) - i - 1 + origin)
  | some l => l

/-- apl/primitives/transpose.go:104-113: largest value (starting at -1). -/
def maxL (l : List Int) : Int := l.foldl (fun m v => if m < v then v else m) (-1)

/-- apl/primitives/transpose.go:128-138: length of result axis `i`: minimum of the lengths of the
axes of `R` mapped to it, starting from the largest axis length. -/
def transAxis (rs : List Nat) (al : List Int) (i : Nat) : Nat :=
  (rs.zip al).foldl (fun m p => if p.2 = (i : Int) + 1 then (if p.1 < m then p.1 else m) else m)
    (rs.foldl (fun m n => if m < n then n else m) 0)

/-- apl/primitives/transpose.go:69-154 `transposeIndexes`: source offset of every result element and
the result shape.  `L` is a vector (`none` in the monadic form).
The in-place increment of `L` for origin 0 is the subject of `Model/Alias.lean`. -/
def transposeIndexes (origin : Int) (L : Option (List Int)) (rs : List Nat) :
    Res (List Nat × List Nat) :=
  let al := transposeL origin L rs.length
  if al.length ≠ rs.length then .error .err
  else
    let al := if origin = 0 then al.map (· + 1) else al
    if al.any (· < 1) then .error .err
    else
      let mx := maxL al
      -- lines 115-119: all of 1..max must be included
      if ¬ (List.range mx.toNat).all (fun i => al.contains ((i : Int) + 1)) then .error .err
      else if mx < 0 then .error .panic -- make([]int, -1)
      else do
        let shape := (List.range mx.toNat).map (transAxis rs al)
        let (ics, _) ← newIdxConverter shape
        let (icr, _) ← newIdxConverter rs
        let fl ← forLoop (fun i => do
          let sidx := icIndexes ics i
          let ridx ← al.mapM (fun n => sliceAt sidx (n - 1).toNat)
          return icIndex icr ridx) (prod shape) 0
        return (fl, shape)

/-- apl/primitives/transpose.go:46-67 `transpose` on an array. -/
def transposeArr {α} (origin : Int) (L : Option (List Int)) (a : Arr α) : Res (Arr α) := do
  let (idx, shape) ← transposeIndexes origin L a.shape
  let d ← idx.mapM (fun k => sliceAt a.data k)
  return ⟨shape, d⟩

/-- apl/primitives/transpose.go:46-67 on any value (`EmptyArray` has rank 0).  An `EmptyArray` as `L`
is accepted only for a scalar `R`; a scalar has no monadic handler (line 14), and with another array
`L` the type assertion of line 70 panics (handler of line 33). -/
def transpose {α} (origin : Int) (L : Option (List Int)) (R : Val α) : Res (Val α) :=
  match R with
  | .scalar x => match L with
    | none => .error .err
    | some [] => .ok (.scalar x)
    | some _ => .error .panic
  | .empty => if L = some [] then .error .err else do
      let (_, _) ← transposeIndexes origin L []
      .error .panic
  | .arr k a => if L = some [] then .error .err else do
      let r ← transposeArr origin L a
      return .arr k r
  | .bad _ _ => .error .panic

end Iv
