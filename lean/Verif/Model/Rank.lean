import Verif.Model.Ops
import Verif.Model.Take
/-
apl/operators/rank.go: the rank operator.  Not modelled: `<⍤` (sending subarrays over a channel).
-/
namespace Iv
variable {m : Type → Type} [Monad m] {α : Type}

/-- apl/operators/rank.go:66-87 `subcell`: number `n` of the cells of the given rank.
`x.At(n)` for rank 0.  Line 74 compares the cell number with the length of one axis only. -/
def subcell (uk : List α → Kind) (x : Arr α) (rank n : Nat) : Res (Val α) :=
  if rank = 0 then do let v ← sliceAt x.data n; return .scalar v
  else if x.shape.length < rank then .error .err
  else if x.shape.length < 1 + rank then .error .panic
  else if x.shape.getD (x.shape.length - 1 - rank) 0 < n then .error .err
  else do
    let sub := x.shape.drop (x.shape.length - rank)
    let d ← forLoop (fun i => sliceAt x.data (n * prod sub + i)) (prod sub) 0
    return .arr (uk d) ⟨sub, d⟩

/-- apl/operators/rank.go:90-94 `subcells`: `Prod` of the frame (0 for an empty frame). -/
def subcells (x : Arr α) (rank : Nat) : Nat := prod (x.shape.take (x.shape.length - rank))

/-- `Shape()` of a value that is an `Array` (none for scalars); `EmptyArray` has a nil shape. -/
def arrShape? : Val α → Option (List Nat)
  | .scalar _ => none
  | .empty => some []
  | .arr _ a => some a.shape
  | .bad _ _ => none

/-- apl/operators/rank.go:183-193: one round of the loop for the common shape. -/
def commonStep (common s : List Nat) : List Nat :=
  let c := List.replicate (s.length - common.length) 0 ++ common
  c.take (c.length - s.length) ++ List.zipWith max (c.drop (c.length - s.length)) s

/-- apl/operators/rank.go:180-196. -/
def commonShape (results : List (Val α)) : List Nat :=
  (results.filterMap arrShape?).foldl commonStep []

/-- apl/operators/rank.go:197-245: bring one result to the common shape.  `zk` is the fill value of a
representation (`Zero()` of a uniform array, 0 for a mixed one).  The reshape can give `EmptyArray` for an
array without elements, of which `Take` cannot be computed. -/
def conform (uk : List α → Kind) (zero : α) (zk : Kind → α) (common : List Nat) (v : Val α) : Res (Val α) :=
  match v with
  | .scalar x =>
    if 0 < common.length then
      let d := List.replicate (prod common) x
      .ok (.arr (uk d) ⟨common, d⟩)
    else .ok v
  | .bad _ _ => .error .panic
  | _ => do
    let own := match v with | .arr _ a => a.shape | _ => []
    let shape := List.replicate (common.length - own.length) 1 ++ own
    let r ← match v with
      | .arr k a => reshapeArr k a.data (shape.map Int.ofNat)
      | _ => reshapeEmpty zero (shape.map Int.ofNat)
    if common = shape then return r
    else
      match r with
      | .arr k a => do
        let t ← takeArr (zk k) (common.map Int.ofNat) a (List.range common.length)
        return .arr k t
      | _ => .error .panic

/-- A result as an element (rank.go:257). -/
def asElement (emptyEl : α) : Val α → Res α
  | .scalar x => .ok x
  | .empty => .ok emptyEl
  | _ => .error .panic

/-- `for n := 0; n < commonsize; n++ { ... vr.At(n).Copy() }` (rank.go:266-269). -/
def asElements (n : Nat) : Val α → Res (List α)
  | .arr _ a => forLoop (fun n => sliceAt a.data n) n 0
  | _ => .error .panic

/-- apl/operators/rank.go:247-273: write the results one after the other.  `emptyEl` is an `EmptyArray`
as an element (it stays one if there are only scalar results beside). -/
def assemble (uk : List α → Kind) (emptyEl : α) (frame common : List Nat) (results : List (Val α)) : Res (Val α) :=
  if common.length = 0 then
    if results.length ≠ prod frame then .error .err
    else do
      let d ← results.mapM (asElement emptyEl)
      return .arr (uk d) ⟨frame, d⟩
  else do
    let parts ← results.mapM (asElements (prod common))
    let d := parts.flatten
    return .arr (uk d) ⟨frame ++ common, d⟩

/-- apl/operators/rank.go:180-273: conform and assemble. -/
def rankJoin (uk : List α → Kind) (zero emptyEl : α) (zk : Kind → α) (frame : List Nat) (results : List (Val α)) : Res (Val α) := do
  let common := commonShape results
  let rs ← results.mapM (conform uk zero zk common)
  assemble uk emptyEl frame common rs

/-- `if p < 0 { p += len(rs) }; if p < 0 || p > len(rs) { error }` (rank.go:100-113, 151-156; in the monadic
case the second test uses r, which is p unless three ranks are given: the cut of the frame then panics). -/
def normRank (rank : Nat) (p : Int) : Res Nat :=
  let p := if p < 0 then p + rank else p
  if p < 0 ∨ (rank : Int) < p then .error .err else .ok p.toNat

/-- apl/operators/rank.go:149-178: monadic use on an array. -/
def rankMonadic (uk : List α → Kind) (zero emptyEl : α) (zk : Kind → α) (f : Fn m (Val α)) (p : Int) (R : Val α) :
    ExceptT Fail m (Val α) :=
  match R with
  | .arr _ a => do
    let p ← ofRes (normRank a.shape.length p)
    let frame := a.shape.take (a.shape.length - p)
    let results ← forLoopM (fun i => do
      let s ← ofRes (subcell uk a p i)
      f none s) (subcells a p) 0
    ofRes (rankJoin uk zero emptyEl zk frame results)
  | _ => throw .err

/-- apl/operators/rank.go:99-148: dyadic use on two arrays with cell ranks q and r.  An empty frame has
"0" cells: the whole array is then used in every call. -/
def rankDyadic (uk : List α → Kind) (zero emptyEl : α) (zk : Kind → α) (f : Fn m (Val α)) (q r : Int) (L R : Val α) :
    ExceptT Fail m (Val α) :=
  match L, R with
  | .arr kl a, .arr kr b => do
    let q ← ofRes (normRank a.shape.length q)
    let r ← ofRes (normRank b.shape.length r)
    let ml := subcells a q
    let mr := subcells b r
    if ml ≠ mr ∧ 0 < ml ∧ 0 < mr then throw .err
    else do
      let n := if ml < mr then mr else ml
      let frame := if mr = 0 then a.shape.take (a.shape.length - q) else b.shape.take (b.shape.length - r)
      let results ← forLoopM (fun i => do
        let subl ← if ml = 0 then pure (.arr kl a) else ofRes (subcell uk a q i)
        let subr ← if mr = 0 then pure (.arr kr b) else ofRes (subcell uk b r i)
        f (some subl) subr) n 0
      ofRes (rankJoin uk zero emptyEl zk frame results)
  | _, _ => throw .err

end Iv
