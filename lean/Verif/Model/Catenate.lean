import Verif.Model.Value
/-
apl/primitives/comma.go:190-396, apl/primitives/axis.go:43-117
-/
namespace Iv

/-- The bracket axis of `,`: absent, an integer, or a fractional number given by its floor.
Both numbers are zero-based (the index origin is subtracted, axis.go:87, 110). -/
inductive CatAxis
  | last
  | int (n : Int)
  | frac (floor : Int)
deriving Repr, DecidableEq

/-- rank of a value; scalars and `EmptyArray` have rank 0 (apl/array.go:260) -/
def Val.rank {α} : Val α → Nat
  | .arr _ a => a.shape.length
  | .bad d _ => d.length
  | _ => 0

/-- apl/primitives/axis.go:43-117 `splitCatAxis`: position of the axis and whether it is fractional.
Axis values that are arrays, or not numeric, are not modelled. -/
def splitCatAxis {α} (L R : Val α) : CatAxis → Res (Int × Bool)
  | .last => match R with
    | .scalar _ => .ok (0, false)
    | _ => .ok ((R.rank : Int) - 1, false)
  | .int n => if n < 0 ∨ n ≥ ((max L.rank R.rank : Nat) : Int) then .error .err else .ok (n, false)
  | .frac n => if n < -1 ∨ n > ((max L.rank R.rank : Nat) : Int) then .error .err else .ok (n, true)

/-- apl/primitives/comma.go:280-290: the joined shape: the catenation axis adds up, every other axis
must agree.  Reading `sr[i]` beyond its rank panics. -/
def catShape (x : Nat) (sr : List Nat) : (sl : List Nat) → (i : Nat) → Res (List Nat)
  | [], _ => .ok []
  | l :: ls, i => do
    let r ← sliceAt sr i
    if i = x then do
      let rest ← catShape x sr ls (i + 1)
      return (l + r) :: rest
    else if l ≠ r then .error .err
    else do
      let rest ← catShape x sr ls (i + 1)
      return l :: rest

/-- apl/primitives/comma.go:280-309: join two arrays of the same rank along axis `x`. -/
def catCore {α} (x : Nat) (al ar : Arr α) : Res (Arr α) := do
  let newshape ← catShape x ar.shape al.shape 0
  let split ← sliceAt al.shape x
  let (lc, _) ← newIdxConverter al.shape
  let (rc, _) ← newIdxConverter ar.shape
  let d ← odoLoop newshape (fun _ dst =>
    if split ≤ dst.getD x 0 then
      sliceAt ar.data (icIndex rc (dst.set x (dst.getD x 0 - split)))
    else
      sliceAt al.data (icIndex lc dst)) (prod newshape) 0 (List.replicate newshape.length 0)
  return ⟨newshape, d⟩

/-- apl/primitives/comma.go:258-263 `insert1`: insert an axis of length 1 at position `x`. -/
def insert1 (s : List Nat) (x : Nat) : Res (List Nat) :=
  if x ≤ s.length then .ok (s.take x ++ 1 :: s.drop x) else .error .panic

/-- `Reshape` on an array with elements (apl/primitives/comma.go:249-255) -/
def reshapeTo {α} (k : Kind) (a : Arr α) (s : List Nat) : Res (Arr α) := do
  match ← reshapeArr k a.data (s.map Int.ofNat) with
  | .arr _ r => return r
  | _ => .error .panic

/-- apl/primitives/comma.go:264-278: if the ranks differ by one, the smaller gets an axis of length 1.
A rank difference of 2 (left larger) slips through the check `d > 2`. -/
def catAlign {α} (x : Nat) (kl kr : Kind) (al ar : Arr α) : Res (Arr α × Arr α) :=
  let d : Int := (al.shape.length : Int) - ar.shape.length
  if d ≠ 0 then
    if d < -1 ∨ d > 2 then .error .err
    else if d = -1 then do
      let s ← insert1 al.shape x
      return (← reshapeTo kl al s, ar)
    else if d = 1 then do
      let s ← insert1 ar.shape x
      return (al, ← reshapeTo kr ar s)
    else .ok (al, ar)
  else .ok (al, ar)

/-- apl/primitives/comma.go:230-237 `reshapeScalar` -/
def reshapeScalar {α} (x : Nat) (s : α) (shape : List Nat) : Res (Arr α) :=
  if x < shape.length then
    .ok ⟨shape.set x 1, List.replicate (prod (shape.set x 1)) s⟩
  else .error .panic

/-- apl/primitives/comma.go:330-396 `laminate`; `x` is the position of the new axis.
Go's `ls[i+off]` and `src[:x]` panic when out of range. -/
def lamShape (x : Nat) (ls : List Nat) : Res (List Nat) :=
  forLoop (fun i => if i = x then .ok 2 else sliceAt ls (if x < i then i - 1 else i)) (ls.length + 1) 0

/-- apl/primitives/comma.go:378-395: the copy loop of `laminate`. -/
def lamCore {α} (x : Nat) (al ar : Arr α) : Res (Arr α) :=
  if al.shape.length ≠ ar.shape.length then .error .err
  else if al.shape ≠ ar.shape then .error .err
  else do
    let shape ← lamShape x al.shape
    let (ic, _) ← newIdxConverter al.shape
    let d ← odoLoop shape (fun _ dst =>
      let src := dst.take x ++ dst.drop (x + 1)
      if dst.getD x 0 = 0 then sliceAt al.data (icIndex ic src)
      else sliceAt ar.data (icIndex ic src)) (prod shape) 0 (List.replicate shape.length 0)
    return ⟨shape, d⟩

/-- apl/primitives/comma.go:330-361: the arguments of `laminate` -/
def laminate {α} (uk : List α → Kind) (x : Nat) (L R : Val α) : Res (Val α) :=
  match L, R with
  | .scalar l, .scalar r => if x ≠ 0 then .error .err else .ok (.arr (uk [l, r]) ⟨[2], [l, r]⟩)
  | .scalar l, .arr _ ar => do
    let r ← lamCore x ⟨ar.shape, List.replicate (prod ar.shape) l⟩ ar
    return .arr (uk r.data) r
  | .arr _ al, .scalar r => do
    let r ← lamCore x al ⟨al.shape, List.replicate (prod al.shape) r⟩
    return .arr (uk r.data) r
  | .arr _ al, .arr _ ar => do
    let r ← lamCore x al ar
    return .arr (uk r.data) r
  | _, _ => .error .panic -- EmptyArray: NewIdxConverter of an empty shape panics (or the ranks differ)

def Val.noElems {α} : Val α → Bool
  | .scalar _ => false
  | .empty => true
  | .arr _ a => a.data.isEmpty
  | .bad _ d => d.isEmpty

/-- apl/primitives/comma.go:190-310 `catenate`.  Lists and tables are not modelled here. -/
def catenate {α} (uk : List α → Kind) (ax : CatAxis) (L R : Val α) : Res (Val α) := do
  let (x, frac) ← splitCatAxis L R ax
  if frac then laminate uk (x + 1).toNat L R
  else if L.noElems then .ok R
  else if R.noElems then .ok L
  else
    let x := x.toNat
    match L, R with
    | .scalar l, .scalar r => .ok (.arr (uk [l, r]) ⟨[2], [l, r]⟩)
    | .scalar l, .arr kr ar => do
      let al ← reshapeScalar x l ar.shape
      let (al, ar) ← catAlign x (uk al.data) kr al ar
      let r ← catCore x al ar
      return .arr (uk r.data) r
    | .arr kl al, .scalar r => do
      let ar ← reshapeScalar x r al.shape
      let (al, ar) ← catAlign x kl (uk ar.data) al ar
      let r ← catCore x al ar
      return .arr (uk r.data) r
    | .arr kl al, .arr kr ar => do
      let (al, ar) ← catAlign x kl kr al ar
      let r ← catCore x al ar
      return .arr (uk r.data) r
    | _, _ => .error .panic -- arrays with negative axis lengths

end Iv
