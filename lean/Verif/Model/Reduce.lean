import Verif.Model.Effect
import Verif.Model.Replicate
/-
apl/operators/reduce.go: reduction, scan and n-wise reduction over arrays.
Not modelled here: channels (Model/Channel.lean), tables and objects, the axis bracket syntax (the axis
is a parameter).
-/
namespace Iv

variable {m : Type → Type} [Monad m] {α : Type}

/-- apl/operators/reduce.go:652-662 `reduce`: start with the last element, then from the end to the
front `v = f(vec[i], v)`.  `vec[len(vec)-1]` panics for an empty vector. -/
def reduceVec (f : α → α → ExceptT Fail m α) (vec : List α) : ExceptT Fail m α :=
  match vec.reverse with
  | [] => throw .panic
  | x :: rest => rest.foldlM (fun v y => f y v) x

/-- apl/operators/reduce.go:218-229 (also 312-315, 850-857): read the vector along an axis.
`copy(sidx, tidx[:axis]); copy(sidx[axis+1:], tidx[axis:]); sidx[axis] = i`. -/
def readLine (a : Arr α) (ic : List Nat) (k n : Nat) (tidx : List Nat) : Res (List α) :=
  forLoop (fun i => sliceAt a.data (icIndex ic (tidx.take k ++ i :: tidx.drop k))) n 0

/-- apl/operators/reduce.go:155-161 and 193-199: the identity item, an error if there is none.
`identityItem` (apl/operators/identity.go) is the parameter `ident`. -/
def needIdent (ident : Option α) : ExceptT Fail m α :=
  match ident with
  | none => throw .err
  | some i => pure i

/-- apl/operators/reduce.go:163-168 (also 286-291): normalise a negative axis, check the range. -/
def reduceAxis (rank : Nat) (axis : Int) : Res Nat :=
  let axis := if axis < 0 then (rank : Int) + axis else axis
  if axis < 0 ∨ (rank : Int) ≤ axis then .error .err else .ok axis.toNat

/-- apl/operators/reduce.go:170-236: reduce along axis `ax` of an array of rank at least 1. -/
def reductAxis (uk : List α → Kind) (ident : Option α) (f : α → α → ExceptT Fail m α)
    (k : Kind) (a : Arr α) (ax : Nat) : ExceptT Fail m (Val α) :=
  let n := a.shape.getD ax 0
  let dims := a.shape.eraseIdx ax
  if n = 1 then ofRes (reshapeArr k a.data (dims.map Int.ofNat))
  else if n = 0 then do
    let id ← needIdent ident
    ofRes (reshapeArr (uk [id]) [id] (dims.map Int.ofNat))
  else if a.shape.length = 1 then do
    let vec ← ofRes (forLoop (fun i => sliceAt a.data i) n 0)
    let v ← reduceVec f vec
    return .scalar v
  else do
    let (ic, _) ← ofRes (newIdxConverter a.shape)
    let d ← odoLoopM dims (fun _ tidx => do
      let vec ← ofRes (readLine a ic ax n tidx)
      reduceVec f vec) (prod dims) 0 (List.replicate dims.length 0)
    return .arr (uk d) ⟨dims, d⟩

/-- apl/operators/reduce.go:112-239 `reduct` without left argument on a scalar or array.
The results of `f` are elements of the result array (`uk` is the representation `UnifyArray` picks).
An array of rank 0 without being `EmptyArray` (`needIdent` case) can be produced by a reduction over
an empty axis. -/
def reduct (uk : List α → Kind) (ident : Option α) (f : α → α → ExceptT Fail m α)
    (R : Val α) (axis : Int) : ExceptT Fail m (Val α) :=
  match R with
  | .scalar x => pure (.scalar x)
  | .empty => do let id ← needIdent ident; return .scalar id
  | .bad _ _ => throw .panic
  | .arr k a =>
    if a.shape = [1] then do let v ← ofRes (sliceAt a.data 0); return .scalar v
    else if a.shape = [] then do let id ← needIdent ident; return .scalar id
    else do
      let ax ← ofRes (reduceAxis a.shape.length axis)
      reductAxis uk ident f k a ax

/-- apl/operators/reduce.go:750-762 `scan`: item 0 is the first element, item `i` the reduction of
`vec[:i+1]`.  `vec[0]` panics for an empty vector. -/
def scanVec (f : α → α → ExceptT Fail m α) (vec : List α) : ExceptT Fail m (List α) :=
  match vec with
  | [] => throw .panic
  | x :: _ => do
    let rest ← forLoopM (fun i => reduceVec f (vec.take (i + 1))) (vec.length - 1) 1
    return x :: rest

/-- apl/operators/reduce.go:327-331: `for k := range vals { idx[axis] = k; res[ic.Index(idx)] = vals[k] }`.
The slice `res` holds nil (`none`) where nothing has been written yet (`NewMixed`). -/
def writeLine (ic : List Nat) (ax : Nat) (idx : List Nat) (res : List (Option α)) (vals : List α) :
    List (Option α) :=
  applySets res ((vals.zipIdx).map (fun p => (icIndex ic (idx.set ax p.2), some p.1)))

/-- A finished result slice; reading a nil left in it panics (nil interface). -/
def noNil (res : List (Option α)) : Res (List α) :=
  res.mapM (fun o => match o with | some v => .ok v | none => .error .panic)

/-- apl/operators/reduce.go:311-336: the loop over the index vectors with the scan axis fixed at 0.
`res` is the result slice filled so far. -/
def scanLoop (f : α → α → ExceptT Fail m α) (a : Arr α) (ic lidx : List Nat) (ax n : Nat) :
    (cnt : Nat) → (idx : List Nat) → (res : List (Option α)) → ExceptT Fail m (List (Option α))
  | 0, _, res => pure res
  | cnt + 1, idx, res => do
    let vec ← ofRes (forLoop (fun k => sliceAt a.data (icIndex ic (idx.set ax k))) n 0)
    let vals ← scanVec f vec
    scanLoop f a ic lidx ax n cnt (incArrayIndex idx lidx) (writeLine ic ax idx res vals)

/-- apl/operators/reduce.go:248-338 `scanfunc` without left argument on a scalar or array. -/
def scanfunc (uk : List α → Kind) (f : α → α → ExceptT Fail m α) (R : Val α) (axis : Int) :
    ExceptT Fail m (Val α) :=
  match R with
  | .scalar x => pure (.scalar x)
  | .empty => pure .empty
  | .bad _ _ => throw .panic
  | .arr _ a =>
    if a.shape = [] then pure .empty
    else do
      let ax ← ofRes (reduceAxis a.shape.length axis)
      let n := a.shape.getD ax 0
      if a.shape.length = 1 then do
        let vec ← ofRes (forLoop (fun i => sliceAt a.data i) n 0)
        let vals ← scanVec f vec
        return .arr (uk vals) ⟨[vals.length], vals⟩
      else do
        let lidx := a.shape.set ax 1
        let (ic, idx) ← ofRes (newIdxConverter a.shape)
        let res ← scanLoop f a ic lidx ax n (prod lidx) idx (List.replicate (prod a.shape) none)
        let d ← ofRes (noNil res)
        return .arr (uk d) ⟨a.shape, d⟩

/-- apl/operators/reduce.go:885-894, the plain window reduction (`reduce` closure):
`r := x[len-1]; for i := len-2..0 { r = f(x[i], r) }`. -/
def windowReduce (f : α → α → ExceptT Fail m α) (x : List α) : ExceptT Fail m α := reduceVec f x

/-- apl/operators/reduce.go:901-931, the running-window closure.  State: the accumulator and the ring
buffer with its position (`none` before the first call). -/
def fastStep (f g : α → α → ExceptT Fail m α) (st : Option (α × List α × Nat)) (x : List α) :
    ExceptT Fail m (α × List α × Nat) :=
  match st with
  | none =>
    match x with
    | [] => throw .panic
    | x0 :: xs => do
      let acc ← xs.foldlM f x0
      return (acc, x, 0)
  | some (acc, window, p) =>
    match x.getLast? with
    | none => throw .panic
    | some xnew => do
      let old ← ofRes (sliceAt window p)
      let acc ← g acc old
      let acc ← f acc xnew
      return (acc, window.set p xnew, if p + 1 = window.length then 0 else p + 1)

/-- apl/operators/reduce.go:934-939 with the running window: `vec[i] = reduce(vec[i:i+n])`.  The
window handed over is read from the unmodified tail of `vec`, as position `i` is written after it
has been read for the last time. -/
def fastLoop (f g : α → α → ExceptT Fail m α) (n : Nat) (vec : List α) :
    (cnt i : Nat) → (st : Option (α × List α × Nat)) → ExceptT Fail m (List α)
  | 0, _, _ => pure []
  | cnt + 1, i, st => do
    let st' ← fastStep f g st ((vec.drop i).take n)
    let rest ← fastLoop f g n vec cnt (i + 1) (some st')
    return st'.1 :: rest

/-- apl/operators/reduce.go:883-941 `applyNwise`: the first `len(vec)-n+1` items of `vec` after the
call.  `g` is the inverse function when `f` is + or ×. -/
def applyNwise (f : α → α → ExceptT Fail m α) (g : Option (α → α → ExceptT Fail m α)) (n : Nat)
    (vec : List α) : ExceptT Fail m (List α) :=
  match g with
  | some g =>
    if n > 3 then fastLoop f g n vec (vec.length + 1 - n) 0 none
    else forLoopM (fun i => windowReduce f ((vec.drop i).take n)) (vec.length + 1 - n) 0
  | none => forLoopM (fun i => windowReduce f ((vec.drop i).take n)) (vec.length + 1 - n) 0

/-- apl/operators/reduce.go:846-878: the loop over all items except the reduction axis. -/
def nwiseLoop (f : α → α → ExceptT Fail m α) (g : Option (α → α → ExceptT Fail m α)) (n : Nat) (neg : Bool)
    (a : Arr α) (ic dc xs : List Nat) (ax axlen : Nat) :
    (cnt : Nat) → (idx : List Nat) → (res : List (Option α)) → ExceptT Fail m (List (Option α))
  | 0, _, res => pure res
  | cnt + 1, idx, res => do
    let vec ← ofRes (forLoop (fun k =>
      sliceAt a.data (icIndex ic (idx.set ax (if neg then axlen - 1 - k else k)))) axlen 0)
    let vals ← applyNwise f g n vec
    let res := applySets res ((vals.zipIdx).map (fun p =>
      (icIndex dc (idx.set ax (if neg then axlen - n - p.2 else p.2)), some p.1)))
    nwiseLoop f g n neg a ic dc xs ax axlen cnt (incArrayIndex idx xs) res

/-- apl/operators/reduce.go:766-881 `nwise`: `n0` is the left argument, `ident` the identity item of
`f` and `g` its inverse if `f` is + or ×.  Line 806: the check `n - rs[axis] > 2` lets
`n = rs[axis]+2` through, whose result axis length is -1. -/
def nwise (uk : List α → Kind) (zero : α) (ident : Option α) (f : α → α → ExceptT Fail m α)
    (g : Option (α → α → ExceptT Fail m α)) (n0 : Int) (R : Val α) (axis : Int) : ExceptT Fail m (Val α) :=
  let n := n0.natAbs
  match R with
  | .scalar _ => throw .err
  | .bad _ _ => throw .panic
  | .empty =>
    if n = 0 then pure (.arr .int ⟨[1], [zero]⟩)
    else if n = 1 then pure .empty
    else throw .err
  | .arr _ a =>
    let axis := if axis = -1 then (a.shape.length : Int) - 1 else axis
    if axis < 0 ∨ (a.shape.length : Int) ≤ axis then throw .err
    else
      let ax := axis.toNat
      let axlen := a.shape.getD ax 0
      let shape : List Int := (a.shape.map Int.ofNat).set ax ((axlen : Int) - ((n : Int) - 1))
      if (n : Int) - axlen > 2 then throw .err
      else if prodI shape < 0 then throw .panic
      else if prodI shape = 0 then pure (mkVal .mixed shape [])
      else if n = 0 then do
        let id ← needIdent ident
        let d := List.replicate (prodI shape).toNat id
        return mkVal (uk d) shape d
      else do
        let xs := a.shape.set ax 1
        let (ic, idx) ← ofRes (newIdxConverter a.shape)
        let (dc, _) ← ofRes (newIdxConverter (shape.map Int.toNat))
        let res ← nwiseLoop f g n (n0 < 0) a ic dc xs ax axlen (prod xs) idx
          (List.replicate (prodI shape).toNat none)
        let d ← ofRes (noNil res)
        return mkVal (uk d) shape d

end Iv
