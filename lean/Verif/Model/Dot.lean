import Verif.Model.Reduce
/-
apl/operators/dot.go: inner and outer product.
Not modelled: `Scalarproduct` (lines 37-53) first asks a type for a matrix product of its own
(`scalarProducter`); no type of the repository implements it, so it is `inner` with + and ×.
-/
namespace Iv
variable {m : Type → Type} [Monad m] {α : Type}

/-- apl/operators/dot.go:162-198 `outer`.  Both arguments are converted by `ToArray`
(apl/domain/array.go:22-37); `NewIdxConverter` panics for the shape of `EmptyArray`. -/
def outer (uk : List α → Kind) (g : α → α → ExceptT Fail m α) (L R : Val α) : ExceptT Fail m (Val α) :=
  match toArrayVal uk L, toArrayVal uk R with
  | .arr _ a, .arr _ b => do
    let shape := a.shape ++ b.shape
    let (lc, lidx) ← ofRes (newIdxConverter a.shape)
    let (rc, _) ← ofRes (newIdxConverter b.shape)
    let d ← odoLoopM shape (fun _ dst => do
      let x ← ofRes (sliceAt a.data (icIndex lc (dst.take lidx.length)))
      let y ← ofRes (sliceAt b.data (icIndex rc (dst.drop lidx.length)))
      g x y) (prod shape) 0 (List.replicate shape.length 0)
    return .arr (uk d) ⟨shape, d⟩
  | _, _ => throw .panic

/-- apl/operators/dot.go:103-116 and 136-150: the loop over the inner axis from the last item to the
first.  `rd k` reads the two items, `v` is nil in the first round. -/
def innerLoop (f g : α → α → ExceptT Fail m α) (rd : Nat → Res (α × α)) :
    (k : Nat) → (v : Option α) → ExceptT Fail m (Option α)
  | 0, v => pure v
  | k + 1, v => do
    let p ← ofRes (rd k)
    let u ← g p.1 p.2
    match v with
    | none => innerLoop f g rd k (some u)
    | some v => do
      let w ← f u v
      innerLoop f g rd k (some w)

/-- `v.Copy()` of a value that may be nil (dot.go:117, 151). -/
def copyNil (v : Option α) : ExceptT Fail m α :=
  match v with
  | none => throw .panic
  | some v => pure v

/-- apl/operators/dot.go:86-154: two arrays. -/
def innerArr (uk : List α → Kind) (f g : α → α → ExceptT Fail m α) (a b : Arr α) : ExceptT Fail m (Val α) :=
  if a.shape.length = 0 ∨ b.shape.length = 0 then throw .err
  else
    let r := a.shape.length - 1
    let n := a.shape.getD r 0
    if n ≠ b.shape.headD 0 then throw .err
    else if a.shape.length = 1 ∧ b.shape.length = 1 then do
      let v ← innerLoop f g (fun k => do
        let x ← sliceAt a.data k
        let y ← sliceAt b.data k
        return (x, y)) n none
      let v ← copyNil v
      return .scalar v
    else do
      let shape := a.shape.take r ++ b.shape.tail
      let (ic, _) ← ofRes (newIdxConverter shape)
      let (lic, _) ← ofRes (newIdxConverter a.shape)
      let (ric, _) ← ofRes (newIdxConverter b.shape)
      let d ← forLoopM (fun i => do
        let idx := icIndexes ic i
        let v ← innerLoop f g (fun k => do
          let x ← sliceAt a.data (icIndex lic (idx.take r ++ [k]))
          let y ← sliceAt b.data (icIndex ric (k :: idx.drop r))
          return (x, y)) n none
        copyNil v) (prod shape) 0
      return .arr (uk d) ⟨shape, d⟩

/-- apl/operators/dot.go:55-154 `inner`: a scalar argument is extended to a vector (lines 66-84);
`EmptyArray` is rejected (its shape is nil). -/
def inner (uk : List α → Kind) (f g : α → α → ExceptT Fail m α) (L R : Val α) : ExceptT Fail m (Val α) :=
  match L, R with
  | .scalar x, .scalar y => do let v ← g x y; return .scalar v
  | .scalar x, .arr _ b =>
    match b.shape with
    | [] => throw .panic
    | n :: _ => if n = 0 then throw .err else innerArr uk f g ⟨[n], List.replicate n x⟩ b
  | .arr _ a, .scalar y =>
    match a.shape with
    | [] => throw .panic
    | n :: _ =>
      if n = 0 then throw .err
      else
        let l := a.shape.getD (a.shape.length - 1) 0
        innerArr uk f g a ⟨[l], List.replicate l y⟩
  | .arr _ a, .arr _ b => innerArr uk f g a b
  | .bad _ _, _ => throw .panic
  | _, .bad _ _ => throw .panic
  | _, _ => throw .err

end Iv
