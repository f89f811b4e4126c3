import Verif.Model.Reduce
/-
apl/operators/stencil.go: the stencil operator `f⌺RO`.
Simplifications: the entries of RO are not negative; the result is given by its shape and its elements (`UnifyArray`, Model/Unify.lean, does not
change them); R is an array that is not an `EmptyArray`.
-/
namespace Iv
variable {m : Type → Type} [Monad m] {α : Type}

/-- apl/operators/stencil.go:58-65: the default matrix is overwritten by the values of RO, at the position that they have in RO -/
def stencilWrite (is : List Nat) (ro : List Nat) : (n i : Nat) → (idx : List Nat) → (ints : List Nat) → Res (List Nat)
  | 0, _, _, ints => .ok ints
  | n + 1, i, idx, ints =>
    match ro[i]? with
    | none => .error .panic
    | some v =>
      if icIndex (strides is) idx < ints.length then stencilWrite is ro n (i + 1) (incArrayIndex idx is) (ints.set (icIndex (strides is) idx) v)
      else .error .panic

/-- apl/operators/stencil.go:29-79: the shape of the stencil for RO (shape `is`, values `ro`) and an array of rank `rank` -/
def stencilShape (is ro : List Nat) (rank : Nat) : Res (List Nat) :=
  if is.length > 2 then .error .err
  else match is.getLast? with
    | none => .error .panic
    | some n =>
      if n > rank then .error .err
      else
        let is2 := if is.length = 1 then [1, n] else is
        match stencilWrite is2 ro (prod is) 0 (List.replicate is2.length 0) (List.replicate (2 * rank) 1) with
        | .error e => .error e
        | .ok ints => if prod (ints.take rank) = 0 then .error .err else .ok (ints.take rank)

/-- apl/operators/stencil.go:102-114, for one axis: the stencil has length `D`, the array `n`, the element is at `i`, the point of the stencil at
`s`, and the left argument of f is `v` so far.  The result is the position, if it is outside, and the new `v`. -/
def stencilAxis (D n i s : Nat) (v : Int) : Int × Bool × Int :=
  let dst : Int := (i : Int) + s - ((D / 2 : Nat) : Int)
  (dst, decide (dst < 0 ∨ dst ≥ n),
    if dst < 0 ∧ -dst > v then -dst else if dst + 1 - D > 0 ∧ -(dst + 1 - D) < v then -(dst + 1 - D) else v)

/-- apl/operators/stencil.go:101-115: the loop over the axes -/
def stencilPoint : (Ds ns idx sdx : List Nat) → (vec : List Int) → List Int × Bool × List Int
  | D :: Ds, n :: ns, i :: idx, s :: sdx, v :: vec =>
    ((stencilAxis D n i s v).1 :: (stencilPoint Ds ns idx sdx vec).1,
     (stencilAxis D n i s v).2.1 || (stencilPoint Ds ns idx sdx vec).2.1,
     (stencilAxis D n i s v).2.2 :: (stencilPoint Ds ns idx sdx vec).2.2)
  | _, _, _, _, _ => ([], false, [])

/-- apl/operators/stencil.go:116-120: the value for a point -/
def stencilValue (zero : α) (a : Arr α) (p : List Int × Bool × List Int) : Res α :=
  if p.2.1 then .ok zero else sliceAt a.data (icIndex (strides a.shape) (p.1.map Int.toNat))

/-- apl/operators/stencil.go:99-122: the loop over the points of the stencil; the values, the left argument of f and the running index -/
def stencilFill (zero : α) (a : Arr α) (Ds idx : List Nat) : (k : Nat) → (sdx : List Nat) → (vec : List Int) → Res (List α × List Int × List Nat)
  | 0, sdx, vec => .ok ([], vec, sdx)
  | k + 1, sdx, vec => do
    let x ← stencilValue zero a (stencilPoint Ds a.shape idx sdx vec)
    let r ← stencilFill zero a Ds idx k (incArrayIndex sdx Ds) (stencilPoint Ds a.shape idx sdx vec).2.2
    .ok (x :: r.1, r.2)

/-- apl/operators/stencil.go:125-132: f is called, the result must not be an array (`none`) -/
def stencilCall (f : List Int → Arr α → ExceptT Fail m (Option α)) (vec : List Int) (w : Arr α) : ExceptT Fail m α := do
  match ← f vec w with
  | none => throw .err
  | some x => pure x

/-- apl/operators/stencil.go:91-136: the loop over the elements of R; the running index of the stencil is kept -/
def stencilLoop (zero : α) (f : List Int → Arr α → ExceptT Fail m (Option α)) (a : Arr α) (Ds : List Nat) : (n i : Nat) → (sdx : List Nat) → ExceptT Fail m (List α)
  | 0, _, _ => pure []
  | n + 1, i, sdx => do
    let r ← ofRes (stencilFill zero a Ds (icIndexes (strides a.shape) i) (prod Ds) sdx (List.replicate a.shape.length 0))
    let x ← stencilCall f r.2.1 ⟨Ds, r.1⟩
    let xs ← stencilLoop zero f a Ds n (i + 1) r.2.2
    pure (x :: xs)

/-- apl/operators/stencil.go:20-136 `stencil`: the derived function, called monadically -/
def stencil (zero : α) (f : List Int → Arr α → ExceptT Fail m (Option α)) (is ro : List Nat) (a : Arr α) : ExceptT Fail m (Arr α) := do
  let Ds ← ofRes (stencilShape is ro a.shape.length)
  let xs ← stencilLoop zero f a Ds (prod a.shape) 0 (List.replicate Ds.length 0)
  pure ⟨a.shape, xs⟩

end Iv
