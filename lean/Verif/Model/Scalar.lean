import Verif.Model.Value
/-
apl/primitives/array.go: scalar functions on arrays.  The elementary function (`arith1`/`arith2` of
apl/primitives/elementary.go applied to two elements) is a parameter `f`; it may fail.
`uk` is the representation chosen by `Unify` for a finished result (elements unchanged).
-/
namespace Iv

variable {α : Type}

/-- `Size()` of an array value (apl/array.go:237-239, 298-300, 261: number of stored elements). -/
def vsize : Val α → Nat
  | .scalar _ => 1
  | .empty => 0
  | .arr _ a => a.data.length
  | .bad _ d => d.length

/-- apl/primitives/array.go:46-56: `for i := range lshape { if lshape[i] != rshape[i] { break }; if i ==
len(lshape)-1 { same } }`; false for rank 0. -/
def sameShapeLoop : List Nat → List Nat → Bool
  | [], _ => false
  | _ :: _, [] => false
  | [x], y :: _ => x == y
  | x :: x' :: xs, y :: ys => if x ≠ y then false else sameShapeLoop (x' :: xs) ys

/-- apl/primitives/array.go:21-71 `arrays.To`: `none` when the domain rejects. -/
def arraysTo (L R : Val α) : Option (Val α × Val α) :=
  match L, R with
  | .scalar _, .scalar _ => none
  | .scalar x, r => some (.scalar x, r)
  | l, .scalar y => some (l, .scalar y)
  | l, r =>
    if vsize l = 0 then some (.empty, r)
    else if vsize r = 0 then some (l, .empty)
    else
      match l, r with
      | .arr k a, .arr k' b =>
        if a.shape.length = b.shape.length ∧ sameShapeLoop a.shape b.shape then some (.arr k a, .arr k' b)
        else if a.data.length = 1 then
          match sliceAt a.data 0 with
          | .ok x => some (.scalar x, .arr k' b)
          | .error _ => none
        else if b.data.length = 1 then
          match sliceAt b.data 0 with
          | .ok y => some (.arr k a, .scalar y)
          | .error _ => none
        else none
      | _, _ => none

/-- apl/primitives/array.go:145-197 `array2`: `res := NewMixed(shape)`, and for every position the
elementary function on the elements (a scalar side is used at every position). -/
def array2 (uk : List α → Kind) (f : α → α → Res α) (L R : Val α) : Res (Val α) :=
  match L, R with
  | .empty, _ => .ok .empty
  | _, .empty => .ok .empty
  | .scalar x, .arr _ b => do
    let d ← forLoop (fun i => do let y ← sliceAt b.data i; f x y) (prod b.shape) 0
    return .arr (uk d) ⟨b.shape, d⟩
  | .arr _ a, .scalar y => do
    let d ← forLoop (fun i => do let x ← sliceAt a.data i; f x y) (prod a.shape) 0
    return .arr (uk d) ⟨a.shape, d⟩
  | .arr _ a, .arr _ b => do
    let d ← forLoop (fun i => do let x ← sliceAt a.data i; let y ← sliceAt b.data i; f x y) (prod a.shape) 0
    return .arr (uk d) ⟨a.shape, d⟩
  | _, _ => .error .panic

/-- Dispatch of a dyadic scalar function (apl/primitives/elementary.go:60-71): two scalars go to the
elementary function, otherwise the `arrays` domain; no other registration accepts plain arrays without
an axis. -/
def scalarDyadic (uk : List α → Kind) (f : α → α → Res α) (L R : Val α) : Res (Val α) :=
  match L, R with
  | .scalar x, .scalar y => do let v ← f x y; return .scalar v
  | L, R =>
    match arraysTo L R with
    | some (L, R) => array2 uk f L R
    | none => .error .err

/-- apl/primitives/array.go:113-140 `array1` and `arith1` by the monadic registrations
(apl/primitives/elementary.go:36-47).  `EmptyArray` goes through `NewMixed` of an empty shape (no
elements); `Unify` leaves it a rank-0 array. -/
def scalarMonadic (uk : List α → Kind) (f : α → Res α) : Val α → Res (Val α)
  | .scalar x => do let v ← f x; return .scalar v
  | .empty => .ok (.arr .mixed ⟨[], []⟩)
  | .bad _ _ => .error .panic
  | .arr _ a => do
    let d ← forLoop (fun i => do let x ← sliceAt a.data i; f x) (prod a.shape) 0
    return .arr (uk d) ⟨a.shape, d⟩

/-- Insertion into a sorted list. -/
def sortInsert (x : Int) : List Int → List Int
  | [] => [x]
  | y :: ys => if x ≤ y then x :: y :: ys else y :: sortInsert x ys

/-- Go's `sort.Ints`: the ascending permutation of the argument (which is unique). -/
def sortInts : List Int → List Int
  | [] => []
  | x :: xs => sortInsert x (sortInts xs)

/-- apl/primitives/array.go:236-247: the checks of the (sorted, origin adjusted) axes. -/
def axisCheck (ls rs : List Nat) : (i : Nat) → (prev : Option Int) → List Int → Bool
  | _, _, [] => true
  | i, prev, n :: x =>
    if n < 0 ∨ n ≥ (ls.length : Int) then false
    else if prev = some n then false
    else if ls.getD n.toNat 0 ≠ rs.getD i 0 then false
    else axisCheck ls rs (i + 1) (some n) x

/-- apl/primitives/array.go:254-260: `rightShape`, all ones with `rs[i]` at axis `x[i]`. -/
def rightShape (rank : Nat) (rs : List Nat) (x : List Int) : List Nat :=
  (x.zip rs).foldl (fun s p => s.set p.1.toNat p.2) (List.replicate rank 1)

/-- apl/primitives/array.go:269-275: `copy(rdx, idx)`, then components outside `rightShape` become 0. -/
def clampIdx (rsh idx : List Nat) : List Nat :=
  (idx.zip rsh).map (fun p => if p.1 ≥ p.2 then 0 else p.1)

/-- apl/primitives/array.go:266-299: the loop over the higher rank argument `a`. -/
def arrayAxisLoop (f : α → α → Res α) (flip : Bool) (a b : Arr α) (rsh ic : List Nat) : Res (List α) :=
  odoLoop a.shape (fun i idx => do
    let lv ← sliceAt a.data i
    let rv ← sliceAt b.data (icIndex ic (clampIdx rsh idx))
    if flip then f rv lv else f lv rv) (prod a.shape) 0 (List.replicate a.shape.length 0)

/-- apl/primitives/array.go:200-309 `arrayAxis` on concrete arrays: the argument of lower rank is
spread along the axes `X` (sorted, origin adjusted). -/
def arrayAxis (uk : List α → Kind) (f : α → α → Res α) (origin : Int) (X : List Int) (l r : Arr α) : Res (Val α) :=
  let flip : Bool := l.shape.length < r.shape.length
  let a := if flip then r else l
  let b := if flip then l else r
  let x := (sortInts X).map (· - origin)
  if b.shape.length ≠ x.length then .error .err
  else if axisCheck a.shape b.shape 0 none x = false then .error .err
  else do
    let rsh := rightShape a.shape.length b.shape x
    let (ic, _) ← newIdxConverter rsh
    let d ← arrayAxisLoop f flip a b rsh ic
    return .arr (uk d) ⟨a.shape, d⟩

end Iv
