import Verif.Model.Scalar
import Verif.Model.Tower
import Verif.Model.Replicate
/-
apl/primitives/iota.go, unique.go and `without` of boolean.go.
`eq x y` is the function `isEqual` (iota.go:230-252; modelled for numbers by `Tower.isEqual`).  It panics in Go
for values of types that `==` cannot compare (lists, dictionaries); such elements are not modelled.
-/
namespace Iv
variable {α : Type}

/-- apl/domain/array.go:52-54, 66-113 `ToVector`: the vector of a scalar, of a vector, of an array with at most
one axis longer than 1; `EmptyArray` for an array without elements; `none`: the domain rejects.
`uk` is the representation picked by `UnifyArray`. -/
def toVectorVal (uk : List α → Kind) : Val α → Option (Val α)
  | .scalar x => some (.arr .mixed ⟨[1], [x]⟩)
  | .empty => some .empty
  | .bad _ _ => none
  | .arr k a =>
    if a.shape.length = 1 then some (.arr k a)
    else if a.data.length = 0 then some .empty
    else if a.shape.foldl max 0 = a.data.length then some (.arr (uk a.data) ⟨[a.data.length], a.data⟩)
    else none

/-- The elements of a vector given to a primitive (`At(i)` for `i < Size()`). -/
def Val.elems : Val α → List α
  | .scalar x => [x]
  | .empty => []
  | .arr _ a => a.data
  | .bad _ d => d

/-- apl/primitives/iota.go:43-60 `interval`; the domain gives an integer `n`. -/
def interval (origin : Int) (n : Int) : Res (Val Int) :=
  if n < 0 then .error .err
  else if n = 0 then .ok .empty
  else do
    let d ← forLoop (fun i => .ok (origin + i)) n.toNat 0
    return .arr .int ⟨[n.toNat], d⟩

/-- apl/primitives/iota.go:74-81: the closure `index`: the loop over the values of `L` from position `i`
on; `isEqual(a, x, vals[i])`. -/
def firstIndex (eq : α → α → Bool) (x : α) : List α → (i : Nat) → Option Nat
  | [], _ => none
  | v :: vs, i => if eq x v then some i else firstIndex eq x vs (i + 1)

/-- apl/primitives/iota.go:67-68, 74-81: the result of the closure `index`. -/
def indexIn (eq : α → α → Bool) (origin : Int) (vals : List α) (x : α) : Int :=
  match firstIndex eq x vals 0 with
  | some i => (i : Int) + origin
  | none => (vals.length : Int) + origin

/-- apl/primitives/iota.go:63-91 `indexof` with the domain of line 22 (`L` by ToVector, `R` by ToArray). -/
def indexof (uk : List α → Kind) (eq : α → α → Bool) (origin : Int) (L R : Val α) : Res (Val Int) :=
  match toVectorVal uk L, toArrayVal uk R with
  | some l, .arr _ r => do
    let vals := l.elems
    let d ← forLoop (fun i => do let x ← sliceAt r.data i; return indexIn eq origin vals x) r.data.length 0
    return .arr .int ⟨r.shape, d⟩
  | some _, .empty => .ok (.arr .int ⟨[], []⟩)
  | _, _ => .error .err

/-- The loop `for i := 0; i < n; i++ { if test(ar.At(i)) { ok = true; break } }` of iota.go:106-111 and
120-126. -/
def anyLoop (p : α → Bool) : List α → Bool
  | [] => false
  | r :: rs => if p r then true else anyLoop p rs

/-- apl/primitives/iota.go:94-133 `membership`: argument order of `isEqual` as in lines 107 and 122. -/
def membership (eq : α → α → Bool) (L R : Val α) : Val Bool :=
  let ar := R.elems
  match L with
  | .scalar x => .scalar (anyLoop (fun r => eq r x) ar)
  | .empty => .arr .bool ⟨[], []⟩
  | .arr _ a => .arr .bool ⟨a.shape, a.data.map (fun l => anyLoop (fun r => eq l r) ar)⟩
  | .bad _ d => .arr .bool ⟨[], d.map (fun l => anyLoop (fun r => eq l r) ar)⟩

/-- apl/domain/array.go:125-127, 138-162 `ToBoolArray` on an integer (or boolean) scalar or array; `none`: rejected.
A Go conversion `iav.(apl.IntArray)` of an `EmptyArray` panics. -/
def toBoolArray (R : Val Int) : Res (Option (Arr Bool)) :=
  let conv (a : Arr Int) : Option (Arr Bool) :=
    if a.data.all (fun n => 0 ≤ n ∧ n ≤ 1) then some ⟨a.shape, a.data.map (fun n => decide (n = 1))⟩ else none
  match R with
  | .scalar n => .ok (conv ⟨[1], [n]⟩)
  | .empty => .error .panic
  | .bad _ _ => .error .panic
  | .arr k a => if a.data.length = 0 ∧ k ≠ .int ∧ k ≠ .bool then .error .panic else .ok (conv a)

/-- apl/primitives/iota.go:152-161: the filling loop of `where` from position `i` on. -/
def whereLoop (origin : Int) : List Bool → (i : Nat) → List Int
  | [], _ => []
  | v :: vs, i => if v then ((i : Int) + origin) :: whereLoop origin vs (i + 1) else whereLoop origin vs (i + 1)

/-- apl/primitives/iota.go:138-163 `where` on a boolean array. -/
def whereArr (origin : Int) (a : Arr Bool) : Res (Val Int) :=
  if a.data.length = 0 then .ok .empty
  else if a.shape.length ≠ 1 then .error .err
  else .ok (.arr .int ⟨[(a.data.filter id).length], whereLoop origin a.data 0⟩)

/-- `⍸R`: domain and function. -/
def where' (origin : Int) (R : Val Int) : Res (Val Int) := do
  match ← toBoolArray R with
  | none => .error .err
  | some b => whereArr origin b

/-- apl/primitives/unique.go:31-46 (and 62-76 `appendvec`): append the elements that are not equal to any
value collected so far (`isEqual(a, v, values[k])`). -/
def appendUnique (eq : α → α → Bool) (values : List α) : List α → List α
  | [] => values
  | v :: vs => appendUnique eq (if anyLoop (fun w => eq v w) values then values else values ++ [v]) vs

/-- apl/primitives/unique.go:27-45 `unique` with the domain ToVector. -/
def unique (uk : List α → Kind) (eq : α → α → Bool) (R : Val α) : Res (Val α) :=
  match toVectorVal uk R with
  | none => .error .err
  | some r => let v := appendUnique eq [] r.elems; .ok (.arr (uk v) ⟨[v.length], v⟩)

/-- apl/primitives/unique.go:48-82 `union`. -/
def union (uk : List α → Kind) (eq : α → α → Bool) (L R : Val α) : Res (Val α) :=
  match toVectorVal uk L, toVectorVal uk R with
  | some .empty, some r => .ok r
  | some l, some .empty => .ok l
  | some l, some r =>
    let v := appendUnique eq (appendUnique eq [] l.elems) r.elems
    .ok (.arr (uk v) ⟨[v.length], v⟩)
  | _, _ => .error .err

/-- apl/primitives/boolean.go:98-127 `without`: `(~L∊R)/L`.  `~` on booleans is negation (`logicalNot`) and
`ToIndexArray` gives 0 or 1; for a vector without elements it gives an `EmptyArray`, on which `Replicate`
panics. -/
def without (uk : List α → Kind) (zero : α) (eq : α → α → Bool) (L R : Val α) : Res (Val α) :=
  match toVectorVal uk L, toVectorVal uk R with
  | some l, some .empty => .ok l
  | some .empty, some _ => .ok .empty
  | some (.arr k a), some r =>
    match membership eq (.arr k a) r with
    | .arr _ b =>
      if b.data.length = 0 then .error .panic
      else replicateVal uk zero (b.data.map (fun x => bool2int (!x))) (.arr k a) 0
    | _ => .error .panic
  | _, _ => .error .err

/-- apl/primitives/iota.go:230-252 `isEqual` on two numbers.  `eqs c` is the `Equals` method of class `c`
(`none`: second result false), or Go's `==` for types without one; Go `==` on two numbers of the same type
(line 231) is the parameter `same`. -/
def Tower.isEqual {V : Type} (t : Tower V) (same : TNum V → TNum V → Bool) (eqs : Nat → V → V → Option Bool) (x y : TNum V) : Bool :=
  if same x y then true
  else match t.sameType x y with
    | .ok (.num c v, .num _ w) => (eqs c v w).getD false
    | .ok (.int a, .int b) => decide (a = b)
    | .ok (.bool a, .bool b) => decide (a = b)
    | _ => false

end Iv
