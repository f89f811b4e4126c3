import Verif.Model.Take
import Verif.Model.Effect
/-
apl/primitives/index.go (arrays) and apl/operators/assign.go `assignValue` (arrays).
-/
namespace Iv
variable {α : Type}

/-- One entry of an index specification after `ToIndexArray` (apl/domain/array.go:191-258): `all` for `EmptyArray` (an
elided axis; also the value of `⍳0`), `ints` for an integer array of any shape (its elements in row-major order: the shape
is not used), `bad` for anything that cannot be converted. -/
inductive AxSpec
  | all
  | ints (l : List Int)
  | bad
deriving Repr, DecidableEq

/-- apl/primitives/index.go:269-292: the positions selected on one axis of length `n`. -/
def axisInts (origin : Int) (n : Nat) : AxSpec → Res (List Nat)
  | .bad => .error .err
  | .all => .ok (List.range n)
  | .ints l => l.mapM (fun i => if i - origin < 0 ∨ (n : Int) ≤ i - origin then .error .err else .ok (i - origin).toNat)

/-- apl/primitives/index.go:262-294 `spec2ints`. -/
def spec2ints (origin : Int) (spec : List AxSpec) (shape : List Nat) : Res (List (List Nat)) :=
  if spec.length ≠ shape.length then .error .err
  else (spec.zip shape).mapM (fun p => axisInts origin p.2 p.1)

/-- apl/primitives/index.go:242-245: the source index for the position `dst` of the selection. -/
def pick (sel : List (List Nat)) (dst : List Nat) : Res (List Nat) :=
  (sel.zip dst).mapM (fun p => sliceAt p.1 p.2)

/-- apl/primitives/index.go:225-258 `indexArray`: the shape of the selection with the axes of length 1 removed, and the flat
positions. -/
def indexArray (origin : Int) (spec : List AxSpec) (shape : List Nat) : Res (List Nat × List Nat) := do
  let sel ← spec2ints origin spec shape
  let dims := sel.map List.length
  let (ic, _) ← newIdxConverter shape
  let d ← odoLoop dims (fun _ dst => do
    let src ← pick sel dst
    return icIndex ic src) (prod dims) 0 (List.replicate dims.length 0)
  return (dims.filter (· ≠ 1), d)

/-- apl/array.go:117-122 `ArrayBounds` followed by `At`: an error outside of the array. -/
def boundsAt (d : List α) (n : Nat) : Res α :=
  match d[n]? with
  | some v => .ok v
  | none => .error .err

/-- apl/primitives/index.go:57-87 `index` on an array `R` (`ToArray`: a scalar is a one-element vector).  `ArrayBounds`
(apl/array.go:117-122) is an error outside of the array.  The result has the representation of `R`. -/
def index (uk : List α → Kind) (origin : Int) (spec : List AxSpec) (R : Val α) : Res (Val α) :=
  match toArrayVal uk R with
  | .arr k a =>
    if spec = [] then .ok (.arr k a)
    else do
      let (dims, ints) ← indexArray origin spec a.shape
      let d ← ints.mapM (boundsAt a.data)
      match dims, d with
      | [], [v] => return .scalar v
      | _, _ => return .arr k ⟨dims, d⟩
  | .empty => if spec = [] then .ok .empty else .error .err  -- rank 0: spec2ints, line 263
  | _ => .error .panic

/-- apl/primitives/index.go:89-109 `indexSelection` for a specification without functions. -/
def indexSelection (origin : Int) (spec : List AxSpec) (a : Arr α) : Res (List Nat × List Int) :=
  if spec = [] then .ok (a.shape, (List.range a.data.length).map Int.ofNat)
  else do
    let (dims, ints) ← indexArray origin spec a.shape
    return (dims, ints.map Int.ofNat)

/-- The `Set` methods (apl/array.go:225-231, 306-321; apl/bool.go:70-79; apl/string.go:87-96;
apl/numbers/floats.go:40-49): `none` is an error.  `fits k v` tells if `v` can be stored in an array of kind `k` (elements are
modelled up to their numeric type: an `IntArray` stores a float with an integer value as that integer).  The bound check of
the boolean, string and float arrays is `i > len`, so `i = len` panics. -/
def setRaw (fits : Kind → α → Bool) (k : Kind) (d : List α) (i : Int) (v : α) : Res (Option (List α)) :=
  if 0 ≤ i ∧ i < d.length then .ok (if k = .mixed ∨ fits k v then some (d.set i.toNat v) else none)
  else if i = d.length ∧ (k = .bool ∨ k = .str ∨ k = .num) ∧ fits k v then .error .panic
  else .ok none

/-- apl/operators/assign.go:172-176, 186-190: `Set`, or convert the array to a mixed one and `Set`. -/
def setElem (fits : Kind → α → Bool) (s : Kind × List α) (i : Int) (v : α) : Res (Kind × List α) := do
  match ← setRaw fits s.1 s.2 i v with
  | some d => return (s.1, d)
  | none =>
    match ← setRaw fits .mixed s.2 i v with
    | some d => return (.mixed, d)
    | none => .error .err

variable {m : Type → Type} [Monad m]

/-- apl/operators/assign.go:165-191 `modAssign`: index -1 is skipped. -/
def modAssign (fits : Kind → α → Bool) (f : Option (α → α → ExceptT Fail m α)) (s : Kind × List α) (i : Int) (v : α) :
    ExceptT Fail m (Kind × List α) :=
  if i = -1 then pure s
  else match f with
    | none => ofRes (setElem fits s i v)
    | some f =>
      if i < 0 ∨ (s.2.length : Int) ≤ i then throw .err
      else do
        let old ← ofRes (sliceAt s.2 i.toNat)
        let v ← f old v
        ofRes (setElem fits s i v)

/-- the loops of apl/operators/assign.go:205-209, 243-250 -/
def assignLoop (fits : Kind → α → Bool) (f : Option (α → α → ExceptT Fail m α)) :
    List (Int × α) → Kind × List α → ExceptT Fail m (Kind × List α)
  | [], s => pure s
  | (i, v) :: ps, s => do
    let s ← modAssign fits f s i v
    assignLoop fits f ps s

/-- apl/operators/assign.go:113-253 `assignValue` with indexes, for an array destination (tables, objects and lists are
modelled elsewhere).  A one-element array `R` counts as a scalar; otherwise the shapes without the axes of length 1 must be
equal. -/
def assignValue (fits : Kind → α → Bool) (f : Option (α → α → ExceptT Fail m α)) (dst : Val α) (idx : List Nat × List Int) (R : Val α) :
    ExceptT Fail m (Val α) :=
  match dst with
  | .arr k a =>
    let go (vs : List α) : ExceptT Fail m (Val α) := do
      let s ← assignLoop fits f (idx.2.zip vs) (k, a.data)
      return .arr s.1 ⟨a.shape, s.2⟩
    match R with
    | .scalar v => go (List.replicate idx.2.length v)
    | .arr _ b =>
      match b.data with
      | [v] => go (List.replicate idx.2.length v)
      | _ =>
        if idx.1.filter (· ≠ 1) ≠ b.shape.filter (· ≠ 1) then throw .err
        else if b.data.length < idx.2.length then throw .err  -- ArrayBounds, line 244 (after the preceding writes)
        else go b.data
    | .empty => throw .err  -- different rank, or ArrayBounds
    | .bad _ _ => throw .panic
  | .scalar _ => throw .err
  | .empty => throw .err
  | .bad _ _ => throw .panic

end Iv
