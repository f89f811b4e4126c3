/-
Small, model-independent specification vocabulary for arrays.
Nothing in this file mirrors a Go function: it says what an array *is* to a user.
-/
namespace Iv

/-- Number of elements of an array of the given axis lengths (mathematical convention: rank 0 has one). -/
def size : List Nat → Nat
  | [] => 1
  | n :: ns => n * size ns

/-- `idx` is an index vector inside `shape`: same rank and every component below its axis length. -/
def InB : List Nat → List Nat → Prop
  | [], [] => True
  | n :: ns, i :: is => i < n ∧ InB ns is
  | _, _ => False

/-- Row-major position of an index vector (last axis varies fastest). -/
def flat : List Nat → List Nat → Nat
  | _ :: ns, i :: is => i * size ns + flat ns is
  | _, _ => 0

/-- Inverse of `flat`: index vector of the `k`-th element in row-major order. -/
def unflat : List Nat → Nat → List Nat
  | [], _ => []
  | _ :: ns, k => k / size ns :: unflat ns (k % size ns)

/-- A (rectangular) array: axis lengths and the elements in row-major order. -/
structure Arr (α : Type) where
  shape : List Nat
  data : List α
deriving Repr, DecidableEq

/-- The array holds exactly as many elements as its shape says. -/
def Arr.WF {α} (a : Arr α) : Prop := a.data.length = size a.shape

instance : (s i : List Nat) → Decidable (InB s i)
  | [], [] => isTrue trivial
  | n :: ns, i :: is =>
      have : Decidable (InB ns is) := instDecidableInB ns is
      inferInstanceAs (Decidable (i < n ∧ InB ns is))
  | [], _ :: _ => isFalse (fun h => h)
  | _ :: _, [] => isFalse (fun h => h)

/-- Element at an index vector; `none` outside the array. -/
def Arr.get? {α} (a : Arr α) (idx : List Nat) : Option α :=
  if InB a.shape idx then a.data[flat a.shape idx]? else none

instance {α} (a : Arr α) : Decidable a.WF := inferInstanceAs (Decidable (_ = _))

/-- Order in which axes receive the items of a count vector: the explicitly given axes first, then
the remaining axes ascending. -/
def axisOrder (rank : Nat) (x : List Int) : List Nat :=
  x.map Int.toNat ++ (List.range rank).filter (fun (k : Nat) => ¬ x.contains (k : Int))

/-- All index vectors of a shape in row-major order. -/
def allIdx : List Nat → List (List Nat)
  | [] => [[]]
  | n :: ns => (List.range n).flatMap (fun i => (allIdx ns).map (i :: ·))

/-- The vector of elements of `a` along axis `k`, the other index components being `idx`. -/
def Arr.line {α} (a : Arr α) (k : Nat) (idx : List Nat) : List α :=
  (List.range (a.shape.getD k 0)).filterMap (fun i => a.get? (idx.insertIdx k i))

/-- How a call can fail: an error return, or a run-time panic (index out of range, failed type
assertion, negative `make`), which the interpreter also reports as an error. -/
inductive Fail | err | panic
deriving Repr, DecidableEq

/-- Right-to-left fold of a function with effects and failures (in any monad `m`):
`x1 f (x2 f (… f xn))`.  There is no fold of an empty vector. -/
def rfold {m : Type → Type} [Monad m] {α} (f : α → α → ExceptT Fail m α) : List α → ExceptT Fail m α
  | [] => throw .panic
  | [x] => pure x
  | x :: y :: ys => do
    let v ← rfold f (y :: ys)
    f x v

/-- All prefix folds of a vector, computed from the shortest to the longest prefix. -/
def prefixFolds {m : Type → Type} [Monad m] {α} (f : α → α → ExceptT Fail m α) (v : List α) :
    ExceptT Fail m (List α) :=
  (List.range v.length).mapM (fun i => rfold f (v.take (i + 1)))

/-- The `i`-th window of `n` consecutive items. -/
def window {α} (v : List α) (n i : Nat) : List α := (v.drop i).take n

/-- The array of shape `s` whose vectors along axis `k` are the given rows, listed in row-major order
of the remaining axes. -/
def Arr.ofLines {α} (s : List Nat) (k : Nat) (rows : List (List α)) : Arr α :=
  ⟨s, (allIdx s).filterMap (fun idx =>
    (rows[flat (s.eraseIdx k) (idx.eraseIdx k)]?).bind (fun r => r[idx.getD k 0]?))⟩

/-- Specification: `x1 g y1 f (x2 g y2 f (… xn g yn))`, evaluated from the last pair to the first. -/
def ifold {m : Type → Type} [Monad m] {α} (f g : α → α → ExceptT Fail m α) : List (α × α) → ExceptT Fail m α
  | [] => throw .panic
  | [p] => g p.1 p.2
  | p :: q :: ps => do
    let v ← ifold f g (q :: ps)
    let u ← g p.1 p.2
    f u v

/-- The cell of an array at an index vector of its leading axes: the subarray of the remaining axes. -/
def Arr.cell {α} (a : Arr α) (fi : List Nat) : Arr α :=
  ⟨a.shape.drop fi.length, (allIdx (a.shape.drop fi.length)).filterMap (fun j => a.get? (fi ++ j))⟩

end Iv
