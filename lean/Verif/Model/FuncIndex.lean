import Verif.Model.Index
/-
The selection of the elements of an array by a function, `A[f]←R` (apl/primitives/index.go:89-109, 296-334).
-/
namespace Iv
variable {α : Type} {m : Type → Type} [Monad m]

/-- What the code distinguishes about the value which the function returns: `EmptyArray`, a value that is no number, a number with
the result of its `ToIndex`. -/
inductive Answer
  | empty
  | noNumber
  | num (n : Option Int)
deriving DecidableEq, Repr

/-- The loop of apl/primitives/index.go:308-332; `vs` are the elements that are left, `i` the number of the next one, `idx` the
index vector, `res` the positions found.  The test `i < 0 && i > 1` of line 324 is never true.  The left argument is a new
vector for each call here (the code reuses one, see Model/Alias.lean for sharing). -/
def funcIndexLoop (origin : Int) (shape : List Nat) (f : List Int → α → ExceptT Fail m Answer) :
    List α → (i : Nat) → (idx : List Nat) → (res : List Nat) → ExceptT Fail m (List Nat)
  | [], _, _, res => pure res
  | v :: vs, i, idx, res => do
    match ← f (idx.map (fun (k : Nat) => origin + (k : Int))) v with
    | .empty => funcIndexLoop origin shape f vs (i + 1) idx res
    | .noNumber => throw .err
    | .num none => throw .err
    | .num (some n) => funcIndexLoop origin shape f vs (i + 1) (incArrayIndex idx shape) (if n = 1 then res ++ [i] else res)

/-- apl/primitives/index.go:301-334 `funcArrayIndex`: the shape (a vector) and the selected positions. -/
def funcArrayIndex (origin : Int) (f : List Int → α → ExceptT Fail m Answer) (a : Arr α) : ExceptT Fail m (List Nat × List Int) := do
  let ps ← funcIndexLoop origin a.shape f a.data 0 (List.replicate a.shape.length 0) []
  return ([ps.length], ps.map Int.ofNat)

end Iv
