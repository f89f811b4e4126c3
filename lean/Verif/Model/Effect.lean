import Verif.Model.Value
/-
Calls of user functions.  A user supplied function may have effects and may fail: it is modelled as
a function into `ExceptT Fail m` for an arbitrary monad `m` (e.g. a state monad over the
interpreter state, so that the number and order of calls is visible).
The `.Copy()` calls of the Go code are identities here.
-/
namespace Iv

/-- A pure step of the model (array access, shape check) inside an effectful computation. -/
def ofRes {m : Type → Type} [Monad m] {α} (r : Res α) : ExceptT Fail m α := ExceptT.mk (pure r)

/-- The odometer loop `for i := range res { res[i] = body(i, idx); apl.IncArrayIndex(idx, shape) }`
with an effectful body (see `odoLoop`). -/
def odoLoopM {M : Type → Type} [Monad M] {β} (shape : List Nat) (body : Nat → List Nat → M β) :
    (n i : Nat) → (idx : List Nat) → M (List β)
  | 0, _, _ => pure []
  | n + 1, i, idx => do
    let x ← body i idx
    let xs ← odoLoopM shape body n (i + 1) (incArrayIndex idx shape)
    return x :: xs

/-- A plain counting loop `for i := i0; i < i0+n; i++ { res[i] = body(i) }` with an effectful body. -/
def forLoopM {M : Type → Type} [Monad M] {β} (body : Nat → M β) : (n i : Nat) → M (List β)
  | 0, _ => pure []
  | n + 1, i => do
    let x ← body i
    let xs ← forLoopM body n (i + 1)
    return x :: xs

end Iv
