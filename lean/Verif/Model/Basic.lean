import Verif.Spec
/-
Errors, array access.
-/
namespace Iv

/- Failures (`Fail`, see Spec.lean): `Apl.Eval` (apl/eval.go:16-21) turns a panic of the evaluated
program into an error, so both an error return and a panic end an evaluation. -/

/-- Result of a Go function returning `(value, error)`. -/
abbrev Res (α : Type) := Except Fail α

instance {α} [DecidableEq α] : DecidableEq (Res α) := fun a b =>
  match a, b with
  | .ok x, .ok y => if h : x = y then isTrue (by rw [h]) else isFalse (by intro e; cases e; exact h rfl)
  | .error x, .error y => if h : x = y then isTrue (by rw [h]) else isFalse (by intro e; cases e; exact h rfl)
  | .ok _, .error _ => isFalse (by intro e; cases e)
  | .error _, .ok _ => isFalse (by intro e; cases e)

/-- Go slice read `s[i]`: panics outside the slice.
Models the element access of every `At` method (apl/array.go:221-223, 290-292;
apl/bool.go:54-56; apl/string.go:71-73). -/
def sliceAt {α} (s : List α) (i : Nat) : Res α :=
  match s[i]? with
  | some x => .ok x
  | none => .error .panic

/-- Go slice read with a signed index. -/
def sliceAtI {α} (s : List α) (i : Int) : Res α :=
  if i < 0 then .error .panic else sliceAt s i.toNat

end Iv
