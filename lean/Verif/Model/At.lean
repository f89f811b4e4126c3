import Verif.Model.Ops
import Verif.Model.Search
/-
apl/operators/at.go
-/
namespace Iv
variable {m : Type → Type} [Monad m] {α : Type}

/-- The right operand of `@`: a function that returns the mask, or an array of indexes after `ToIndexArray` (`none`: it is rejected). -/
inductive AtSel (m : Type → Type) (α : Type)
  | fn (g : Fn m (Val α))
  | idx (g : Option (Val Int))

/-- The left operand: a function, or an array of replacements. -/
inductive AtVal (m : Type → Type) (α : Type)
  | fn (f : Fn m (Val α))
  | val (v : Val α)

/-- apl/operators/at.go:44-56: the loop over the values returned by `g`; `toBool` is `Number` and `Tower.ToBool` -/
def atBools (toBool : α → Option Bool) : List α → Res (List Bool)
  | [] => .ok []
  | x :: xs =>
    match toBool x with
    | none => .error .err
    | some b => do let bs ← atBools toBool xs; return b :: bs

/-- apl/operators/at.go:36-56: the mask of the value returned by the function `g` -/
def atMaskFn (toBool : α → Option Bool) (size : Nat) : Val α → Res (List Bool)
  | .scalar _ => .error .err
  | v => if v.elems.length ≠ size then .error .err else atBools toBool v.elems

/-- apl/operators/at.go:79-81: `for i := 0; i < n; i++ { mask[off+i] = true }` (`off` advances here) -/
def setRange : (n off : Nat) → List Bool → Res (List Bool)
  | 0, _, mask => .ok mask
  | n + 1, off, mask => if off < mask.length then setRange n (off + 1) (mask.set off true) else .error .panic

/-- apl/operators/at.go:73-82: the loop over the major cells; `n` is the size of one, `n0` the length of the first axis -/
def atMajors (origin : Int) (n n0 : Nat) : List Int → List Bool → Res (List Bool)
  | [], mask => .ok mask
  | g :: gs, mask =>
    let major := g - origin
    if major < 0 ∨ major ≥ (n0 : Int) then .error .err
    else do
      let mask ← setRange n (n * major.toNat) mask
      atMajors origin n n0 gs mask

/-- apl/operators/at.go:58-85: the mask of an index vector, and the shape of the selected sub-array -/
def atMaskIdx (origin : Int) (a : Arr α) (g : Option (Val Int)) : Res (List Bool × List Nat) :=
  let vec (gi : Arr Int) : Res (List Bool × List Nat) :=
    if gi.shape.length ≠ 1 then .error .err
    else
      match a.shape with
      | [] => .error .panic
      | n0 :: tl =>
        if n0 = 0 then .error .panic
        else do
          let mask ← atMajors origin (a.data.length / n0) n0 gi.data (List.replicate a.data.length false)
          return (mask, gi.shape.getD 0 0 :: tl)
  match g with
  | none => .error .err
  | some (.scalar i) => vec ⟨[1], [i]⟩
  | some (.arr _ gi) => vec gi
  | some .empty => .error .panic
  | some (.bad _ _) => .error .panic

/-- apl/operators/at.go:104-113: copy the selected elements to the front of `re` -/
def atFill : List Bool → List α → (n : Nat) → List α → List α
  | true :: ms, x :: xs, n, re => atFill ms xs (n + 1) (re.set n x)
  | false :: ms, _ :: xs, n, re => atFill ms xs n re
  | _, _, _, re => re

/-- apl/operators/at.go:145-155: the result; the next replacement for every marked position -/
def atMerge : List Bool → List α → List α → List α
  | true :: ms, _ :: xs, r :: repl => r :: atMerge ms xs repl
  | false :: ms, x :: xs, repl => x :: atMerge ms xs repl
  | _, _, _ => []

/-- apl/operators/at.go:124-156: the replacements and the result -/
def atFinish (uk : List α → Kind) (a : Arr α) (mask : List Bool) (vr : Val α) : Res (Val α) :=
  let n := mask.count true
  let re := vr.elems
  match re with
  | [x] => let d := atMerge mask a.data (List.replicate n x); .ok (.arr (uk d) ⟨a.shape, d⟩)
  | _ => if re.length ≠ n then .error .err else let d := atMerge mask a.data re; .ok (.arr (uk d) ⟨a.shape, d⟩)

/-- apl/operators/at.go:22-25: the right argument as an array -/
def atArray (uk : List α → Kind) : Val α → Res (Kind × Arr α)
  | .scalar x => .ok (uk [x], ⟨[1], [x]⟩)
  | .empty => .ok (.int, ⟨[], []⟩)
  | .arr k a => .ok (k, a)
  | .bad _ _ => .error .panic

/-- apl/operators/at.go:28-86: the mask, and the shape of the selected sub-array (`nil` if `g` is a function) -/
def atMask (origin : Int) (toBool : α → Option Bool) (k : Kind) (a : Arr α) (g : AtSel m α) : ExceptT Fail m (List Bool × Option (List Nat)) :=
  match g with
  | .fn g => do
    let v ← g none (.arr k a)
    let mask ← ofRes (atMaskFn toBool a.data.length v)
    return (mask, none)
  | .idx g => do
    let r ← ofRes (atMaskIdx origin a g)
    return (r.1, some r.2)

/-- apl/operators/at.go:98-122: the value of the replacements; `fill` is the zero value of the elements that `MakeArray` creates -/
def atRepl (fill : α) (k : Kind) (a : Arr α) (mask : List Bool) (shape : Option (List Nat)) (f : AtVal m α) (L : Option (Val α)) : ExceptT Fail m (Val α) :=
  match f with
  | .val v => pure v
  | .fn f =>
    let shape := shape.getD [mask.count true]
    f L (.arr k ⟨shape, atFill mask a.data 0 (List.replicate (prod shape) fill)⟩)

/-- apl/operators/at.go:19-159 `at` -/
def atOp (uk : List α → Kind) (fill : α) (toBool : α → Option Bool) (origin : Int) (f : AtVal m α) (g : AtSel m α) (L : Option (Val α)) (R : Val α) :
    ExceptT Fail m (Val α) := do
  let a ← ofRes (atArray uk R)
  let r ← atMask origin toBool a.1 a.2 g
  let vr ← atRepl fill a.1 a.2 r.1 r.2 f L
  ofRes (atFinish uk a.2 r.1 vr)

end Iv
