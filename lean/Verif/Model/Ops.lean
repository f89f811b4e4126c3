import Verif.Model.Reduce
import Verif.Model.Scalar
/-
apl/operators/each.go, power.go, commute.go, jot.go and apl/train.go.
Not modelled: channels as arguments (Model/Channel.lean).
-/
namespace Iv
variable {m : Type → Type} [Monad m] {α V : Type}

/-- apl/primitive.go, `Function.Call(a, L, R)`: `L` is nil (`none`) for a monadic call. -/
abbrev Fn (m : Type → Type) (V : Type) := Option V → V → ExceptT Fail m V

/-- apl/operators/each.go:55-62, 160-167: call f, the result must not be an array. -/
def eachCall (f : Fn m (Val α)) (L : Option (Val α)) (R : Val α) : ExceptT Fail m α := do
  let v ← f L R
  match v with
  | .scalar y => pure y
  | _ => throw .err

/-- apl/operators/each.go:36-67 `each1` on a scalar or array. -/
def each1 (uk : List α → Kind) (f : Fn m (Val α)) (R : Val α) : ExceptT Fail m (Val α) :=
  match R with
  | .scalar x => f none (.scalar x)
  | .empty => pure .empty
  | .bad _ _ => throw .panic
  | .arr _ a =>
    if a.data.length = 0 then pure .empty
    else do
      let d ← forLoopM (fun i => do
        let x ← ofRes (sliceAt a.data i)
        eachCall f none (.scalar x)) (prod a.shape) 0
      return .arr (uk d) ⟨a.shape, d⟩

/-- apl/operators/each.go:72-82 `eachList`. -/
def eachList (f : Fn m V) (l : List V) : ExceptT Fail m (List V) :=
  forLoopM (fun i => do let x ← ofRes (sliceAt l i); f none x) l.length 0

/-- apl/operators/each.go:115-188 `each2` on scalars and arrays. -/
def each2 (uk : List α → Kind) (f : Fn m (Val α)) (L R : Val α) : ExceptT Fail m (Val α) :=
  match L, R with
  | .scalar x, .scalar y => f (some (.scalar x)) (.scalar y)
  | .scalar x, .arr _ b =>
    if b.data.length = 0 then pure .empty
    else do
      let d ← forLoopM (fun i => do
        let y ← ofRes (sliceAt b.data i)
        eachCall f (some (.scalar x)) (.scalar y)) (prod b.shape) 0
      return .arr (uk d) ⟨b.shape, d⟩
  | .arr _ a, .scalar y =>
    if a.data.length = 0 then pure .empty
    else do
      let d ← forLoopM (fun i => do
        let x ← ofRes (sliceAt a.data i)
        eachCall f (some (.scalar x)) (.scalar y)) (prod a.shape) 0
      return .arr (uk d) ⟨a.shape, d⟩
  | .arr _ a, .arr _ b =>
    if b.data.length = 0 then pure .empty
    else if a.data.length = 0 then pure .empty
    else if a.shape.length ≠ b.shape.length then throw .err
    else if a.shape ≠ b.shape then throw .err
    else do
      let d ← forLoopM (fun i => do
        let y ← ofRes (sliceAt b.data i)
        let x ← ofRes (sliceAt a.data i)
        eachCall f (some (.scalar x)) (.scalar y)) (prod b.shape) 0
      return .arr (uk d) ⟨b.shape, d⟩
  | .bad _ _, _ => throw .panic
  | _, .bad _ _ => throw .panic
  | _, _ => pure .empty

/-- apl/operators/each.go:190-220 `eachList2`; an argument that is not a list is passed to every call
(`Sum.inr`).  `size` is only taken from L (lines 175-178). -/
def eachList2 (f : Fn m V) (L R : List V ⊕ V) : ExceptT Fail m (List V) :=
  let size := match L with | .inl l => l.length | .inr _ => 0
  let bad := match R with | .inl r => decide (r.length ≠ size) | .inr _ => false
  if bad then throw .err
  else forLoopM (fun i => do
    let x ← match L with | .inl l => ofRes (sliceAt l i) | .inr v => pure v
    let y ← match R with | .inl r => ofRes (sliceAt r i) | .inr v => pure v
    f (some x) y) size 0

/-- apl/operators/power.go:42-49: `for i := 0; i < n; i++ { v, err = f.Call(a, L, v) ... }`. -/
def powerLoop (f : Fn m V) (L : Option V) : Nat → V → ExceptT Fail m V
  | 0, v => pure v
  | n + 1, v => do
    let v ← f L v
    powerLoop f L n v

/-- apl/operators/power.go:27-49: the right operand is an integer. -/
def powerInt (f : Fn m V) (n : Int) (L : Option V) (R : V) : ExceptT Fail m V :=
  if n < 0 then throw .err
  else if n = 0 then pure R
  else powerLoop f L n.toNat R

/-- apl/operators/power.go:50-80: the right operand is a function.  `left` is the number of rounds before
`m > powerlimit` holds; `toInt` is the conversion `ToIndex` of the result of g. -/
def powerFnLoop (toInt : V → Option Int) (f g : Fn m V) (L : Option V) : (left : Nat) → V → ExceptT Fail m V
  | 0, _ => throw .err
  | left + 1, r => do
    let fR ← f L r
    let v ← g (some fR) r
    match toInt v with
    | none => throw .err
    | some n => if n = 1 then pure fR else powerFnLoop toInt f g L left fR

/-- apl/operators/power.go:20, 54-57: the limit is tested as `m > powerlimit` with m starting at 0: 1001 rounds. -/
def powerFn (toInt : V → Option Int) (f g : Fn m V) (L : Option V) (R : V) : ExceptT Fail m V :=
  powerFnLoop toInt f g L (1000 + 1) R

/-- apl/operators/commute.go:17-26 `commute`. -/
def commute (f : Fn m V) : Fn m V := fun L R =>
  let L := match L with | none => R | some l => l
  f (some R) L

/-- An operand: a function or another value. -/
inductive Opd (m : Type → Type) (V : Type) where
  | fn (f : Fn m V)
  | val (v : V)

/-- apl/operators/jot.go:19-51 `compose`, the four forms. -/
def compose (f g : Opd m V) : Fn m V := fun L R =>
  match L with
  | none =>
    match f, g with
    | .fn f, .fn g => do
      let v ← g none R
      f none v
    | .val a, .fn g => g (some a) R
    | .fn f, .val x => f (some R) x
    | _, _ => throw .err
  | some l =>
    match f, g with
    | .fn f, .fn g => do
      let v ← g none R
      f (some l) v
    | _, _ => throw .err

/-- apl/train.go:74-90 `atop.Call`. -/
def atopCall (g h : Opd m V) : Fn m V := fun L R =>
  match g, h with
  | .fn g, .fn h => do
    let v ← h L R
    g none v
  | _, _ => throw .err

/-- apl/train.go:98-125 `fork.Call`. -/
def forkCall (f g h : Opd m V) : Fn m V := fun L R =>
  match g, h with
  | .fn g, .fn h => do
    let l ← match f with
      | .fn f => f L R
      | .val v => pure v
    let r ← h L R
    g (some l) r
  | _, _ => throw .err

/-- apl/train.go:26-66 `train.Call`.  The items are taken as evaluated (`e.Eval` of a function returns the
function itself). -/
def trainCall : List (Opd m V) → Fn m V
  | [] => fun _ _ => throw .err
  | [_] => fun _ _ => throw .err
  | [g, h] => atopCall g h
  | [f, g, h] => forkCall f g h
  | f :: g :: rest =>
    if (rest.length + 2) % 2 = 0 then atopCall f (.fn (trainCall (g :: rest)))
    else forkCall f g (.fn (trainCall rest))

end Iv
