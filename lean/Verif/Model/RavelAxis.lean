import Verif.Model.Catenate
import Verif.Model.Dict
/-
apl/primitives/comma.go:93-183 (ravel with axis), 398-446 (catenate first, table, enlist)
-/
namespace Iv
variable {α A : Type}

/-- The bracket axis of monadic `,`: an index vector after subtracting the index origin (apl/primitives/axis.go:12-35; a scalar index is a
vector of one, `EmptyArray` is the vector without elements), a fractional number given by its floor (zero-based, apl/primitives/axis.go:93-116),
or any other value (not numeric, or an array of higher rank), for which both functions fail or comma.go:103-105 does. -/
inductive RavAxis
  | ints (x : List Int)
  | frac (floor : Int)
  | other
deriving Repr, DecidableEq

/-- apl/primitives/comma.go:127-131: every index is one more than the one before. -/
def contiguous : List Int → Bool
  | x :: y :: xs => x = y - 1 && contiguous (y :: xs)
  | _ => true

/-- apl/primitives/comma.go:113-123: the shape `rs` with a new axis 1 at `x`.  `off` is -1 after position `x`. -/
def insShape (rs : List Nat) (x : Nat) : Res (List Nat) :=
  forLoop (fun i => if i = x then .ok 1 else sliceAt rs (if x < i then i - 1 else i)) (rs.length + 1) 0

/-- apl/primitives/comma.go:160-163: the product of the axis lengths `rs[n]` for the indexes `x`. -/
def mulAxes (rs : List Nat) : List Int → (p : Nat) → Res Nat
  | [], p => .ok p
  | n :: x, p => do
    let k ← sliceAtI rs n
    mulAxes rs x (p * k)

/-- apl/primitives/comma.go:164-177: the shape `rs` with `c` axes starting at `x` replaced by one of length `p`.  `off` is `c-1` after
position `x`. -/
def mergeShape (rs : List Nat) (x c p : Nat) : Res (List Nat) :=
  forLoop (fun i => if i = x then .ok p else sliceAt rs (if x < i then i + (c - 1) else i)) (1 + rs.length - c) 0

/-- The `Reshape` method of the value that a primitive received (apl/array.go:241-252, 262-272, 341-359 …). -/
def reshapeV (zero : α) (R : Val α) (s : List Nat) : Res (Val α) :=
  match R with
  | .empty => reshapeEmpty zero (s.map Int.ofNat)
  | .arr k a => reshapeArr k a.data (s.map Int.ofNat)
  | _ => .error .err

/-- the `Shape` method; `EmptyArray` has none (apl/array.go:260).  Arrays with negative axis lengths are not modelled. -/
def Val.dims : Val α → List Nat
  | .arr _ a => a.shape
  | _ => []

/-- apl/primitives/comma.go:93-183 `ravelWithAxis`.  Lists (they have no `Reshape`), tables and arrays with negative axis lengths are
not modelled. -/
def ravelAxis (zero : α) (uk : List α → Kind) (ax : RavAxis) (R : Val α) : Res (Val α) :=
  match ax with
  | .other => .error .err
  | .frac n => do
    let (n, _) ← splitCatAxis (.scalar zero) R (.frac n)
    match R with
    | .scalar v => return .arr (uk [v]) ⟨[1], [v]⟩
    | R => do
      let s ← insShape R.dims (n + 1).toNat
      reshapeV zero R s
  | .ints x =>
    if contiguous x = false then .error .err
    else match x with
      | [_] => .ok R
      | [] => match R with
        | .scalar v => .ok (.arr (uk [v]) ⟨[1], [v]⟩)
        | R => reshapeV zero R (R.dims ++ [1])
      | x0 :: xs => match R with
        | .scalar _ => .error .err
        | R => do
          let p ← mulAxes R.dims (x0 :: xs) 1
          let s ← mergeShape R.dims x0.toNat (x0 :: xs).length p
          reshapeV zero R s

/-- apl/primitives/comma.go:405-423 `table` (monadic `⍪`): `rs[1:]` and `rs[0]` panic for an array without axes. -/
def tableOf (zero : α) (uk : List α → Kind) (R : Val α) : Res (Val α) :=
  match R with
  | .scalar v => .ok (.arr (uk [v]) ⟨[1, 1], [v]⟩)
  | R => match R.dims with
    | [] => .error .panic
    | n :: ns => reshapeV zero R [n, ns.foldl (· * ·) 1]

/-- apl/primitives/comma.go:398-403 `catenateFirst` (dyadic `⍪`): without axis, the axis is the first one. -/
def catenateFirst (uk : List α → Kind) (ax : CatAxis) (L R : Val α) : Res (Val α) :=
  match ax with
  | .last => catenate uk (.int 0) L R
  | ax => catenate uk ax L R

mutual
/-- apl/primitives/comma.go:432-443: the recursive function of `enlist` on a list -/
def enlistItems : List (NList A) → List A
  | [] => []
  | e :: l => enlistItem e ++ enlistItems l
/-- apl/primitives/comma.go:436-441: what one element adds -/
def enlistItem : NList A → List A
  | .leaf a => [a]
  | .list l => enlistItems l
end

/-- apl/primitives/comma.go:426-446 `enlist`: a value that is not a list gives a list of one element. -/
def enlist : NList A → NList A
  | .leaf a => .list [.leaf a]
  | .list l => .list ((enlistItems l).map .leaf)

end Iv
