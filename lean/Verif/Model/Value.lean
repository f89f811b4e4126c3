import Verif.Model.Shape
/-
Values and arrays as seen by the structural primitives, generic in the element type `α`.
-/
namespace Iv

/-- Concrete array representation.  apl/array.go:204-207 (MixedArray), 275-278 (IntArray),
apl/bool.go:39-42 (BoolArray), apl/string.go:56-59 (StringArray),
apl/numbers/floats.go:10-13 and the other uniform types of the numeric tower (`num`). -/
inductive Kind | mixed | int | bool | str | num
deriving Repr, DecidableEq

/-- A value: a scalar, the special `EmptyArray` (apl/array.go:254-272), or a concrete array.
`bad` is an array with a negative axis length: the code can create one (see `reshape`). -/
inductive Val (α : Type) where
  | scalar (x : α)
  | empty
  | arr (k : Kind) (a : Arr α)
  | bad (dims : List Int) (data : List α)
deriving Repr, DecidableEq

/-- The loop of the `Reshape` methods (apl/array.go:243-250, 350-357; apl/bool.go:104-111;
apl/string.go:121-128; apl/numbers/floats.go:74-81): read `src[k]`, advance `k`, wrap at the end. -/
def cycFill {α} (src : List α) : (n k : Nat) → Res (List α)
  | 0, _ => .ok []
  | n + 1, k => do
    let v ← sliceAt src k
    let k := k + 1
    let rest ← cycFill src n (if k = src.length then 0 else k)
    return v :: rest

/-- apl/array.go:136-145 `Prod` on the signed axis lengths a user may supply. -/
def prodI : List Int → Int
  | [] => 0
  | n :: ns => ns.foldl (· * ·) n

/-- Array header with user supplied axis lengths. -/
def mkVal {α} (k : Kind) (dims : List Int) (data : List α) : Val α :=
  if dims.all (0 ≤ ·) then .arr k ⟨dims.map Int.toNat, data⟩ else .bad dims data

/-- `Reshape` of a concrete array.
apl/array.go:241-252 (Mixed), 341-359 (Int: an array without elements gives `EmptyArray`),
apl/bool.go:99-113, apl/string.go:116-130, apl/numbers/floats.go:69-83.
`make` panics on a negative length; reading from a source without elements panics. -/
def reshapeArr {α} (k : Kind) (src : List α) (dims : List Int) : Res (Val α) :=
  if k = .int ∧ src = [] then .ok .empty
  else if prodI dims < 0 then .error .panic
  else do
    let d ← cycFill src (prodI dims).toNat 0
    return mkVal k dims d

/-- apl/array.go:262-272 `EmptyArray.Reshape`: zeros. -/
def reshapeEmpty {α} (zero : α) (dims : List Int) : Res (Val α) :=
  if dims = [] then .ok .empty
  else if prodI dims < 0 then .error .panic
  else .ok (mkVal .int dims (List.replicate (prodI dims).toNat zero))

/-- apl/domain/array.go:8-10, 22-37 `ToArray`: a scalar becomes a one-element vector
(the kind is the one `Unify` picks for it, parameter `uk`). -/
def toArrayVal {α} (uk : List α → Kind) : Val α → Val α
  | .scalar x => .arr (uk [x]) ⟨[1], [x]⟩
  | v => v

/-- apl/primitives/rho.go:65-82 `rho2` with the domain of line 20 (`R` is converted by `ToArray`;
`L` is an index vector).  Tables, dictionaries and lists are not modelled. -/
def rho2 {α} (zero : α) (uk : List α → Kind) (L : List Int) (R : Val α) : Res (Val α) :=
  if L = [] then .ok .empty
  else match toArrayVal uk R with
    | .empty => reshapeEmpty zero L
    | .arr k a => reshapeArr k a.data L
    | .bad _ d => reshapeArr .mixed d L
    | .scalar _ => .error .err   -- not reachable: ToArray removed scalars

/-- apl/primitives/rho.go:33-62 `rho1`, result as a value over `Int`: the shape vector,
`EmptyArray` for scalars, the one-element vector 0 for `EmptyArray`. -/
def rho1 {α} : Val α → Val Int
  | .scalar _ => .empty
  | .empty => .arr .int ⟨[1], [0]⟩
  | .arr _ a => .arr .int ⟨[a.shape.length], a.shape.map Int.ofNat⟩
  | .bad dims _ => .arr .int ⟨[dims.length], dims⟩

/-- apl/primitives/comma.go:47-78 `ravel` without axis: the loop copies element `i` to position `i`
of a vector; `Unify` then picks the representation (`uk`), without changing elements. -/
def ravel {α} (uk : List α → Kind) (R : Val α) : Res (Val α) :=
  match toArrayVal uk R with
  | .empty => .ok (.arr .mixed ⟨[0], []⟩)
  | .arr _ a => do
    let d ← forLoop (fun i => sliceAt a.data i) a.data.length 0
    return .arr (uk d) ⟨[a.data.length], d⟩
  | .bad _ data => do
    let d ← forLoop (fun i => sliceAt data i) data.length 0
    return .arr (uk d) ⟨[data.length], d⟩
  | .scalar _ => .error .err

end Iv
