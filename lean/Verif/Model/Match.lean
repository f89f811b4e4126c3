import Verif.Model.Unify
import Verif.Model.Search
import Verif.Model.Dict
/-
apl/primitives/match.go (match, not match, tally, depth) and find.go.
-/
namespace Iv
variable {V O : Type}

/-- What the comparison of elements needs to know: Go's `==` on two numbers of one type (pointers for the numbers of package big), the `Equals`
and `Less` methods of the number types, and which of the other types Go can compare (`==` panics for slices, maps and functions). -/
structure EqEnv (V O : Type) where
  t : Tower V
  same : TNum V → TNum V → Bool
  eqs : Nat → V → V → Option Bool
  les : Nat → V → V → Option Bool
  comparable : Nat → Bool
  oeq : Nat → O → O → Bool

/-- Go's `==` on two values of an interface type -/
def EqEnv.goEq (e : EqEnv V O) : UItem V O → UItem V O → Res Bool
  | .num a, .num b => .ok (e.same a b)
  | .str a, .str b => .ok (decide (a = b))
  | .other ta a, .other tb b => if ta = tb then if e.comparable ta then .ok (e.oeq ta a b) else .error .panic else .ok false
  | _, _ => .ok false

/-- apl/primitives/iota.go:230-252 `isEqual` on scalar values -/
def EqEnv.isEqual (e : EqEnv V O) (x y : UItem V O) : Res Bool := do
  if ← e.goEq x y then return true
  match x, y with
  | .num a, .num b => return e.t.isEqual e.same e.eqs a b
  | _, _ => return false

/-- `arith2("=", compare("="))`: elementary.go:147-189, compare.go:58-62, 105-110.  Values of one type that are no numbers are compared by Go's
`==`; different types that are not both numbers are an error. -/
def EqEnv.feq (e : EqEnv V O) : UItem V O → UItem V O → Res Bool
  | .num a, .num b => e.t.arith2 (cmpNum e.eqs e.les .eq) a b
  | .str a, .str b => .ok (decide (a = b))
  | .other ta a, .other tb b => if ta = tb then if e.comparable ta then .ok (e.oeq ta a b) else .error .panic else .error .err
  | _, _ => .error .err

/-- A value: a scalar or an array. -/
inductive MVal (V O : Type)
  | scalar (x : UItem V O)
  | array (a : UArr V O)

/-- apl/primitives/match.go:92-96: the comparison of shapes of the same rank -/
def shapesDiffer : List Nat → List Nat → Bool
  | n :: ns, m :: ms => if n ≠ m then true else shapesDiffer ns ms
  | _, _ => false

/-- apl/primitives/match.go:98-105: the loop over the elements (both arrays have the same number of them); the left element is the second
argument of the comparison. -/
def matchLoop {α : Type} (feq : α → α → Res Bool) : List α → List α → Res Bool
  | r :: rs, l :: ls => do
    if ← feq r l then matchLoop feq rs ls else return false
  | [], _ => .ok true
  | _ :: _, [] => .error .panic

/-- apl/primitives/match.go:70-107 `match` -/
def EqEnv.match' (e : EqEnv V O) (L R : MVal V O) : Res Bool :=
  match L, R with
  | .scalar x, .scalar y => e.isEqual x y
  | .array l, .array r =>
    if r.shape.length ≠ l.shape.length then .ok false
    else if r.shape.length = 0 then .ok (decide (r.rep = l.rep))
    else if shapesDiffer l.shape r.shape then .ok false
    else matchLoop e.feq r.items l.items
  | _, _ => .ok false

/-- apl/primitives/match.go:109-115 `notmatch` -/
def EqEnv.notMatch (e : EqEnv V O) (L R : MVal V O) : Res Bool := do
  let eq ← e.match' L R
  return !eq

/-- The argument of tally: a table with its number of rows, a dictionary with its keys, an array, or another value. -/
inductive TallyArg (K : Type)
  | table (rows : Nat)
  | object (keys : List K)
  | array (shape : List Nat)
  | scalar

/-- apl/primitives/match.go:52-68 `tally` -/
def tally {K : Type} : TallyArg K → Nat
  | .table rows => rows
  | .object keys => keys.length
  | .array [] => 0
  | .array (n :: _) => n
  | .scalar => 1

mutual
/-- apl/list.go:54-64 `List.Depth`; a value that is no list does not count (0) -/
def NList.depth {A : Type} : NList A → Nat
  | .leaf _ => 0
  | .list l => NList.depthLoop 1 l
/-- apl/list.go:56-62: the loop over the elements -/
def NList.depthLoop {A : Type} (max : Nat) : List (NList A) → Nat
  | [] => max
  | .leaf _ :: l => NList.depthLoop max l
  | .list e :: l => if 1 + NList.depthLoop 1 e > max then NList.depthLoop (1 + NList.depthLoop 1 e) l else NList.depthLoop max l
end

/-- apl/primitives/match.go:40-48 `depth`; `isArray` tells for a value that is no list if it is an array. -/
def depthOf {A : Type} (isArray : A → Bool) : NList A → Nat
  | .list l => NList.depth (.list l)
  | .leaf a => if isArray a then 1 else 0

/-- apl/primitives/find.go:69-82: the comparison at position `i` from the `k`-th element of `L` on, with the index `idx`; true if all are equal -/
def findAt {α : Type} (feq : α → α → Res Bool) (ic ls : List Nat) (r : List α) (i : Nat) : List α → List Nat → Res Bool
  | [], _ => .ok true
  | x :: xs, idx => do
    let y ← sliceAt r (i + icIndex ic idx)
    if ← feq x y then findAt feq ic ls r i xs (incArrayIndex idx ls) else return false

/-- apl/primitives/find.go:65-86: the mark at position `i` -/
def findMark {α : Type} (feq : α → α → Res Bool) (ic ls : List Nat) (l r : List α) (i : Nat) : Res Bool :=
  if l.length > r.length - i then .ok false else findAt feq ic ls r i l (ls.map (fun _ => 0))

/-- apl/primitives/find.go:64-87: the loop over the positions of `R` -/
def findLoop {α : Type} (feq : α → α → Res Bool) (ic ls : List Nat) (l r : List α) : (n i : Nat) → Res (List Bool)
  | 0, _ => .ok []
  | n + 1, i => do
    let b ← findMark feq ic ls l r i
    let bs ← findLoop feq ic ls l r n (i + 1)
    return b :: bs

/-- apl/primitives/find.go:42-59: `L` with leading axes of length 1; the array has `Prod(shape)` elements, which are those of `L` (panics if
there are none). -/
def findPad {α : Type} (l : Arr α) (rank : Nat) : Res (Arr α) :=
  if rank - l.shape.length > 0 then do
    let shape := List.replicate (rank - l.shape.length) 1 ++ l.shape
    let d ← forLoop (fun i => sliceAt l.data i) (prod shape) 0
    return ⟨shape, d⟩
  else .ok l

/-- apl/primitives/find.go:17-89 `find`, with the domain of line 12 (both arguments by ToArray).  `none` is the `EmptyArray`. -/
def findArr {α : Type} (feq : α → α → Res Bool) (L : Option (Arr α)) (R : Option (Arr α)) : Res (Option (Arr Bool)) :=
  match R with
  | none => .ok none
  | some r =>
    let l := L.getD ⟨[], []⟩
    if l.shape.length > r.shape.length then .ok (some ⟨r.shape, List.replicate (prod r.shape) false⟩)
    else do
      let l' ← findPad l r.shape.length
      let (ic, _) ← newIdxConverter r.shape
      let d ← findLoop feq ic l'.shape l'.data r.data (prod r.shape) 0
      return some ⟨r.shape, d⟩

end Iv
