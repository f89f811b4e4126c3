import Verif.Model.Match
/-
apl/domain: the domains that decide which implementation of a primitive is called, and convert its arguments.
Not modelled: ToImage, ToList of a value that is no list.
-/
namespace Iv
variable {V O : Type}

/-- A single domain, as built by the functions of apl/domain.  `nil` is a missing child.  `test` stands for the domains that only test the type
of a value: IsObject, IsTable (object.go:13-42), IsChannel (channel.go), IsIdentifier (identifier.go), IsType and ToType (type.go), IsList
(list.go), IsString (string.go:14-22), IsPrimitive (functions.go:36-41, with a nil child), IsImage (image.go:36-41). -/
inductive SDom (V O : Type)
  | nil
  | test (p : MVal V O → Bool) (child : SDom V O)
  | func (p : MVal V O → Bool) (child : SDom V O)
  | array (conv : Bool) (child : SDom V O)
  | vector (conv : Bool) (child : SDom V O)
  | scalar (conv : Bool) (child : SDom V O)
  | number (conv : Bool) (child : SDom V O)
  | index (child : SDom V O)
  | indexArray (conv : Bool) (child : SDom V O)
  | boolArray (child : SDom V O)
  | strings (conv : Bool) (child : SDom V O)
  | not (child : SDom V O)
  | or (c1 c2 : SDom V O)

/-- What the domains need from the interpreter: the tower, the uniform representations, and `Number.ToIndex`. -/
structure DomEnv (V : Type) where
  t : Tower V
  uni : GoType → Bool
  toIndex : TNum V → Option Int

/-- `ToIndex` of an element that is a number -/
def DomEnv.itemIndex (e : DomEnv V) : UItem V O → Option Int
  | .num n => e.toIndex n
  | _ => none

/-- apl/domain/array.go:31-36, 77-81: a vector with one element -/
def oneVector (x : UItem V O) : UArr V O := ⟨.mixed, [1], [x]⟩

/-- apl/domain/array.go:234-256: convert all values to indexes -/
def DomEnv.indexes (e : DomEnv V) : List (UItem V O) → Option (List Int)
  | [] => some []
  | x :: xs =>
    match e.itemIndex x with
    | none => none
    | some i => (e.indexes xs).map (i :: ·)

/-- an IntArray -/
def intArr (shape : List Nat) (l : List Int) : MVal V O := .array ⟨.compact .int, shape, l.map fun i => .num (.int i)⟩

/-- `apl.EmptyArray{}` -/
def emptyVal : MVal V O := .array ⟨.empty, [], []⟩

/-- apl/domain/array.go:191-258: `indexarray{child, true}.To` before `propagate`; `none`: rejected -/
def DomEnv.toIndexArr (e : DomEnv V) : MVal V O → Option (MVal V O)
  | .scalar x =>
    match e.itemIndex x with
    | some i => some (intArr [1] [i])
    | none => none
  | .array a =>
    if a.rep = .compact .int then some (.array a)
    else if a.items.length = 0 then some emptyVal
    else
      match e.indexes a.items with
      | some l => some (intArr a.shape l)
      | none => none

/-- apl/domain/array.go:146-158: the booleans of an IntArray -/
def toBools : List (UItem V O) → Option (List (UItem V O))
  | [] => some []
  | .num (.int n) :: xs => if n < 0 ∨ n > 1 then none else (toBools xs).map (.num (.bool (decide (n = 1))) :: ·)
  | _ :: _ => none

/-- apl/domain/array.go:129-158 `boolarray{child, true}.To` before `propagate`; the conversion `iav.(apl.IntArray)` panics for an EmptyArray -/
def DomEnv.toBoolArr (e : DomEnv V) (v : MVal V O) : Res (Option (MVal V O)) :=
  match v with
  | .array ⟨.compact .bool, _, _⟩ => .ok (some v)
  | _ =>
    match e.toIndexArr v with
    | none => .ok none
    | some (.array ⟨.compact .int, s, l⟩) =>
      match toBools l with
      | some bs => .ok (some (.array ⟨.compact .bool, s, bs⟩))
      | none => .ok none
    | some _ => .error .panic

/-- apl/domain/array.go:66-113 `vector{child, true}.To` on an array that is no vector -/
def DomEnv.squeezeVec (e : DomEnv V) (a : UArr V O) : Option (UArr V O) :=
  if a.shape.foldl max 0 ≠ a.items.length then none
  else some (e.t.unifyArray e.uni ⟨.mixed, [a.items.length], a.items⟩)

/-- apl/domain/string.go:48-72: all values are strings -/
def allStr : List (UItem V O) → Bool
  | [] => true
  | .str _ :: xs => allStr xs
  | _ :: _ => false

/-- apl/domain/numeric.go:64-83 `index.To`: `none`: rejected; `(v, false)`: accepted without asking the child -/
def DomEnv.toIdx (e : DomEnv V) : MVal V O → Option (MVal V O × Bool)
  | .scalar (.num (.bool b)) => some (.scalar (.num (.int (if b then 1 else 0))), false)
  | .scalar (.num (.int n)) => some (.scalar (.num (.int n)), false)
  | .scalar (.num n) => (e.toIndex n).map fun i => (.scalar (.num (.int i)), true)
  | _ => none

/-- apl/domain/numeric.go:23-43 `number.To` before `propagate`; `none`: rejected -/
def toNum (conv : Bool) : MVal V O → Option (MVal V O)
  | .scalar (.num n) => some (.scalar (.num n))
  | .scalar _ => none
  | .array a =>
    if conv = false then none
    else
      match a.items with
      | [.num n] => some (.scalar (.num n))
      | _ => none

/-- apl/domain/scalar.go:20-32 `scalar.To` before `propagate`; `none`: rejected -/
def toScalar (conv : Bool) : MVal V O → Option (MVal V O)
  | .scalar x => some (.scalar x)
  | .array a =>
    if conv = false then none
    else
      match a.items with
      | [x] => some (.scalar x)
      | _ => none

/-- apl/domain/string.go:48-72 `stringstype.To` before `propagate`; `none`: rejected -/
def toStrings (conv : Bool) : MVal V O → Option (MVal V O)
  | .array a =>
    if a.rep = .compact .str then some (.array a)
    else if conv = false then none
    else if allStr a.items then some (.array ⟨.compact .str, a.shape, a.items⟩) else none
  | .scalar (.str s) => if conv = false then none else some (.array ⟨.compact .str, [1], [.str s]⟩)
  | .scalar _ => none

/-- apl/domain/array.go:22-37 `array.To` before `propagate`; `none`: rejected -/
def DomEnv.toArr (e : DomEnv V) (conv : Bool) : MVal V O → Option (MVal V O)
  | .array a => some (.array a)
  | .scalar x => if conv = false then none else some (.array (e.t.unifyArray e.uni (oneVector x)))

/-- apl/domain/array.go:186-200 `indexarray.To` before `propagate`; `none`: rejected -/
def DomEnv.toIdxArr (e : DomEnv V) (conv : Bool) (v : MVal V O) : Option (MVal V O) :=
  match v with
  | .array ⟨.compact .int, _, _⟩ => some v
  | _ => if conv = false then none else e.toIndexArr v

/-- apl/domain/array.go:66-113 `vector.To`: the value and whether the child is asked; `none`: rejected -/
def DomEnv.toVec (e : DomEnv V) (conv : Bool) : MVal V O → Option (MVal V O × Bool)
  | .scalar x => if conv = false then none else some (.array (oneVector x), true)
  | .array a =>
    if a.shape.length = 1 then some (.array a, true)
    else if conv = false then none
    else if a.items.length = 0 then some (emptyVal, false)
    else (e.squeezeVec a).map fun b => (.array b, true)

/-- `To` of a single domain: the value and whether it is accepted -/
def SDom.to (e : DomEnv V) : SDom V O → MVal V O → Res (MVal V O × Bool)
  -- apl/domain/domain.go:16-21 `propagate` to a nil child
  | .nil, v => .ok (v, true)
  | .test p c, v => if p v then c.to e v else .ok (v, false)
  -- apl/domain/functions.go:13-24
  | .func p c, v =>
    if p v then do
      let r ← c.to e v
      return if r.2 then r else (v, false)
    else .ok (v, false)
  | .array conv c, v =>
    match e.toArr conv v with
    | some w => c.to e w
    | none => .ok (v, false)
  | .vector conv c, v =>
    match e.toVec conv v with
    | some (w, true) => c.to e w
    | some (w, false) => .ok (w, true)
    | none => .ok (v, false)
  | .scalar conv c, v =>
    match toScalar conv v with
    | some w => c.to e w
    | none => .ok (v, false)
  | .number conv c, v =>
    match toNum conv v with
    | some w => c.to e w
    | none => .ok (v, false)
  | .index c, v =>
    match e.toIdx v with
    | some (w, true) => c.to e w
    | some (w, false) => .ok (w, true)
    | none => .ok (v, false)
  | .indexArray conv c, v =>
    match e.toIdxArr conv v with
    | some w => c.to e w
    | none => .ok (v, false)
  | .boolArray c, v => do
    match ← e.toBoolArr v with
    | some w => c.to e w
    | none => return (v, false)
  | .strings conv c, v =>
    match toStrings conv v with
    | some w => c.to e w
    | none => .ok (v, false)
  -- apl/domain/domain.go:186-192
  | .not .nil, v => .ok (v, false)
  | .not c, v => do
    let r ← c.to e v
    return (r.1, !r.2)
  -- apl/domain/domain.go:210-220
  | .or .nil _, v => .ok (v, false)
  | .or _ .nil, v => .ok (v, false)
  | .or c1 c2, v => do
    let r ← c1.to e v
    if r.2 then return r
    else do
      let r ← c2.to e v
      if r.2 then return r else return (v, false)

/-- The domains of two arguments (the left one may be nil). -/
inductive PDom (V O : Type)
  | any
  | both (same : SDom V O)
  | either (child : SDom V O)
  | split (left right : SDom V O)
  | monadic (right : SDom V O)
  | dyadic (child : PDom V O)
  | monadicOp (left : SDom V O)
  | dyadicOp (child : PDom V O)

/-- `To` of a single domain on an argument that may be nil: the types tested by the domains are not that of nil, and ToArray makes a vector of
it; the callers check for nil before. -/
def SDom.to? (e : DomEnv V) (d : SDom V O) : Option (MVal V O) → Res (Option (MVal V O) × Bool)
  | none => match d with
    | .nil => .ok (none, true)
    | _ => .ok (none, false)
  | some v => do
    let r ← d.to e v
    return (some r.1, r.2)

/-- `To` of a pair domain: the arguments and whether they are accepted -/
def PDom.to (e : DomEnv V) : PDom V O → Option (MVal V O) → MVal V O → Res ((Option (MVal V O) × MVal V O) × Bool)
  -- a nil child of Dyadic and DyadicOp: domain.go:163-165, operator.go:41-43
  | .any, L, R => .ok ((L, R), true)
  -- domain.go:32-48
  | .both .nil, L, R => .ok ((L, R), true)
  | .both d, L, R => do
    let l ← d.to? e L
    if l.2 then do
      let r ← d.to e R
      if r.2 then return ((l.1, r.1), true) else return ((L, R), false)
    else return ((L, R), false)
  -- domain.go:65-75 `Any`; a nil child panics
  | .either .nil, _, _ => .error .panic
  | .either d, L, R => do
    let l ← d.to? e L
    if l.2 then return ((l.1, R), true)
    else do
      let r ← d.to e R
      if r.2 then return ((L, r.1), true) else return ((L, R), false)
  -- domain.go:88-105
  | .split dl dr, L, R => do
    let l ← dl.to? e L
    if l.2 then do
      let r ← dr.to e R
      if r.2 then return ((l.1, r.1), true) else return ((L, R), false)
    else return ((L, R), false)
  -- domain.go:131-142
  | .monadic d, L, R =>
    match L with
    | some _ => .ok ((L, R), false)
    | none => do
      let r ← d.to e R
      if r.2 then return ((none, r.1), true) else return ((L, R), false)
  -- domain.go:162-170
  | .dyadic c, L, R =>
    match L with
    | none => .ok ((L, R), false)
    | some _ => c.to e L R
  -- operator.go:14-22
  | .monadicOp d, L, R => do
    let l ← d.to? e L
    if l.2 then return ((l.1, R), true) else return ((L, R), false)
  -- operator.go:40-48
  | .dyadicOp c, L, R =>
    match L with
    | none => .ok ((L, R), false)
    | some _ => c.to e L R

end Iv
