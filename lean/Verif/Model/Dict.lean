import Verif.Model.Index
/-
Dictionaries (apl/object.go, apl/primitives/dict.go, the object part of apl/primitives/index.go and of
apl/operators/assign.go) and nested lists (apl/list.go, the list part of the same files).

Keys are compared with Go's `==` on interface values.  `K` stands for key types where a copy of a key is `==` to the key
(strings, booleans, the value-typed numbers; not the pointer-typed big numbers, not NaN, not arrays).
Values are immutable here; sharing of memory between variables is the subject of Model/Alias.lean.
-/
namespace Iv
variable {K V : Type} [DecidableEq K]

/-- Go's `map[K]V` as a list of entries with distinct keys: `m[k]` -/
def mapGet : List (K × V) → K → Option V
  | [], _ => none
  | (k', v) :: m, k => if k' = k then some v else mapGet m k

/-- Go's `m[k] = v` -/
def mapSet : List (K × V) → K → V → List (K × V)
  | [], k, v => [(k, v)]
  | (k', v') :: m, k, v => if k' = k then (k', v) :: m else (k', v') :: mapSet m k v

/-- apl/object.go:46-49 `Dict` -/
structure Dict (K V : Type) where
  keys : List K
  map : List (K × V)
deriving DecidableEq, Repr

/-- a `Dict` without keys (a nil map reads like an empty one) -/
def Dict.empty : Dict K V := ⟨[], []⟩

/-- apl/object.go:55-60 `At` -/
def Dict.at (d : Dict K V) (k : K) : Option V := mapGet d.map k

/-- apl/object.go:65-74 `Set` -/
def Dict.set (d : Dict K V) (k : K) (v : V) : Dict K V :=
  ⟨if (mapGet d.map k).isNone then d.keys ++ [k] else d.keys, mapSet d.map k v⟩

/-- the left argument of `#` and the index of a dictionary: a single key or a vector of keys -/
inductive KeyArg (K : Type)
  | one (k : K)
  | vec (ks : List K)

/-- the right argument of an assignment to a dictionary: `many` is an array or list with its elements; `whole` is the array as
one value. -/
inductive DVal (V : Type)
  | one (v : V)
  | many (whole : V) (vs : List V)

/-- the value itself -/
def DVal.val : DVal V → V
  | .one v => v
  | .many w _ => w

/-- apl/primitives/dict.go:64-105 `dict` (`L#R`); keys are given as a vector. -/
def dictMake (L : KeyArg K) (R : DVal V) : Res (Dict K V) :=
  match L with
  | .one k => .ok ⟨[k], [(k, R.val)]⟩
  | .vec ks =>
    let vs := match R with | .one v => List.replicate ks.length v | .many _ vs => vs
    if vs.length ≠ ks.length then .error .err
    else .ok ⟨ks, (ks.zip vs).foldl (fun m e => mapSet m e.1 e.2) []⟩

/-- apl/primitives/dict.go:27-62 `keys` (`#R`) of a dictionary without axis: a vector of the keys, made uniform (`uk` is the
representation found by `UnifyArray`, Model/Unify.lean). -/
def dictKeys (uk : List K → Kind) (d : Dict K V) : Val K := .arr (uk d.keys) ⟨[d.keys.length], d.keys⟩

/-- apl/primitives/index.go:364-367: a missing key (nil) is an error. -/
def orErr : Option V → Res V
  | some v => .ok v
  | none => .error .err

/-- apl/primitives/index.go:337-372 `objIndex` with one index: the value of a single key, or a dictionary of some keys. -/
def objIndex (d : Dict K V) (L : KeyArg K) : Res (V ⊕ Dict K V) :=
  match L with
  | .one k =>
    match d.at k with
    | some v => .ok (.inl v)
    | none => .error .err
  | .vec ks => do
    let vs ← ks.mapM (fun k => orErr (d.at k))
    return .inr ⟨ks, (ks.zip vs).foldl (fun m e => mapSet m e.1 e.2) []⟩

/-- apl/primitives/index.go:119-122: the map from keys to positions -/
def keyPos : List K → (i : Nat) → List (K × Nat) → List (K × Nat)
  | [], _, m => m
  | k :: ks, i, m => keyPos ks (i + 1) (mapSet m k i)

/-- apl/primitives/index.go:140-158: the positions of the keys; a missing key is created with an empty value `e`. -/
def objSelLoop (e : V) : List K → List (K × Nat) → Dict K V → Dict K V × List Nat
  | [], _, d => (d, [])
  | k :: ks, pos, d =>
    match mapGet pos k with
    | some i => let r := objSelLoop e ks pos d; (r.1, i :: r.2)
    | none =>
      let i := pos.length
      let r := objSelLoop e ks (mapSet pos k i) (d.set k e)
      (r.1, i :: r.2)

/-- apl/primitives/index.go:111-160 `objSelection` of a dictionary with one index.  Positions are zero-based here (the code adds
⎕IO, and `assignObject` subtracts it again). -/
def objSelection (e : V) (d : Dict K V) (L : KeyArg K) : Dict K V × List Nat :=
  match L with
  | .one k =>
    match mapGet (keyPos d.keys 0 []) k with
    | some i => (d, [i])
    | none => (d.set k e, [(keyPos d.keys 0 []).length])
  | .vec ks => objSelLoop e ks (keyPos d.keys 0 []) d

variable {m : Type → Type} [Monad m]

/-- apl/operators/assign.go:440-464: the loop of `assignObject`; `keys` is read once before the loop (line 440). -/
def assignObjLoop (keys : List K) (f : Option (V → V → ExceptT Fail m V)) : List (Nat × V) → Dict K V → ExceptT Fail m (Dict K V)
  | [], d => pure d
  | (n, v) :: ps, d =>
    match keys[n]? with
    | none => throw .err
    | some k => do
      let v ← match f with
        | none => pure v
        | some f => match d.at k with
          | some old => f old v
          | none => throw .panic  -- a nil left argument: not reached for a key of the dictionary
      assignObjLoop keys f ps (d.set k v)

/-- apl/operators/assign.go:423-466 `assignObject` with the positions of one index.  The modifier must not assign to the same
dictionary (values are immutable here). -/
def assignObject (f : Option (V → V → ExceptT Fail m V)) (d : Dict K V) (idx : List Nat) (R : DVal V) : ExceptT Fail m (Dict K V) :=
  match R with
  | .one v => assignObjLoop d.keys f (idx.map (fun i => (i, v))) d
  | .many w vs =>
    if 1 < idx.length then
      if idx.length = vs.length then assignObjLoop d.keys f (idx.zip vs) d
      else throw .err
    else assignObjLoop d.keys f (idx.map (fun i => (i, w))) d

/-- `D[L]←R`, `D[L]f←R`: apl/assign.go:112-118 (selection), then apl/operators/assign.go:92-110. -/
def dictAssign (e : V) (f : Option (V → V → ExceptT Fail m V)) (d : Dict K V) (L : KeyArg K) (R : DVal V) : ExceptT Fail m (Dict K V) :=
  let s := objSelection e d L
  assignObject f s.1 s.2 R

/-- apl/list.go:9 `List`: a value is a list or something else (`leaf`). -/
inductive NList (A : Type)
  | leaf (a : A)
  | list (l : List (NList A))

variable {A : Type}

/-- apl/list.go:66-89 `getset` without value, called by `GetDeep` -/
def getDeep : NList A → List Nat → Res (NList A)
  | _, [] => .error .err
  | .leaf _, _ => .error .err
  | .list l, [k] => match l[k]? with
    | some v => .ok v
    | none => .error .err
  | .list l, k :: idx => match l[k]? with
    | some v => getDeep v idx
    | none => .error .err

/-- apl/list.go:66-89 `getset` with a value, called by `SetDeep`; the list is modified in place only in the last step. -/
def setDeep : NList A → List Nat → NList A → Res (NList A)
  | _, [], _ => .error .err
  | .leaf _, _, _ => .error .err
  | .list l, [k], v => if k < l.length then .ok (.list (l.set k v)) else .error .err
  | .list l, k :: idx, v => match l[k]? with
    | some x => do
      let x ← setDeep x idx v
      return .list (l.set k x)
    | none => .error .err

/-- apl/primitives/index.go:447-466: normalise the path: indexes (already shifted by ⎕IO) may be negative (count from the end) -/
def listPath : NList A → List Int → Res (List Nat)
  | _, [] => .ok []
  | .leaf _, _ => .error .err
  | .list l, k :: idx =>
    let k := if k < 0 then (l.length : Int) + k else k
    if k < 0 ∨ (l.length : Int) ≤ k then .error .err
    else match idx with
      | [] => .ok [k.toNat]
      | idx => do
        let v ← sliceAt l k.toNat
        let p ← listPath v idx
        return k.toNat :: p

/-- apl/primitives/index.go:397-416 `listIndex`; `spec` are the index integers as written. -/
def listIndex (origin : Int) (spec : List Int) (l : NList A) : Res (NList A) := do
  let p ← listPath l (spec.map (· - origin))
  match p with
  | [] => return l
  | p => getDeep l p

/-- `L[i;j;…]←R`: `listSelection` and apl/operators/assign.go:503-516 `assignList` -/
def listAssign (origin : Int) (f : Option (NList A → NList A → ExceptT Fail m (NList A))) (l : NList A) (spec : List Int) (R : NList A) :
    ExceptT Fail m (NList A) := do
  let p ← ofRes (listPath l (spec.map (· - origin)))
  match f with
  | none => ofRes (setDeep l p R)
  | some f => do
    let v ← ofRes (getDeep l p)
    let v ← f v R
    ofRes (setDeep l p v)

end Iv
