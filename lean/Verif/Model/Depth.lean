import Verif.Model.Dict
/-
Indexes at depth into dictionaries, `D[k;l;…]` with two or more indexes: apl/primitives/index.go:166-220, 374-393 and
apl/operators/assign.go:423-501.  (One index is Model/Dict.)
-/
namespace Iv
variable {K A : Type} [DecidableEq K] {m : Type → Type} [Monad m]

/-- A value as the depth index sees it: a dictionary, a list, a table, or anything else (`leaf`: arrays and scalars). -/
inductive DTree (K A : Type)
  | leaf (a : A)
  | lst (l : List (NList (DTree K A)))
  | dict (keys : List K) (map : List (K × DTree K A))
  | table

/-- an element of a list as a value -/
def DTree.ofN : NList (DTree K A) → DTree K A
  | .leaf t => t
  | .list l => .lst l

/-- a value as an element of a list -/
def DTree.toN : DTree K A → NList (DTree K A)
  | .lst l => .list l
  | t => .leaf t

/-- What the depth index needs of other values. -/
structure DepthEnv (K A : Type) (m : Type → Type) where
  /-- the integer of a list index (apl/primitives/index.go:435-444), none: it is not an integer -/
  toInt : K → Option Int
  /-- apl/primitives/index.go:86-109 `indexSelection` of an array: flat positions (for functions as index it may depend on effects, which
  are not modelled).  A value that is no array panics. -/
  sel : A → List K → Res (List Int)
  /-- apl/primitives/index.go `index` of an array; other values are an error (line 392) -/
  get : A → List K → Res A
  /-- apl/operators/assign.go:114-… `assignValue` of an array with positions and an optional modifier -/
  set : A → List Int → Option (DTree K A → DTree K A → ExceptT Fail m (DTree K A)) → DTree K A → ExceptT Fail m A

variable (env : DepthEnv K A m) (origin : Int)

/-- apl/primitives/index.go:173-179: the last position of a key -/
def lastPos (key : K) : List K → (i : Nat) → Option Nat → Option Nat
  | [], _, r => r
  | k :: ks, i, r => lastPos key ks (i + 1) (if k = key then some i else r)

/-- apl/primitives/index.go:421-470 `listSelection` for indexes that are atoms -/
def depthListSel (l : List (NList (DTree K A))) (spec : List K) : Res (List Int) :=
  match spec.mapM env.toInt with
  | none => .error .err
  | some ints => (listPath (.list l) (ints.map (· - origin))).map (fun p => p.map Int.ofNat)

/-- apl/primitives/index.go:166-220 `objDepthSelection`: negative numbers for the positions of keys, then the positions in a list or
array -/
def depthSel : DTree K A → List K → Res (List Int)
  | .dict keys map, k :: ks =>
    match mapGet map k with
    | none => .error .err
    | some v =>
      match lastPos k keys 0 none with
      | none => .error .err
      | some i =>
        match ks with
        | [] => .ok [-1 - (i : Int)]
        | k' :: ks' => do
          let r ← match v with
            | .table => .error .err
            | .dict keys' map' => depthSel (.dict keys' map') (k' :: ks')
            | .lst l => depthListSel env origin l (k' :: ks')
            | .leaf a => env.sel a (k' :: ks')
          return (-1 - (i : Int)) :: r
  | _, _ => .error .err

/-- apl/primitives/index.go:374-393 `objDepthIndex` (the call of `objIndex` in line 386 with one atom gives the same as `objDepthIndex`) -/
def depthGet : DTree K A → List K → Res (DTree K A)
  | .dict _ map, k :: ks =>
    match mapGet map k with
    | none => .error .err
    | some v =>
      match ks with
      | [] => .ok v
      | k' :: ks' =>
        match v with
        | .table => .error .err
        | .dict keys' map' => depthGet (.dict keys' map') (k' :: ks')
        | .lst l =>
          match (k' :: ks').mapM env.toInt with
          | none => .error .err
          | some ints => (listIndex origin ints (.list l)).map DTree.ofN
        | .leaf a => (env.get a (k' :: ks')).map DTree.leaf
  | _, _ => .error .err

/-- apl/operators/assign.go:504-516 `assignList`, with positions that may be outside (apl/list.go:66-89) -/
def depthListSet (l : List (NList (DTree K A))) (idx : List Int) (f : Option (DTree K A → DTree K A → ExceptT Fail m (DTree K A)))
    (R : DTree K A) : ExceptT Fail m (DTree K A) :=
  if idx.any (· < 0) then throw .err
  else
    match f with
    | none => do
      let y ← ofRes (setDeep (.list l) (idx.map Int.toNat) R.toN)
      return DTree.ofN y
    | some f => do
      let v ← ofRes (getDeep (.list l) (idx.map Int.toNat))
      let R ← f (DTree.ofN v) R
      let y ← ofRes (setDeep (.list l) (idx.map Int.toNat) R.toN)
      return DTree.ofN y

/-- apl/operators/assign.go:452-459: the new value of a key -/
def depthNew (f : Option (DTree K A → DTree K A → ExceptT Fail m (DTree K A))) (old R : DTree K A) : ExceptT Fail m (DTree K A) :=
  match f with
  | none => pure R
  | some f => f old R

/-- apl/operators/assign.go:423-466 `assignObject` for the positions of a depth index, and 468-501 `assignObjectDepth`.  Nested values are
changed in place by the code and set again (line 498); here the changed value is set. -/
def depthAssign (f : Option (DTree K A → DTree K A → ExceptT Fail m (DTree K A))) (R : DTree K A) :
    DTree K A → List Int → ExceptT Fail m (DTree K A)
  | .dict keys map, n :: ns =>
    if 0 ≤ n then throw .err   -- not a depth index
    else
      match keys[(-1 - n).toNat]? with
      | none => throw .err
      | some k =>
        match mapGet map k with
        | none => throw .err
        | some v => do
          let w ← match ns with
            | [] => depthNew f v R
            | n' :: ns' => match v with
              | .table => throw .err
              | .dict keys' map' => depthAssign f R (.dict keys' map') (n' :: ns')
              | .lst l => depthListSet l (n' :: ns') f R
              | .leaf a => env.set a (n' :: ns') f R >>= fun b => pure (.leaf b)
          return .dict keys (mapSet map k w)
  | _, _ => throw .err

/-- `D[k;l;…]←R`, `D[k;l;…]f←R` -/
def dictDepthAssign (f : Option (DTree K A → DTree K A → ExceptT Fail m (DTree K A))) (d : DTree K A) (spec : List K) (R : DTree K A) :
    ExceptT Fail m (DTree K A) := do
  let idx ← ofRes (depthSel env origin d spec)
  depthAssign env f R d idx

end Iv
