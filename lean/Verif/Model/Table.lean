import Verif.Model.Dict
/-
Tables (apl/table.go): construction from dictionaries (apl/primitives/transpose.go), indexing (apl/primitives/index.go), queries
(apl/primitives/table.go) and updates (apl/operators/assign.go).

A table is a dictionary with a number of rows; its columns are uniform vectors.  `K` are atoms that can be keys (see Model/Dict),
`A` are the cells and `T` are the Go types of uniform arrays.  Values are immutable here.
-/
namespace Iv
variable {K T A : Type} [DecidableEq K] [DecidableEq T] [DecidableEq A] {m : Type → Type} [Monad m]

/-- apl/table.go:26-29 `Table`; `C` are the columns -/
structure Tab (K C : Type) where
  dict : Dict K C
  rows : Nat
deriving DecidableEq, Repr

/-- a column: a uniform vector (apl/array.go `Uniform`) -/
structure Col (T A : Type) where
  ty : T
  cells : List A
deriving DecidableEq, Repr

/-- a value of a dictionary: a scalar, a vector, another array (also `EmptyArray`, which has shape [] and no elements) or an object -/
inductive TV (A : Type)
  | one (a : A)
  | vec (l : List A)
  | arr (shape : List Nat) (l : List A)
  | obj
deriving DecidableEq, Repr

/-- What tables need to know about values. -/
structure TabEnv (K T A : Type) where
  /-- the atom is a `String` -/
  isStr : K → Bool
  /-- the atom is a number or a boolean that is an index (apl/domain/array.go:206-226) -/
  toIndex : K → Option Int
  /-- `Unify(A, true)` of a vector of mixed type (apl/uniform.go:10-134, modelled in Model/Unify), none: it cannot be unified -/
  uni : List A → Option (Col T A)
  /-- `UnifyArray` of a vector (apl/uniform.go:139-142): the type of the result, none: it stays a mixed array -/
  uniArr : List A → Option T
  /-- `ToType` with the type of the zero of a column (apl/domain/type.go) -/
  conv : T → A → Option A

/-! ### Construction -/

/-- apl/primitives/transpose.go:170-172: a value as a vector; none: an object, or an array of rank ≠ 1 -/
def columnOf : TV A → Option (List A)
  | .one a => some [a]
  | .vec l => some l
  | .arr _ _ => none
  | .obj => none

/-- apl/primitives/transpose.go:162-196: the loop over the keys; `n` is none for the first key.  A vector that is uniform already is
not changed by `Unify`; `uni` is taken to give the same column for it. -/
def transLoop (env : TabEnv K T A) (d : Dict K (TV A)) : List K → Option Nat → Tab K (Col T A) → Res (Tab K (Col T A))
  | [], n, t => .ok { t with rows := n.getD 0 }
  | k :: ks, n, t =>
    match d.at k with
    | none => .error .panic  -- `o.At(k).Copy()` of nil
    | some v =>
      match columnOf v with
      | none => .error .err
      | some l =>
        match env.uni l with
        | none => .error .err
        | some u =>
          if n.isSome ∧ n ≠ some l.length then .error .err
          else transLoop env d ks (some l.length) ⟨⟨t.dict.keys ++ [k], mapSet t.dict.map k u⟩, t.rows⟩

/-- apl/primitives/transpose.go:157-199 `transposeObject` (⍉D) -/
def transposeObject (env : TabEnv K T A) (d : Dict K (TV A)) : Res (Tab K (Col T A)) :=
  transLoop env d d.keys none ⟨Dict.empty, 0⟩

/-- apl/primitives/transpose.go:202-204 `transposeTable` (⍉T) -/
def transposeTable (t : Tab K (Col T A)) : Dict K (TV A) :=
  ⟨t.dict.keys, t.dict.map.map (fun e => (e.1, .vec e.2.cells))⟩

/-! ### Indexing -/

/-- one index between brackets: an elided index or an empty array, a scalar, an array (its elements; `ints`: it is an `IntArray`)
or a function -/
inductive TSpec (K F : Type)
  | empty
  | one (k : K)
  | vec (ints : Bool) (ks : List K)
  | fn (f : F)

variable {F : Type}

/-- apl/domain/string.go:35-37, 44-74 `ToStringArray`: the strings of a string or of an array of strings -/
def TSpec.strings (env : TabEnv K T A) : TSpec K F → Option (List K)
  | .empty => some []
  | .one k => if env.isStr k then some [k] else none
  | .vec _ ks => if ks.all env.isStr then some ks else none
  | .fn _ => none

/-- apl/primitives/index.go:489-491 `colmap`: the last position of each key -/
def colMap : List K → (i : Nat) → List (K × Nat) → List (K × Nat)
  | [], _, m => m
  | k :: ks, i, m => colMap ks (i + 1) (mapSet m k i)

/-- apl/primitives/index.go:499-504, 522-528: positions of the columns -/
def colPositions (keys ks : List K) : Res (List Nat) :=
  ks.mapM (fun k => orErr (mapGet (colMap keys 0 []) k))

/-- apl/primitives/index.go:492-535: the column positions, and the row index (a column name in the only index selects all rows) -/
def tableCols (env : TabEnv K T A) (keys : List K) : List (TSpec K F) → Res (List Nat × TSpec K F)
  | [s] =>
    match s.strings env with
    | some ks => (colPositions keys ks).map (fun c => (c, .empty))
    | none => .ok (List.range keys.length, s)
  | [s, .empty] => .ok (List.range keys.length, s)
  | [s, .one k] => (colPositions keys [k]).map (fun c => (c, s))
  | [s, .vec _ ks] => (colPositions keys ks).map (fun c => (c, s))
  | [_, .fn _] => .error .err
  | _ => .error .err

/-- apl/primitives/iota.go:140-167 `where` on a vector: the (origin based) positions of true -/
def whereRows (origin : Int) : List Bool → (i : Nat) → List Int
  | [], _ => []
  | b :: bs, i => if b then ((i : Int) + origin) :: whereRows origin bs (i + 1) else whereRows origin bs (i + 1)

/-- apl/primitives/index.go:537-585: the row indexes, with origin.  `select f` calls the function with the row numbers and the table,
with the columns as variables, and gives its value as a boolean vector (none: it is not one). -/
def tableRows (env : TabEnv K T A) (origin : Int) (rows : Nat) (select : F → ExceptT Fail m (Option (List Bool))) :
    TSpec K F → ExceptT Fail m (List Int)
  | .empty => pure ((List.range rows).map (fun (i : Nat) => (i : Int) + origin))
  | .one k =>
    match env.toIndex k with
    | some i => pure [i]
    | none => throw .err
  | .vec ints ks =>
    if ks = [] ∧ ints = false then throw .panic  -- ToIndexArray gives an EmptyArray
    else match ks.mapM env.toIndex with
      | some is => pure is
      | none => throw .err
  | .fn f => do
    let b ← select f
    match b with
    | none => throw .err
    | some [] => throw .panic  -- `where` gives an EmptyArray
    | some bs => pure (whereRows origin bs 0)

/-- apl/primitives/index.go:588-594: the rows are checked and shifted -/
def checkRows (origin : Int) (rows : Nat) (is : List Int) : Res (List Nat) :=
  is.mapM (fun k => if k - origin < 0 ∨ (rows : Int) ≤ k - origin then .error .err else .ok (k - origin).toNat)

/-- apl/primitives/index.go:479-598 `tableSelection`: rows and columns (the code returns both in one vector) -/
def tableSelection (env : TabEnv K T A) (origin : Int) (select : F → ExceptT Fail m (Option (List Bool))) (keys : List K) (rows : Nat)
    (spec : List (TSpec K F)) : ExceptT Fail m (List Nat × List Nat) := do
  let c ← ofRes (tableCols env keys spec)
  let is ← tableRows env origin rows select c.2
  let r ← ofRes (checkRows origin rows is)
  return (r, c.1)

/-- apl/primitives/index.go:634-646: `conv`, a single value is not kept as a table -/
def TSpec.keepsScalar : TSpec K F → Bool
  | .empty => true
  | .one _ => true
  | .vec _ _ => false
  | .fn _ => false

/-- the result of an index -/
inductive TabVal (K T A : Type)
  | cell (a : A)
  | col (c : Col T A)
  | dict (d : Dict K (Col T A))
  | tab (t : Tab K (Col T A))

/-- apl/primitives/index.go:679-686: some cells of a column; the result has the same type -/
def subCol (c : Col T A) (rows : List Nat) : Res (Col T A) := do
  let cells ← rows.mapM (sliceAt c.cells)
  return ⟨c.ty, cells⟩

/-- `t.At(key).(apl.Uniform)`: a missing column is nil -/
def colAt (t : Tab K (Col T A)) (k : K) : Res (Col T A) :=
  match t.dict.at k with
  | some c => .ok c
  | none => .error .panic

/-- apl/primitives/index.go:673-687: the loop over the columns -/
def subTable (t : Tab K (Col T A)) (rows : List Nat) : List Nat → Dict K (Col T A) → Res (Dict K (Col T A))
  | [], d => .ok d
  | c :: cs, d => do
    let k ← sliceAt t.dict.keys c
    let src ← colAt t k
    let col ← subCol src rows
    subTable t rows cs ⟨d.keys ++ [k], mapSet d.map k col⟩

/-- apl/primitives/index.go:660-693: the selected part of the table -/
def tableGet (t : Tab K (Col T A)) (conv : Bool) (rows cols : List Nat) : Res (TabVal K T A) :=
  match conv, rows, cols with
  | true, [r], [c] => do
    let k ← sliceAt t.dict.keys c
    let src ← colAt t k
    let a ← sliceAt src.cells r
    return .cell a
  | true, _, [c] => do
    let k ← sliceAt t.dict.keys c
    let src ← colAt t k
    return .col src
  | true, [r], cs => do
    let d ← subTable t [r] cs Dict.empty
    return .dict d
  | _, rs, cs => do
    let d ← subTable t rs cs Dict.empty
    return .tab ⟨d, rs.length⟩

/-- apl/primitives/index.go:617-700 `tableIndex` with one or two indexes (without aggregation) -/
def tableIndex (env : TabEnv K T A) (origin : Int) (select : F → ExceptT Fail m (Option (List Bool))) (t : Tab K (Col T A))
    (spec : List (TSpec K F)) : ExceptT Fail m (TabVal K T A) := do
  let rc ← tableSelection env origin select t.dict.keys t.rows spec
  ofRes (tableGet t (spec.all TSpec.keepsScalar) rc.1 rc.2)

/-- apl/primitives/table.go:362-376 `table2array` (`T[]`): the cells of row after row, before `Unify` -/
def table2array (t : Tab K (Col T A)) : Res (List A) := do
  let rows ← (List.range t.rows).mapM (fun i => t.dict.keys.mapM (fun k => do
    let c ← colAt t k
    sliceAt c.cells i))
  return rows.flatten

/-! ### Queries -/

/-- apl/primitives/table.go:457-466: `groups` and `groupmap` -/
def groupLoop : List A → (i : Nat) → List A → List (A × List Nat) → List A × List (A × List Nat)
  | [], _, gs, mp => (gs, mp)
  | v :: vs, i, gs, mp =>
    match mapGet mp v with
    | some is => groupLoop vs (i + 1) gs (mapSet mp v (is ++ [i]))
    | none => groupLoop vs (i + 1) (gs ++ [v]) (mapSet mp v [i])

/-- the aggregation: a function, a dictionary of functions (none: the value is not a function), or something else -/
inductive Agg (K G : Type)
  | fn (g : G)
  | dict (d : Dict K (Option G))
  | other

/-- the group: a column, a dictionary with a single function, or something else -/
inductive Grp (K G : Type)
  | col (k : K)
  | fn (name : K) (g : G)
  | other

variable {G : Type}

/-- `o.At(key).(apl.Function)` (apl/primitives/table.go:496-500) -/
def aggFn (d : Dict K (Option G)) (k : K) : Res G :=
  match d.at k with
  | some (some g) => .ok g
  | _ => .error .err

/-- apl/primitives/table.go:478-493: a single name is used for all columns, a single column for all names -/
def aggNames (keys names : List K) : Res (List K × List K) :=
  if names.length = 1 ∧ 1 < keys.length then .ok (keys, names.flatMap (List.replicate keys.length))
  else if keys.length = 1 ∧ 1 < names.length then .ok (keys.flatMap (List.replicate names.length), names)
  else if names.length ≠ keys.length then .error .err
  else .ok (keys, names)

/-- apl/primitives/table.go:469-504: source columns, names of the columns of the result and functions -/
def aggPlan (keys : List K) : Agg K G → Res (List (K × K × G))
  | .fn g => .ok (keys.map (fun k => (k, k, g)))
  | .dict d => do
    let kn ← aggNames keys d.keys
    let fs ← kn.2.mapM (aggFn d)
    return kn.1.zip (kn.2.zip fs)
  | .other => .error .err

/-- apl/primitives/table.go:523-546: the loop over the groups for one column.  `call` calls a function with a vector and gives the
elements of its result (a scalar counts as a single element). -/
def aggGroups (call : G → List A → ExceptT Fail m (List A)) (c : Col T A) (g : G) :
    List (Option A × List Nat) → List A → List A → ExceptT Fail m (List A × List A)
  | [], res, gres => pure (res, gres)
  | (gv, is) :: gs, res, gres => do
    let y ← ofRes (is.mapM (sliceAt c.cells))
    let r ← call g y
    aggGroups call c g gs (res ++ r) (gres ++ (gv.toList.flatMap (List.replicate r.length)))

/-- apl/primitives/table.go:547-550: the result column is unified -/
def aggUnify (env : TabEnv K T A) (l : List A) : Res (Col T A) :=
  match env.uni l with
  | some u => .ok u
  | none => .error .err

/-- apl/primitives/table.go:517-564: the loop over the columns; `n` is none for the first one -/
def aggCols (env : TabEnv K T A) (call : G → List A → ExceptT Fail m (List A)) (t : Tab K (Col T A)) (groups : List (Option A × List Nat)) :
    List (K × K × G) → Option Nat → List A → Dict K (Col T A) → ExceptT Fail m (Dict K (Col T A) × Nat × List A)
  | [], n, gres, d => pure (d, n.getD 0, gres)
  | (k, name, g) :: ps, n, gres, d => do
    let c ← ofRes (colAt t k)
    let r ← aggGroups call c g groups [] []
    let u ← ofRes (aggUnify env r.1)
    match n with
    | none => aggCols env call t groups ps (some u.cells.length) r.2 ⟨d.keys ++ [name], mapSet d.map name u⟩
    | some n =>
      if u.cells.length ≠ n then throw .err
      else aggCols env call t groups ps (some n) gres ⟨d.keys ++ [name], mapSet d.map name u⟩

/-- apl/primitives/table.go:432-440: the result of the group function as the group column -/
def groupColumn (env : TabEnv K T A) (rows : Nat) : TV A → Res (Col T A)
  | .vec l => if l.length ≠ rows then .error .err else aggUnify env l
  | _ => .error .err

/-- apl/primitives/table.go:401-456: name and data of the group column, and the columns to be aggregated.  `mkGroup g` calls the group
function with the number of rows, with the columns as variables. -/
def groupOf (env : TabEnv K T A) (mkGroup : G → ExceptT Fail m (TV A)) (t : Tab K (Col T A)) :
    Grp K G → ExceptT Fail m (K × Col T A × List K)
  | .fn name g => do
    let v ← mkGroup g
    let c ← ofRes (groupColumn env t.rows v)
    return (name, c, t.dict.keys.tail)
  | .col k =>
    if k ∈ t.dict.keys then do
      let c ← ofRes (colAt t k)
      return (k, c, t.dict.keys.filter (fun k' => k' ≠ k))
    else throw .err
  | .other => throw .err

/-- apl/primitives/table.go:457-466: the groups with their rows -/
def groupsOf (c : Col T A) : List (Option A × List Nat) :=
  let g := groupLoop c.cells 0 [] []
  g.1.map (fun v => (some v, (mapGet g.2 v).getD []))

/-- apl/primitives/table.go:399-576 `tableQuery` -/
def tableQuery (env : TabEnv K T A) (call : G → List A → ExceptT Fail m (List A)) (mkGroup : G → ExceptT Fail m (TV A))
    (t : Tab K (Col T A)) (agg : Agg K G) : Option (Grp K G) → ExceptT Fail m (Tab K (Col T A))
  | none => do
    let plan ← ofRes (aggPlan t.dict.keys agg)
    let r ← aggCols env call t [(none, List.range t.rows)] plan none [] Dict.empty
    return ⟨r.1, r.2.1⟩
  | some grp => do
    let g ← groupOf env mkGroup t grp
    let plan ← ofRes (aggPlan g.2.2 agg)
    let r ← aggCols env call t (groupsOf g.2.1) plan none [] Dict.empty
    let ug ← ofRes (aggUnify env r.2.2)
    return ⟨⟨g.1 :: r.1.keys, mapSet r.1.map g.1 ug⟩, r.2.1⟩

/-- apl/primitives/index.go:617-700 `tableIndex` with aggregation: the query of the selected part -/
def tableIndexQuery (env : TabEnv K T A) (origin : Int) (select : F → ExceptT Fail m (Option (List Bool)))
    (call : G → List A → ExceptT Fail m (List A)) (mkGroup : Tab K (Col T A) → G → ExceptT Fail m (TV A))
    (t : Tab K (Col T A)) (s1 s2 : TSpec K F) (agg : Agg K G) (grp : Option (Grp K G)) : ExceptT Fail m (Tab K (Col T A)) := do
  let rc ← tableSelection env origin select t.dict.keys t.rows [s1, s2]
  let d ← ofRes (subTable t rc.1 rc.2 Dict.empty)
  tableQuery env call (mkGroup ⟨d, rc.1.length⟩) ⟨d, rc.1.length⟩ agg grp

/-! ### Updates -/

/-- the right argument of an update -/
inductive TRhs (K T A : Type)
  | one (a : A)
  | arr (shape : List Nat) (l : List A)
  | dict (d : Dict K (TV A))
  | tab (t : Tab K (Col T A))

/-- apl/operators/assign.go:270-289: the shape of an array on the right; a vector with an element for each row is a column -/
def rhsWidth (rows cols : Nat) (shape : List Nat) (l : List A) : Res Nat :=
  match shape with
  | [n] => if l.length = rows then (if n ≠ rows ∨ 1 ≠ cols then .error .err else .ok 1) else .error .err
  | [a, b] => if a ≠ rows ∨ b ≠ cols then .error .err else .ok b
  | _ => .error .err

/-- a value of an array is converted to the type of the column (apl/operators/assign.go:297-300) -/
def convCell (env : TabEnv K T A) (ty : T) (a : A) : Res A :=
  match env.conv ty a with
  | some v => .ok v
  | none => .error .err

/-- apl/operators/assign.go:290-307: the columns of an array on the right, converted to the types of the table's columns -/
def rhsCols (env : TabEnv K T A) (t : Tab K (Col T A)) (rows width : Nat) (l : List A) :
    List K → (k : Nat) → List (K × Col T A) → Res (List (K × Col T A))
  | [], _, mp => .ok mp
  | key :: ks, k, mp => do
    let u ← colAt t key
    let cells ← (List.range rows).mapM (fun i => do
      let v ← sliceAt l (i * width + k)
      convCell env u.ty v)
    rhsCols env t rows width l ks (k + 1) (mapSet mp key ⟨u.ty, cells⟩)

/-- apl/operators/assign.go:270-323: an array is converted to a table, a scalar to a dictionary -/
def rhsObject (env : TabEnv K T A) (t : Tab K (Col T A)) (rows : Nat) (keys : List K) :
    TRhs K T A → Res (Dict K (TV A) ⊕ Tab K (Col T A))
  | .one a => .ok (.inl ⟨keys, keys.foldl (fun mp k => mapSet mp k (.one a)) []⟩)
  | .arr shape l => do
    let w ← rhsWidth rows keys.length shape l
    let mp ← rhsCols env t rows w l keys 0 []
    return .inr ⟨⟨keys, mp⟩, rows⟩
  | .dict d => .ok (.inl d)
  | .tab r => .ok (.inr r)

/-- the keys on the right (apl/operators/assign.go:376-384) -/
def rhsKeys : Dict K (TV A) ⊕ Tab K (Col T A) → List K
  | .inl d => d.keys
  | .inr r => r.dict.keys

/-- apl/operators/assign.go:388-413: the new cells of one column with the type of the vector that holds them (none: a mixed array).
An object in a dictionary on the right is taken as an error here (in the code it fails in `set`). -/
def newCells (env : TabEnv K T A) (rows : Nat) (key : K) : Dict K (TV A) ⊕ Tab K (Col T A) → Res (Option T × List A)
  | .inr r =>
    match r.dict.at key with
    | none => .error .panic
    | some c => if c.cells.length ≠ rows then .error .err else .ok (some c.ty, c.cells)
  | .inl d =>
    match d.at key with
    | none => .error .panic
    | some (.one a) => .ok (env.uniArr (List.replicate rows a), List.replicate rows a)
    | some _ => .error .err

/-- apl/operators/assign.go:335-347: the value of the modifier function as new cells -/
def modCells (env : TabEnv K T A) (rows : Nat) : TV A → Res (Option T × List A)
  | .vec l =>
    if l.length ≠ rows then .error .err
    else match env.uni l with
      | some u => .ok (some u.ty, u.cells)
      | none => .error .err
  | _ => .error .err

/-- apl/operators/assign.go:326-348: the modifier function is called with the old and the new cells -/
def modify (env : TabEnv K T A) (f : Option (List A → List A → ExceptT Fail m (TV A))) (c : Col T A) (rows : List Nat)
    (nc : Option T × List A) : ExceptT Fail m (Option T × List A) :=
  match f with
  | none => pure nc
  | some f => do
    let left ← ofRes (rows.mapM (sliceAt c.cells))
    let v ← f left nc.2
    ofRes (modCells env rows.length v)

/-- `nc.Values[k] = newcol.At(i)` for the rows (apl/operators/assign.go:355-357, 364-366) -/
def setRows (cells : List A) (rows : List Nat) (new : List A) : List A :=
  (rows.zip new).foldl (fun l e => l.set e.1 e.2) cells

/-- apl/operators/assign.go:349-369: the rest of `set`: a column of another type is unified -/
def setCol (env : TabEnv K T A) (c : Col T A) (rows : List Nat) (nc : Option T × List A) : Res (Col T A) :=
  if nc.1 = some c.ty then .ok ⟨c.ty, setRows c.cells rows nc.2⟩
  else aggUnify env (setRows c.cells rows nc.2)

/-- apl/operators/assign.go:385-418: the loop over the columns -/
def assignCols (env : TabEnv K T A) (f : Option (List A → List A → ExceptT Fail m (TV A))) (rows : List Nat)
    (R : Dict K (TV A) ⊕ Tab K (Col T A)) : List K → Tab K (Col T A) → ExceptT Fail m (Tab K (Col T A))
  | [], t => pure t
  | k :: ks, t => do
    let c ← ofRes (colAt t k)
    let nc ← ofRes (newCells env rows.length k R)
    let nc ← modify env f c rows nc
    let c ← ofRes (setCol env c rows nc)
    assignCols env f rows R ks ⟨t.dict.set k c, t.rows⟩

/-- apl/operators/assign.go:258-420 `assignTable` -/
def assignTable (env : TabEnv K T A) (f : Option (List A → List A → ExceptT Fail m (TV A))) (t : Tab K (Col T A)) (rows cols : List Nat)
    (R : TRhs K T A) : ExceptT Fail m (Tab K (Col T A)) := do
  let keys ← ofRes (cols.mapM (sliceAt t.dict.keys))
  let o ← ofRes (rhsObject env t rows.length keys R)
  if rhsKeys o ≠ keys then throw .err
  else assignCols env f rows o keys t

/-- `T[spec]←R`, `T[spec]f←R` -/
def tableAssign (env : TabEnv K T A) (origin : Int) (select : F → ExceptT Fail m (Option (List Bool)))
    (f : Option (List A → List A → ExceptT Fail m (TV A))) (t : Tab K (Col T A)) (spec : List (TSpec K F)) (R : TRhs K T A) :
    ExceptT Fail m (Tab K (Col T A)) := do
  let rc ← tableSelection env origin select t.dict.keys t.rows spec
  assignTable env f t rc.1 rc.2 R

end Iv
