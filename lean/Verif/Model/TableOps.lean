import Verif.Model.Table
/-
Elementary functions and catenation of dictionaries and tables (apl/primitives/table.go).

`V` are the values of dictionaries and the columns of tables; the elementary function and catenation of two values are given (they are modelled
in Model/Scalar and Model/Catenate).  Values are immutable here, so `Copy` is the identity.
-/
namespace Iv
variable {K V : Type} [DecidableEq K]

/-- an object: a dictionary or a table (apl/object.go `Object`, apl/table.go `Table`) -/
inductive DObj (K V : Type)
  | dict (d : Dict K V)
  | tab (t : Tab K V)
deriving DecidableEq, Repr

/-- the dictionary of an object (apl/primitives/table.go:16-23) -/
def DObj.src : DObj K V → Dict K V
  | .dict d => d
  | .tab t => t.dict

/-- the object is a `Table` -/
def DObj.isTable : DObj K V → Bool
  | .dict _ => false
  | .tab _ => true

/-- apl/primitives/table.go:348-360 `dict2table`: `vecLen` is the length of a vector, none for anything else -/
def dict2table (vecLen : V → Option Nat) (d : Dict K V) : Tab K V :=
  ⟨d, match d.keys with
    | [] => 0
    | k :: _ => ((d.at k).bind vecLen).getD 0⟩

/-- apl/primitives/table.go:50-53: a table, if the argument is one -/
def asKind (vecLen : V → Option Nat) (istable : Bool) (d : Dict K V) : DObj K V :=
  if istable then .tab (dict2table vecLen d) else .dict d

/-- the loop over the keys that sets the value of each of them (apl/primitives/table.go:28-48, 92-108, 167-184, 257-271);
`miss` is what happens for a key without a value -/
def mapKeys (miss : Fail) (f : K → V → Res V) (src : Dict K V) : List K → Dict K V → Res (Dict K V)
  | [], d => .ok d
  | k :: ks, d =>
    match src.at k with
    | none => .error miss
    | some v => do
      let w ← f k v
      mapKeys miss f src ks ⟨d.keys ++ [k], mapSet d.map k w⟩

/-- apl/primitives/table.go:12-54 `table1`: `f` is the elementary function for arrays or scalars -/
def table1 (vecLen : V → Option Nat) (f : V → Res V) (R : DObj K V) : Res (DObj K V) := do
  let d ← mapKeys .err (fun _ v => f v) R.src R.src.keys Dict.empty
  return asKind vecLen R.isTable d

/-- apl/primitives/table.go:93-97: the value on the other side, or a zero -/
def orZero (zero : V → V) (v : V) (other : Option V) : V := other.getD (zero v)

/-- apl/primitives/table.go:110-129: the keys on the right that are not on the left -/
def bothRight (zero : V → V) (f : V → V → Res V) (l r : Dict K V) : List K → Dict K V → Res (Dict K V)
  | [], d => .ok d
  | k :: ks, d =>
    match l.at k with
    | some _ => bothRight zero f l r ks d
    | none =>
      match r.at k with
      | none => .error .panic
      | some rv => do
        let w ← f (zero rv) rv
        bothRight zero f l r ks ⟨d.keys ++ [k], mapSet d.map k w⟩

/-- apl/primitives/table.go:57-136 `tableBoth` -/
def tableBoth (vecLen : V → Option Nat) (zero : V → V) (f : V → V → Res V) (L R : DObj K V) : Res (DObj K V) :=
  if L.isTable = true ∧ R.isTable = false then .error .err
  else do
    let d ← mapKeys .panic (fun k lv => f lv (orZero zero lv (R.src.at k))) L.src L.src.keys Dict.empty
    let d ← bothRight zero f L.src R.src R.src.keys d
    return asKind vecLen L.isTable d

/-- apl/primitives/table.go:140-190 `tableAny`; `left`: the value is on the left of the object -/
def tableAny (vecLen : V → Option Nat) (f : V → V → Res V) (left : Bool) (v : V) (o : DObj K V) : Res (DObj K V) := do
  let d ← mapKeys .panic (fun _ w => if left then f v w else f w v) o.src o.src.keys Dict.empty
  return asKind vecLen o.isTable d

/-! ### Catenation -/

/-- apl/primitives/table.go:236-277: a dictionary or table with a scalar or an array -/
def catenateAny (vecLen : V → Option Nat) (cat : V → V → Res V) (left : Bool) (v : V) (o : DObj K V) : Res (DObj K V) :=
  tableAny vecLen cat left v o

/-- apl/primitives/table.go:303-308: the entries on the right replace those on the left or follow them -/
def mergeRight (r : Dict K V) : List K → Dict K V → Res (Dict K V)
  | [], d => .ok d
  | k :: ks, d =>
    match r.at k with
    | none => .error .panic
    | some v => mergeRight r ks ⟨if (d.at k).isSome then d.keys else d.keys ++ [k], mapSet d.map k v⟩

/-- apl/primitives/table.go:314-330: entries on both sides are catenated -/
def joinLeft (cat : V → V → Res V) (istable : Bool) (l r : Dict K V) : List K → Dict K V → Res (Dict K V)
  | [], d => .ok d
  | k :: ks, d =>
    match l.at k with
    | none => .error .panic
    | some lv =>
      match r.at k with
      | none => if istable then .error .err else joinLeft cat istable l r ks ⟨d.keys ++ [k], mapSet d.map k lv⟩
      | some rv => do
        let w ← cat lv rv
        joinLeft cat istable l r ks ⟨d.keys ++ [k], mapSet d.map k w⟩

/-- apl/primitives/table.go:331-339: entries that are only on the right -/
def joinRight (istable : Bool) (r : Dict K V) : List K → Dict K V → Res (Dict K V)
  | [], d => .ok d
  | k :: ks, d =>
    match d.at k with
    | some _ => joinRight istable r ks d
    | none =>
      if istable then .error .err
      else match r.at k with
        | none => .error .panic
        | some v => joinRight istable r ks ⟨d.keys ++ [k], mapSet d.map k v⟩

/-- apl/primitives/table.go:298-308: with the first flag -/
def mergeDicts (l r : Dict K V) : Res (Dict K V) := do
  let d ← mapKeys .panic (fun _ v => .ok v) l l.keys Dict.empty
  mergeRight r r.keys d

/-- apl/primitives/table.go:309-340: without the first flag -/
def joinDicts (cat : V → V → Res V) (istable : Bool) (l r : Dict K V) : Res (Dict K V) :=
  if istable = true ∧ l.keys.length ≠ r.keys.length then .error .err
  else do
    let d ← joinLeft cat istable l r l.keys Dict.empty
    joinRight istable r r.keys d

/-- apl/primitives/table.go:281-346 `catenateTwoTables`; `axis`: there is an axis, as in L⍪R and L,[1]R (it is not looked at) -/
def catenateTwo (vecLen : V → Option Nat) (cat : V → V → Res V) (axis istable : Bool) (l r : Dict K V) : Res (DObj K V) :=
  if axis != istable then (mergeDicts l r).map (asKind vecLen istable)
  else (joinDicts cat istable l r).map (asKind vecLen istable)

/-- apl/primitives/table.go:215-234 `catenateTables` with two objects.  A table is an `Object` too, so that a dictionary on the left accepts a
table on the right. -/
def catenateObjects (vecLen : V → Option Nat) (cat : V → V → Res V) (axis : Bool) : DObj K V → DObj K V → Res (DObj K V)
  | .tab l, .tab r => catenateTwo vecLen cat axis true l.dict r.dict
  | .tab _, .dict _ => .error .err
  | .dict l, .tab r => catenateTwo vecLen cat axis false l r.dict
  | .dict l, .dict r => catenateTwo vecLen cat axis false l r

end Iv
