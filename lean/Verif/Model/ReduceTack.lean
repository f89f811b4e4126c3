import Verif.Model.Reduce
import Verif.Model.TableOps
import Verif.Model.Int
/-
apl/operators/reduce.go: ⊣/ and ⊢/ (946-994), reductions and scans of dictionaries and tables (693-748); apl/operators/identity.go.
-/
namespace Iv
variable {m : Type → Type} [Monad m] {α K : Type} [DecidableEq K]

/-- apl/operators/reduce.go:979-992: the loop over all elements; `i` is the next position of the result, `n` the position on the last
axis.  `res.Set` outside the result would be an ignored error. -/
def tackLoop (first : Bool) (inner : Nat) : List α → (i n : Nat) → List α → List α
  | [], _, _, res => res
  | x :: xs, i, n, res =>
    let n' := if n + 1 = inner then 0 else n + 1
    if (first && n = 0) || (!first && n + 1 = inner) then tackLoop first inner xs (i + 1) n' (res.set i x)
    else tackLoop first inner xs i n' res

/-- apl/operators/reduce.go:946-994 `reduceTack.Call`, the functions ⊣/ and ⊢/ (and ⊣⌿ and ⊢⌿: `reduction`, lines 96-110, drops the axis).
`zero` is what `MakeArray` (apl/array.go:126-134) fills the new array with.  With an axis bracket the right argument is no array and is
returned as it is; that is not modelled. -/
def reduceTack (zero : α) (first : Bool) (L : Option (Val α)) (R : Val α) : Res (Val α) :=
  if L.isSome then .error .err
  else match R with
    | .scalar x => .ok (.scalar x)
    | .empty => .ok .empty
    | .bad _ _ => .error .panic
    | .arr k a =>
      match a.shape with
      | [] => .ok R
      | [n] => if n = 0 then .ok .empty else do
        let v ← sliceAt a.data (if first then 0 else n - 1)
        return .scalar v
      | n :: n' :: ns =>
        let s := (n :: n' :: ns).dropLast
        .ok (.arr k ⟨s, tackLoop first ((n :: n' :: ns).getLast (by simp)) a.data 0 0 (List.replicate (prod s) zero)⟩)

/-- apl/operators/identity.go:12-28: the items for reductions over nothing -/
inductive IdItem | int (n : Int) | maxFloat | minusMaxFloat
deriving DecidableEq, Repr

/-- apl/operators/identity.go:12-28 `identityItem` of a primitive function -/
def identityItem (p : String) : Option IdItem :=
  if p ∈ ["+", "-", "|", "∨", "<", ">", "≠", "⊤", "∪", "⌽", "⊖"] then some (.int 0)
  else if p ∈ ["×", "÷", "*", "!", "^", "∧", "≤", "=", "≥", "/", "⌿", "\\", "⍀"] then some (.int 1)
  else if p = "⌊" then some .minusMaxFloat
  else if p = "⌈" then some .maxFloat
  else none

/-- a value of a reduced object: a value, or a list of one scalar -/
inductive RVal (α : Type)
  | val (v : Val α)
  | one (x : α)

/-- the length of a vector or list (apl/operators/reduce.go:739-745) -/
def RVal.vecLen : RVal α → Option Nat
  | .val (.arr _ a) => match a.shape with
    | [n] => some n
    | _ => none
  | .one _ => some 1
  | _ => none

/-- apl/operators/reduce.go:722-725: tables never contain scalars -/
def wrapScalar (istable : Bool) : Val α → RVal α
  | .scalar x => if istable then .one x else .val (.scalar x)
  | v => .val v

/-- apl/operators/reduce.go:705-728: the loop over the keys.  A scalar value is made a vector of one element.  `red` is the reduction
or the scan along the last axis (lines 714-718), with its left argument. -/
def reduceObjLoop (uk : List α → Kind) (red : Val α → ExceptT Fail m (Val α)) (istable : Bool) (src : Dict K (Val α)) :
    List K → Dict K (RVal α) → ExceptT Fail m (Dict K (RVal α))
  | [], d => pure d
  | k :: ks, d =>
    match src.at k with
    | none => throw .panic
    | some v => do
      let w ← red (toArrayVal uk v)
      reduceObjLoop uk red istable src ks ⟨d.keys ++ [k], mapSet d.map k (wrapScalar istable w)⟩

/-- apl/operators/reduce.go:693-733 `reduceTable`; `dict2table` (lines 736-748) is the function of that name in apl/primitives/table.go -/
def reduceTable (uk : List α → Kind) (red : Val α → ExceptT Fail m (Val α)) (R : DObj K (Val α)) : ExceptT Fail m (DObj K (RVal α)) := do
  let d ← reduceObjLoop uk red R.isTable R.src R.src.keys Dict.empty
  return asKind RVal.vecLen R.isTable d

end Iv
