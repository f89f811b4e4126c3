import Verif.Model.Alias
import Verif.Model.Take
import Verif.Model.Transpose
/-
Take, drop and transpose with references (apl/primitives/take.go:75-178, apl/primitives/transpose.go:46-154).  These functions
adjust their left argument in place; the left argument of a call is the storage of a variable if it is an integer vector
(`ToIndexArray` returns an `IntArray` as it is, and evaluating a variable does not copy).  The results are those of Model/Take.lean and
Model/Transpose.lean.
-/
namespace Iv

variable {A T : Type}

/-- The integers among the scalars. -/
structure IntCode (A : Type) where
  enc : Int → A
  dec : A → Option Int

/-- an element of an `IntArray` -/
def intOf (ic : IntCode A) : HV A T → Option Int
  | .atom a => ic.dec a
  | _ => none

/-- the elements of an `IntArray`; it has no others -/
def intsOf (ic : IntCode A) (l : List (HV A T)) : Res (List Int) :=
  match l.mapM (intOf ic) with
  | some is => .ok is
  | none => .error .panic

/-- The right argument as an array: its Go type and the addresses of its shape and elements (apl/primitives/take.go:107-117).  A list has
its length as shape; `EmptyArray` has no shape and no elements; a scalar is copied into an array with `k` axes of length 1. -/
def rightRef (n k : Nat) : HV A T → HM A T (ArrRef T)
  | .arr ty d p => pure ⟨ty, d, p⟩
  | .list p => do
    let l ← getSlots p
    let d ← alloc (.dims [l.length])
    pure ⟨none, d, p⟩
  | .empty => do
    let d ← alloc (.dims [])
    let p ← alloc (.slots [])
    pure ⟨none, d, p⟩
  | v => do
    let w ← copyV n v
    let d ← alloc (.dims (List.replicate k 1))
    let p ← alloc (.slots [w])
    pure ⟨none, d, p⟩

/-- the counts of the equivalent take (apl/primitives/take.go:163-175) -/
def takeCounts (take : Bool) (rs ax : List Nat) (is : List Int) : List Int :=
  if take then is else List.zipWith (fun k n => dropToTake (rs.getD k 0) n) ax is

/-- apl/primitives/take.go:148-175: fill up the left argument and turn the counts of drop into those of take.  If it is too short, its
elements are replaced by a new slice, but its length is set in the shared shape (line 160); otherwise drop overwrites the
shared elements (lines 165-174). -/
def adjustLeft (ic : IntCode A) (take : Bool) (ld lp : Nat) (ls rs ax : List Nat) (is : List Int) : HM A T (List Int) :=
  if is.length < rs.length then
    match ls with
    | [] => failH .panic
    | _ :: ls => do
      putObj ld (.dims (rs.length :: ls))
      pure (takeCounts take rs ax (padCounts take rs is ax))
  else if take then pure is
  else do
    putObj lp (.slots ((takeCounts take rs ax is).map (fun n => .atom (ic.enc n))))
    pure (takeCounts take rs ax is)

/-- the new array of `Take` (apl/operators/rank.go:353-377): its elements are copies -/
def takeNew (n : Nat) (ty : Option T) (a : Arr (HV A T)) : HM A T (HV A T) := do
  let l ← copyAll (copyV n) a.data
  let d ← alloc (.dims a.shape)
  let p ← alloc (.slots l)
  pure (.arr ty d p)

/-- `L` of integers: apl/primitives/take.go:88-178.  The shape and the elements of the right argument are read again behind the
adjustment of the left one, as they may be the same storage. -/
def takedropRef (ic : IntCode A) (n : Nat) (take : Bool) (z : HV A T) (ld lp : Nat) (ls : List Nat) (is : List Int) (r : HV A T) (x : List Int) :
    HM A T (HV A T) := do
  let ar ← rightRef n is.length r
  let rs ← getDims ar.dims
  let ax ← pureH (completeAxes rs.length x)
  if rs.length < is.length then failH .err
  else do
    let ai ← adjustLeft ic take ld lp ls rs ax is
    let rs' ← getDims ar.dims
    let l ← getSlots ar.data
    let a ← pureH (takeArr z ai ⟨rs', l⟩ ax)
    takeNew n ar.ty a

/-- an empty vector on the right and a single count: that many zeros (apl/primitives/take.go:93-105) -/
def takeZeros (ic : IntCode A) (int : T) (m : Int) : HM A T (HV A T) := do
  let d ← alloc (.dims [m.natAbs])
  let p ← alloc (.slots (List.replicate m.natAbs (.atom (ic.enc 0))))
  pure (.arr (some int) d p)

/-- apl/primitives/take.go:75-178 `takedrop` for an integer array on the left, with its shape at `ld` and its elements at `lp`; `int` is
the element type of `IntArray`, `z` the fill of the right argument -/
def takedropH (ic : IntCode A) (int : T) (n : Nat) (take : Bool) (z : HV A T) (ld lp : Nat) (r : HV A T) (x : List Int) : HM A T (HV A T) := do
  let ls ← getDims ld
  let l ← getSlots lp
  let is ← pureH (intsOf ic l)
  if 1 < ls.length then failH .err
  else
    match r, is with
    | .empty, [m] => takeZeros ic int m
    | r, is => takedropRef ic n take z ld lp ls is r x

/-- apl/primitives/transpose.go:95-100: with origin 0 the left argument is incremented in place -/
def bumpLeft (ic : IntCode A) (origin : Int) (lp : Nat) (is : List Int) : HM A T (List Int) :=
  if origin = 0 then do
    putObj lp (.slots (is.map (fun n => .atom (ic.enc (n + 1)))))
    pure (is.map (· + 1))
  else pure is

/-- apl/primitives/transpose.go:46-154, dyadic, for an integer vector on the left and an array on the right -/
def transposeH (ic : IntCode A) (n : Nat) (origin : Int) (ld lp : Nat) (r : ArrRef T) : HM A T (HV A T) := do
  let rs ← getDims r.dims
  let ls ← getDims ld
  let l ← getSlots lp
  let is ← pureH (intsOf ic l)
  if ls ≠ [rs.length] then failH .err
  else do
    let al ← bumpLeft ic origin lp is
    let d ← getSlots r.data
    let a ← pureH (transposeArr 1 (some al) ⟨rs, d⟩)
    takeNew n r.ty a

end Iv
