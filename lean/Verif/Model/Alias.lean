import Verif.Model.Shape
/-
Assignment with references (apl/operators/assign.go, the `Copy` methods of apl/array.go, apl/list.go, apl/object.go and
apl/table.go).

The other models treat APL values as values.  In Go an array, a list or a dictionary is a reference to storage that is
changed in place by indexed assignment; evaluating a variable returns the reference (apl/var.go:173-179 `numVar.Eval`).  This
model keeps the storage in a heap, so that it is visible when two variables share it.

Simplifications.  Scalars (numbers, strings, bools, and functions, which are never changed) are atoms.  The keys of dictionaries
are atoms: an array is not comparable and cannot be a key of a Go map; pointer keys (big numbers) are not modelled.  Updates of
tables (`assignTable`) are not modelled; tables can be copied and be part of other values.  The keys of a `Dict` are a slice `K`
that is only appended to: it is part of the dictionary object.
-/
namespace Iv

variable {A T : Type}

/-- A Go value: a scalar, `EmptyArray`, or a reference.  An array is a pair of slices (apl/array.go:204-207, 275-278): one for
the shape and one for the elements; its Go type is `MixedArray` (`none`) or an array of one element type (`some t`). -/
inductive HV (A T : Type) : Type
  | atom (a : A)
  | empty
  | arr (ty : Option T) (dims data : Nat)
  | list (data : Nat)
  | dict (p : Nat)
  | table (p rows : Nat)

/-- An object in the heap: the backing array of a shape, the backing array of elements, or a `Dict` struct (apl/object.go:47-50). -/
inductive Obj (A T : Type) : Type
  | dims (l : List Nat)
  | slots (l : List (HV A T))
  | dict (keys : List A) (m : List (A × HV A T))

/-- The heap: the address of an object is its position; new objects are added at the end. -/
abbrev Heap (A T : Type) := List (Obj A T)

/-- Go code on the heap.  `none`: no result within the given recursion depth.  The changes of the heap persist after an error. -/
def HM (A T α : Type) : Type := Heap A T → Option (Except Fail α × Heap A T)

instance : Monad (HM A T) where
  pure a := fun h => some (.ok a, h)
  bind m k := fun h =>
    match m h with
    | none => none
    | some (.error e, h') => some (.error e, h')
    | some (.ok a, h') => k a h'

/-- An error return or a panic. -/
def failH {α : Type} (e : Fail) : HM A T α := fun h => some (.error e, h)

/-- The recursion depth is used up. -/
def diverge {α : Type} : HM A T α := fun _ => none

/-- Run a pure step. -/
def pureH {α : Type} (r : Res α) : HM A T α := fun h => some (r, h)

/-- Go `make`, or taking the address of a new struct. -/
def alloc (o : Obj A T) : HM A T Nat := fun h => some (.ok h.length, h ++ [o])

/-- Overwrite an object. -/
def putObj (p : Nat) (o : Obj A T) : HM A T Unit := fun h => some (.ok (), h.set p o)

/-- the object as a shape -/
def Obj.asDims : Option (Obj A T) → Res (List Nat)
  | some (.dims l) => .ok l
  | _ => .error .panic

/-- the object as the elements of an array or a list -/
def Obj.asSlots : Option (Obj A T) → Res (List (HV A T))
  | some (.slots l) => .ok l
  | _ => .error .panic

/-- the object as a dictionary -/
def Obj.asDict : Option (Obj A T) → Res (List A × List (A × HV A T))
  | some (.dict k m) => .ok (k, m)
  | _ => .error .panic

/-- Read a shape. -/
def getDims (p : Nat) : HM A T (List Nat) := fun h => some (Obj.asDims h[p]?, h)

/-- Read the elements of an array or a list. -/
def getSlots (p : Nat) : HM A T (List (HV A T)) := fun h => some (Obj.asSlots h[p]?, h)

/-- Read a dictionary. -/
def getDict (p : Nat) : HM A T (List A × List (A × HV A T)) := fun h => some (Obj.asDict h[p]?, h)

/-- The loop over the elements of a copy. -/
def copyAll (c : HV A T → HM A T (HV A T)) : List (HV A T) → HM A T (List (HV A T))
  | [] => pure []
  | v :: vs => do
    let w ← c v
    let ws ← copyAll c vs
    pure (w :: ws)

/-- The loop over the map of a dictionary (apl/object.go:103-108). -/
def copyMap (c : HV A T → HM A T (HV A T)) : List (A × HV A T) → HM A T (List (A × HV A T))
  | [] => pure []
  | (k, v) :: m => do
    let w ← c v
    let r ← copyMap c m
    pure ((k, w) :: r)

/-- The `Copy` methods: apl/array.go:213-219 (MixedArray), 257 (EmptyArray), 284-288 (IntArray; the arrays of the other element types
are the same), apl/list.go:25-31, apl/object.go:96-111 (Dict), apl/table.go:43-49.  The first argument bounds the depth of the
recursion. -/
def copyV : Nat → HV A T → HM A T (HV A T)
  | 0, _ => diverge
  | _ + 1, .atom a => pure (.atom a)
  | _ + 1, .empty => pure .empty
  | n + 1, .arr ty d p => do
    let s ← getDims d
    let d' ← alloc (.dims s)
    let l ← getSlots p
    let l' ← copyAll (copyV n) l
    let p' ← alloc (.slots l')
    pure (.arr ty d' p')
  | n + 1, .list p => do
    let l ← getSlots p
    let l' ← copyAll (copyV n) l
    let p' ← alloc (.slots l')
    pure (.list p')
  | n + 1, .dict p => do
    let km ← getDict p
    let m' ← copyMap (copyV n) km.2
    let p' ← alloc (.dict km.1 m')
    pure (.dict p')
  | n + 1, .table p rows => do
    let km ← getDict p
    let m' ← copyMap (copyV n) km.2
    let p' ← alloc (.dict km.1 m')
    pure (.table p' rows)

/-- What the element types of compact arrays accept: `conv t a` is the element stored by `Set` (apl/array.go:306-321, apl/bool.go:70-79,
apl/string.go:87-96); `loose t` tells that the bounds check of `Set` is `i > len` and the write behind it panics for
`i = len` (apl/bool.go:71, apl/string.go:88). -/
structure ElemTypes (A T : Type) where
  conv : T → A → Option A
  loose : T → Bool

/-- the element stored by `Set` in an array of the given Go type -/
def storable (et : ElemTypes A T) : Option T → HV A T → Option (HV A T)
  | none, v => some v
  | some t, .atom a => (et.conv t a).map .atom
  | some _, _ => none

/-- is the bounds check of `Set` the loose one -/
def isLoose (et : ElemTypes A T) : Option T → Bool
  | none => false
  | some t => et.loose t

/-- The elements after `Set(i, v)` (apl/array.go:225-231 MixedArray, 306-322 IntArray, apl/bool.go:70-79, apl/string.go:87-96). -/
def setSlots (et : ElemTypes A T) (ty : Option T) (l : List (HV A T)) (i : Int) (v : HV A T) : Res (List (HV A T)) :=
  if i < 0 then .error .err
  else if l.length < i.toNat then .error .err
  else if i.toNat = l.length ∧ isLoose et ty = false then .error .err
  else
    match storable et ty v with
    | none => .error .err
    | some w => if i.toNat < l.length then .ok (l.set i.toNat w) else .error .panic

/-- an array: its Go type, and the addresses of its shape and its elements -/
structure ArrRef (T : Type) where
  ty : Option T
  dims : Nat
  data : Nat

/-- the result of `Set` -/
def setResult (p : Nat) : Res (List (HV A T)) → HM A T Bool
  | .ok l => do
    putObj p (.slots l)
    pure true
  | .error .err => pure false
  | .error .panic => failH .panic

/-- `ArraySetter.Set`: false if it returns an error -/
def setElemH (et : ElemTypes A T) (ar : ArrRef T) (i : Int) (v : HV A T) : HM A T Bool := do
  let l ← getSlots ar.data
  setResult ar.data (setSlots et ar.ty l i v)

/-- the new array of `upgrade`; the closure returns early, and leaves the array as it is, if it has too few elements -/
def upgraded (ar : ArrRef T) (s : List Nat) (l : List (HV A T)) : HM A T (ArrRef T) :=
  if l.length < prod s then pure ar
  else do
    let d ← alloc (.dims s)
    let p ← alloc (.slots (l.take (prod s)))
    pure ⟨none, d, p⟩

/-- apl/operators/assign.go:152-162, the closure `upgrade`: a mixed array with the same elements -/
def upgrade (ar : ArrRef T) : HM A T (ArrRef T) := do
  let s ← getDims ar.dims
  let l ← getSlots ar.data
  upgraded ar s l

/-- the second `Set` after an upgrade -/
def afterUpgrade (ar : ArrRef T) : Bool → HM A T (ArrRef T)
  | true => pure ar
  | false => failH .err

/-- the first `Set` worked, or the array is upgraded -/
def afterSet (et : ElemTypes A T) (ar : ArrRef T) (i : Int) (v : HV A T) : Bool → HM A T (ArrRef T)
  | true => pure ar
  | false => do
    let ar' ← upgrade ar
    let ok ← setElemH et ar' i v
    afterUpgrade ar' ok

/-- apl/operators/assign.go:172-176 and 187-191: set an element, upgrading the array if it cannot hold the value -/
def storeElem (et : ElemTypes A T) (ar : ArrRef T) (i : Int) (v : HV A T) : HM A T (ArrRef T) := do
  let ok ← setElemH et ar i v
  afterSet et ar i v ok

/-- A modifying function, called with a left and a right argument. -/
abbrev ModFn (A T : Type) := Option (HV A T) → HV A T → HM A T (HV A T)

/-- read an element behind `ArrayBounds` (apl/array.go:117-122) -/
def slotAt (l : List (HV A T)) (i : Int) : Res (HV A T) :=
  if i < 0 then .error .err
  else
    match l[i.toNat]? with
    | some v => .ok v
    | none => .error .err

/-- apl/operators/assign.go:165-192, the closure `modAssignH`; it returns the array, which may have been upgraded -/
def modAssignH (et : ElemTypes A T) (f : Option (ModFn A T)) (ar : ArrRef T) (i : Int) (v : HV A T) : HM A T (ArrRef T) :=
  if i = -1 then pure ar
  else
    match f with
    | none => storeElem et ar i v
    | some f => do
      let l ← getSlots ar.data
      let x ← pureH (slotAt l i)
      let w ← f (some x) v
      storeElem et ar i w

/-- apl/operators/assign.go:206-210: the loop for a scalar -/
def assignOne (et : ElemTypes A T) (f : Option (ModFn A T)) (v : HV A T) : List Int → ArrRef T → HM A T (ArrRef T)
  | [], ar => pure ar
  | i :: is, ar => do
    let ar' ← modAssignH et f ar i v
    assignOne et f v is ar'

/-- apl/operators/assign.go:241-248: the loop for an array on the right, whose elements are at `src`; they are read from
the heap when they are needed, since the array on the right may be the one that is changed -/
def assignEach (et : ElemTypes A T) (n : Nat) (f : Option (ModFn A T)) (src : Nat) : List Int → Nat → ArrRef T → HM A T (ArrRef T)
  | [], _, ar => pure ar
  | i :: is, k, ar => do
    let l ← getSlots src
    let x ← pureH (slotAt l k)
    let v ← copyV n x
    let ar' ← modAssignH et f ar i v
    assignEach et n f src is (k + 1) ar'

/-- apl/operators/assign.go:213-230, `collapse`: the shape without the axes of length 1 -/
def collapse (s : List Nat) : List Nat := s.filter (· != 1)

/-- apl/operators/assign.go:195-249 with an array on the right -/
def assignFrom (et : ElemTypes A T) (n : Nat) (f : Option (ModFn A T)) (ar : ArrRef T) (idims : List Nat) (is : List Int)
    (shape : List Nat) (src : Nat) (l : List (HV A T)) : HM A T (ArrRef T) :=
  match l with
  | [x] => do
    let v ← copyV n x
    assignOne et f v is ar
  | _ => if collapse idims = collapse shape then assignEach et n f src is 0 ar else failH .err

/-- apl/operators/assign.go:147-250: indexed assignment to an array.  `EmptyArray` on the right has no shape and no elements. -/
def assignArr (et : ElemTypes A T) (n : Nat) (f : Option (ModFn A T)) (ar : ArrRef T) (idims : List Nat) (is : List Int)
    (r : HV A T) : HM A T (ArrRef T) :=
  match r with
  | .arr _ d p => do
    let s ← getDims d
    let l ← getSlots p
    assignFrom et n f ar idims is s p l
  | .list p => do
    let l ← getSlots p
    assignFrom et n f ar idims is [l.length] p l
  | .empty => if collapse idims = [] then (if is = [] then pure ar else failH .err) else failH .err
  | r => do
    let v ← copyV n r
    assignOne et f v is ar

/-- a list on the way to a nested element (apl/list.go:80-84) -/
def asList : HV A T → Res Nat
  | .list p => .ok p
  | _ => .error .err

/-- apl/list.go:66-87 `getset`: the address and the position of the element with a depth index -/
def deepSlot : Nat → List Int → HM A T (Nat × Nat)
  | _, [] => failH .err
  | p, [i] => do
    let l ← getSlots p
    let _ ← pureH (slotAt l i)
    pure (p, i.toNat)
  | p, i :: j :: is => do
    let l ← getSlots p
    let x ← pureH (slotAt l i)
    let q ← pureH (asList x)
    deepSlot q (j :: is)

/-- apl/list.go:45-47 `GetDeep` -/
def getDeepH (p : Nat) (is : List Int) : HM A T (HV A T) := do
  let s ← deepSlot p is
  let l ← getSlots s.1
  pureH (slotAt l s.2)

/-- apl/list.go:49-52 `SetDeep` -/
def setDeepH (n : Nat) (p : Nat) (is : List Int) (v : HV A T) : HM A T Unit := do
  let w ← copyV n v
  let s ← deepSlot p is
  let l ← getSlots s.1
  putObj s.1 (.slots (l.set s.2 w))

/-- apl/operators/assign.go:503-516 `assignList` -/
def assignListAt (n : Nat) (f : Option (ModFn A T)) (p : Nat) (is : List Int) (r : HV A T) : HM A T Unit :=
  match f with
  | none => setDeepH n p is r
  | some f => do
    let v ← getDeepH p is
    let w ← f (some v) r
    setDeepH n p is w

/-- the value stored under a key of a map -/
def hget [DecidableEq A] (m : List (A × HV A T)) (k : A) : Option (HV A T) := (m.find? (fun e => e.1 = k)).map (·.2)

/-- a map after storing a value under a key -/
def hset [DecidableEq A] : List (A × HV A T) → A → HV A T → List (A × HV A T)
  | [], k, v => [(k, v)]
  | e :: m, k, v => if e.1 = k then (k, v) :: m else e :: hset m k v

/-- the keys of a dictionary after `Set` -/
def keysAfter [DecidableEq A] (ks : List A) (m : List (A × HV A T)) (k : A) : List A :=
  if (hget m k).isSome then ks else ks ++ [k]

/-- apl/object.go:66-75 `Dict.Set` -/
def dictSet [DecidableEq A] (n : Nat) (p : Nat) (k : A) (v : HV A T) : HM A T Unit := do
  let w ← copyV n v
  let km ← getDict p
  putObj p (.dict (keysAfter km.1 km.2 k) (hset km.2 k w))

/-- the key with a number (apl/operators/assign.go:442-446) -/
def keyAt (ks : List A) (n : Int) : Res A :=
  if n < 0 then .error .err
  else
    match ks[n.toNat]? with
    | some k => .ok k
    | none => .error .err

/-- the value for one of the keys: an element of the array on the right, or the right argument (apl/operators/assign.go:447-453) -/
def keyValue (src : Option Nat) (r : HV A T) (i : Nat) : HM A T (HV A T) :=
  match src with
  | none => pure r
  | some p => do
    let l ← getSlots p
    pureH (slotAt l i)

/-- the modified value for one of the keys (apl/operators/assign.go:454-460) -/
def keyModified [DecidableEq A] (f : Option (ModFn A T)) (p : Nat) (k : A) (v : HV A T) : HM A T (HV A T) :=
  match f with
  | none => pure v
  | some f => do
    let km ← getDict p
    f (hget km.2 k) v

/-- the loop of `assignObjectH` (apl/operators/assign.go:441-464) -/
def assignKeys [DecidableEq A] (n : Nat) (origin : Int) (f : Option (ModFn A T)) (p : Nat) (ks : List A) (src : Option Nat) (r : HV A T) :
    List Int → Nat → HM A T Unit
  | [], _ => pure ()
  | j :: js, i => do
    let k ← pureH (keyAt ks (j - origin))
    let v ← keyValue src r i
    let w ← keyModified f p k v
    dictSet n p k w
    assignKeys n origin f p ks src r js (i + 1)

/-- are the elements of the array distributed over the keys (apl/operators/assign.go:429-439): only for more than one key, with
as many elements -/
def distributed (is : List Int) (p : Nat) (len : Nat) : Res (Option Nat) :=
  if is.length ≤ 1 then .ok none
  else if is.length = len then .ok (some p)
  else .error .err

/-- the address of the elements of an array on the right that is distributed over the keys -/
def vectorize (is : List Int) : HV A T → HM A T (Option Nat)
  | .arr _ _ p => do
    let l ← getSlots p
    pureH (distributed is p l.length)
  | .list p => do
    let l ← getSlots p
    pureH (distributed is p l.length)
  | .empty => if is.length ≤ 1 then pure none else failH .err
  | _ => pure none

/-- apl/operators/assign.go:423-466 `assignObjectH` without a depth index -/
def assignKeyed [DecidableEq A] (n : Nat) (origin : Int) (f : Option (ModFn A T)) (p : Nat) (is : List Int) (r : HV A T) : HM A T Unit := do
  let src ← vectorize is r
  let km ← getDict p
  assignKeys n origin f p km.1 src r is 0

/-- the value under a key, which must be there (apl/operators/assign.go:475-478) -/
def needed : Option (HV A T) → Res (HV A T)
  | some v => .ok v
  | none => .error .err

/-- apl/operators/assign.go:480-496 without the case of a dictionary: the value under the key after the assignment to
a part of it -/
def assignInner (et : ElemTypes A T) (n : Nat) (f : Option (ModFn A T)) (is : List Int) (r : HV A T) : HV A T → HM A T (HV A T)
  | .list q => do
    assignListAt n f q is r
    pure (.list q)
  | .arr ty d q => do
    let ar ← assignArr et n f ⟨ty, d, q⟩ [is.length] is r
    pure (.arr ar.ty ar.dims ar.data)
  | _ => failH .err

/-- apl/operators/assign.go:423-501 `assignObjectH` and `assignObjectDepth`: a negative first index is the number of a key whose
value is indexed by the rest -/
def assignObjectH [DecidableEq A] (et : ElemTypes A T) (n : Nat) (origin : Int) (f : Option (ModFn A T)) (r : HV A T) :
    Nat → List Int → HM A T Unit
  | p, [] => assignKeyed n origin f p [] r
  | p, [i] => assignKeyed n origin f p [if i < 0 then -1 - i + origin else i] r
  | p, i :: j :: is =>
    if i < 0 then do
      let km ← getDict p
      let k ← pureH (keyAt km.1 (-1 - i))
      let v ← pureH (needed (hget km.2 k))
      match v with
      | .dict q => do
        assignObjectH et n origin f r q (j :: is)
        dictSet n p k v
      | _ => do
        let w ← assignInner et n f (j :: is) r v
        dictSet n p k w
    else assignKeyed n origin f p (i :: j :: is) r

/-- apl/operators/assign.go:112-250 `assignValue`: the new value, or `none` if the storage has been changed in place.  Tables
are not modelled. -/
def assignPart [DecidableEq A] (et : ElemTypes A T) (n : Nat) (origin : Int) (dst : HV A T) (idims : List Nat) (is : List Int)
    (f : Option (ModFn A T)) (r : HV A T) : HM A T (Option (HV A T)) :=
  match dst with
  | .dict p => do
    assignObjectH et n origin f r p is
    pure none
  | .list p => do
    assignListAt n f p is r
    pure none
  | .arr ty d p => do
    let ar ← assignArr et n f ⟨ty, d, p⟩ idims is r
    pure (some (.arr ar.ty ar.dims ar.data))
  | _ => failH .err

/-- The variables and the storage.  A variable is a name in one of the environments. -/
structure Mem (X A T : Type) where
  vars : X → Option (HV A T)
  heap : Heap A T

/-- the variables after an assignment to one of them (apl/var.go:78) -/
def setVar {X : Type} [DecidableEq X] (vars : X → Option (HV A T)) (x : X) (v : HV A T) : X → Option (HV A T) :=
  fun y => if y = x then some v else vars y

/-- apl/operators/assign.go:89-110 `assignScalar`, the new value of the variable if there is one: `X←R`, `X f←R`, `X[I]←R` and
`X[I]f←R`, for an ordinary variable name.  The special variables and the environments are in Model/Interp.lean. -/
def assignTo [DecidableEq A] (et : ElemTypes A T) (n : Nat) (origin : Int) (old : Option (HV A T)) (idx : Option (List Nat × List Int))
    (f : Option (ModFn A T)) (r : HV A T) : HM A T (Option (HV A T)) :=
  match f, idx, old with
  | none, none, _ => do
    let v ← copyV n r
    pure (some v)
  | some f, none, some w => do
    let v ← f (some w) r
    let v' ← copyV n v
    pure (some v')
  | f, some (idims, is), some w => do
    let v ← assignPart et n origin w idims is f r
    match v with
    | none => pure none
    | some v => do
      let v' ← copyV n v
      pure (some v')
  | _, _, none => failH .err

/-- the variables after an assignment -/
def stored {X : Type} [DecidableEq X] (vars : X → Option (HV A T)) (x : X) : Except Fail (Option (HV A T)) → X → Option (HV A T)
  | .ok (some v) => setVar vars x v
  | _ => vars

/-- An assignment statement: the variable, the evaluated index (its shape and its values), the modifying function,
and the expression on the right.  The expression may read the variables; its value may be storage they use. -/
structure Assign (X A T : Type) where
  name : X
  idx : Option (List Nat × List Int)
  f : Option (ModFn A T)
  rhs : (X → Option (HV A T)) → HM A T (HV A T)

/-- Execute an assignment: the result of the statement and the new memory.  `none`: it does not end within the recursion depth. -/
def Assign.exec {X : Type} [DecidableEq X] [DecidableEq A] (et : ElemTypes A T) (n : Nat) (origin : Int) (st : Assign X A T)
    (σ : Mem X A T) : Option (Except Fail Unit × Mem X A T) :=
  match st.rhs σ.vars σ.heap with
  | none => none
  | some (.error e, h) => some (.error e, ⟨σ.vars, h⟩)
  | some (.ok r, h) =>
    match assignTo et n origin (σ.vars st.name) st.idx st.f r h with
    | none => none
    | some (v, h') => some (v.map (fun _ => ()), ⟨stored σ.vars st.name v, h'⟩)

end Iv
