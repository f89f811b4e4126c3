import Verif.Model.Tower
import Verif.Model.Value
/-
apl/uniform.go: conversion of an array of mixed values to a uniform array.
-/
namespace Iv
variable {V O : Type}

/-- An element of an array: a number, a string, or a value of another type (`ty` names the type). -/
inductive UItem (V O : Type)
  | num (x : TNum V)
  | str (s : String)
  | other (ty : Nat) (v : O)
deriving DecidableEq

/-- The Go type of an element (`reflect.TypeOf`). -/
inductive GoType
  | bool
  | int
  | cls (c : Nat)
  | str
  | other (ty : Nat)
deriving DecidableEq, Repr

/-- `reflect.TypeOf` of an element -/
def UItem.type : UItem V O → GoType
  | .num (.bool _) => .bool
  | .num (.int _) => .int
  | .num (.num c _) => .cls c
  | .str _ => .str
  | .other ty _ => .other ty

/-- The representation of an array: `EmptyArray`, `MixedArray`, `List`, a uniform array of elements of one type (BoolArray, IntArray,
StringArray, the arrays of the tower), or another array type. -/
inductive Repr'
  | empty
  | mixed
  | list
  | compact (ty : GoType)
  | other (ty : Nat)
deriving DecidableEq, Repr

/-- An array with its representation. -/
structure UArr (V O : Type) where
  rep : Repr'
  shape : List Nat
  items : List (UItem V O)

/-- apl/uniform.go:19-32 the function `class`; `none` is `noNumber` -/
def Tower.classOf (t : Tower V) : GoType → Option Int
  | .bool => some (-2)
  | .int => some (-1)
  | .cls c => if c < t.len then some c else none
  | _ => none

/-- The number of an element (`v.(Number)`). -/
def UItem.number : UItem V O → Option (TNum V)
  | .num x => some x
  | _ => none

/-- The state of the loop of apl/uniform.go:49-66. -/
structure ScanSt (V : Type) where
  max : Option Int
  maxnumber : Option (TNum V)
  sametype : Bool

/-- apl/uniform.go:59-65: the body of the loop, after the comparison of the types -/
def Tower.unifyMax (t : Tower V) (s : ScanSt V) (v : UItem V O) : ScanSt V :=
  match s.max with
  | none => s
  | some m =>
    match t.classOf v.type with
    | none => { s with max := none }
    | some c => if c > m then { s with max := some c, maxnumber := v.number } else s

/-- apl/uniform.go:49-66: the loop over the elements from the second on; `none`: the function returns `A, false` -/
def Tower.unifyScan (t : Tower V) (uptype : Bool) (t0 : GoType) : ScanSt V → List (UItem V O) → Option (ScanSt V)
  | s, [] => some s
  | s, v :: vs =>
    if v.type ≠ t0 then
      if uptype = false then none else t.unifyScan uptype t0 (t.unifyMax { s with sametype := false } v) vs
    else t.unifyScan uptype t0 (t.unifyMax s v) vs

/-- apl/uniform.go:81-85, 126-130: `Tower.Uniform(values)` (`uni` tells for which type of the first value it succeeds; numbers/register.go:61-77:
for all of the default tower; big/register.go: for none) and `Reshape` of the vector it returns. -/
def uniformOf (uni : GoType → Bool) (shape : List Nat) : List (UItem V O) → Option (UArr V O)
  | [] => none
  | v :: vs =>
    if uni v.type then
      match cycFill (v :: vs) (prod shape) 0 with
      | .ok d => some ⟨.compact v.type, shape, d⟩
      | .error _ => none
    else none

/-- apl/uniform.go:68-110: all elements have the type `t0`. -/
def Tower.unifySame (_t : Tower V) (uni : GoType → Bool) (A : UArr V O) (t0 : GoType) (max : Option Int) : UArr V O × Bool :=
  match max with
  | some _ =>
    match A.rep with
    | .mixed | .list =>
      match uniformOf uni A.shape A.items with
      | none => (A, true)
      | some u => (u, true)
    | _ => (A, true)
  | none => if t0 = .str then (⟨.compact .str, A.shape, A.items⟩, true) else (A, true)

/-- apl/uniform.go:117-126: the first result of `SameType(v, maxnumber)` for every element -/
def Tower.unifyConv (t : Tower V) (mx : TNum V) : List (UItem V O) → Option (List (UItem V O))
  | [] => some []
  | .num x :: vs =>
    match t.sameType x mx with
    | .ok (y, _) => (t.unifyConv mx vs).map (UItem.num y :: ·)
    | .error _ => none
  | _ :: _ => none

/-- apl/uniform.go:10-135 `Unify`.  The elements are those of `At(0)`, `At(1)` … -/
def Tower.unify (t : Tower V) (uni : GoType → Bool) (A : UArr V O) (uptype : Bool) : UArr V O × Bool :=
  match A.rep with
  | .empty => (A, false)
  | .compact _ => (A, true)
  | _ =>
    match A.items with
    | [] => (A, true)
    | v0 :: vs =>
      let s0 : ScanSt V := ⟨t.classOf v0.type, if (t.classOf v0.type).isSome then v0.number else none, true⟩
      match t.unifyScan uptype v0.type s0 vs with
      | none => (A, false)
      | some s =>
        if s.sametype then t.unifySame uni A v0.type s.max
        else
          match s.max, s.maxnumber with
          | some _, some mx =>
            match t.unifyConv mx A.items with
            | none => (A, false)
            | some values =>
              match uniformOf uni A.shape values with
              | some u => (u, true)
              | none => (A, false)
          | _, _ => (A, false)

/-- apl/uniform.go:137-141 `UnifyArray` -/
def Tower.unifyArray (t : Tower V) (uni : GoType → Bool) (A : UArr V O) : UArr V O := (t.unify uni A false).1

end Iv
