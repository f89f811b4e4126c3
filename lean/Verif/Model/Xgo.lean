import Verif.Model.Effect
import Verif.Model.Dict
/-
apl/xgo: calling Go functions and using Go structs (convert.go, function.go, type.go).
Simplifications: the Go types are int, uint, float64, complex128, string, slices of them, and structs; all other kinds are `other`; named types
with these kinds and values that implement `Exporter` are not modelled.  The fields of the structs are kept in a heap; a struct is the address
of its fields.  Go copies the fields when a struct is passed by value or stored in a field; the copy is not modelled.
-/
namespace Iv

/-- Go types -/
inductive GT : Type
  | int | uint | float | complex | str
  | slice (e : GT)
  | struct (name : String)
  | other
deriving DecidableEq

/-- Go values (`reflect.Value`) -/
inductive GV (F C : Type) : Type
  | int (i : Int)
  | uint (n : Nat)
  | float (f : F)
  | complex (c : C)
  | str (s : String)
  | slice (e : GT) (vs : List (GV F C))
  | struct (name : String) (loc : Nat)
  | other

/-- APL values, as far as they matter here.  `arr` is any array with its elements (`At`), `ref` is `xgo.Value`, `fn` is `xgo.Function` -/
inductive XV (F C : Type) : Type
  | int (i : Int)
  | float (f : F)
  | complex (c : C)
  | str (s : String)
  | arr (shape : List Nat) (vs : List (XV F C))
  | empty
  | list (vs : List (XV F C))
  | ref (name : String) (loc : Nat)
  | fn (name : String)
  | other

variable {F C : Type}

/-- the type of a value -/
def GV.type : GV F C → GT
  | .int _ => .int
  | .uint _ => .uint
  | .float _ => .float
  | .complex _ => .complex
  | .str _ => .str
  | .slice e _ => .slice e
  | .struct n _ => .struct n
  | .other => .other

mutual
/-- apl/xgo/convert.go:17-71 `export`.  The type assertions panic. -/
def exportGo : XV F C → GT → Res (GV F C)
  | v, .int => match v with
    | .int i => .ok (.int i)
    | _ => .error .panic
  | v, .float => match v with
    | .float f => .ok (.float f)
    | _ => .error .panic
  | v, .complex => match v with
    | .complex c => .ok (.complex c)
    | _ => .error .panic
  | v, .str => match v with
    | .str s => .ok (.str s)
    | _ => .error .panic
  | .arr _ vs, .slice e => match exportAll vs e with
    | .ok gs => .ok (.slice e gs)
    | .error x => .error x
  | .list vs, .slice e => match exportAll vs e with
    | .ok gs => .ok (.slice e gs)
    | .error x => .error x
  | .empty, .slice e => .ok (.slice e [])
  | _, .slice _ => .error .err
  | v, .struct name => match v with
    | .ref n loc => if n = name then .ok (.struct n loc) else .error .err
    | _ => .error .err
  | _, .uint => .error .err
  | _, .other => .error .err

/-- apl/xgo/convert.go:46-53: the elements of a slice -/
def exportAll : List (XV F C) → GT → Res (List (GV F C))
  | [], _ => .ok []
  | v :: vs, e => match exportGo v e with
    | .error x => .error x
    | .ok g => match exportAll vs e with
      | .error x => .error x
      | .ok gs => .ok (g :: gs)
end

mutual
/-- apl/xgo/convert.go:74-111 `Convert`; `addr` tells if the value is addressable: `Addr` panics otherwise.  Elements of slices always are. -/
def convertGo : (addr : Bool) → GV F C → Res (XV F C)
  | _, .int i => .ok (.int i)
  | _, .uint n => .ok (.int (if n < 2 ^ 63 then n else n - 2 ^ 64))
  | _, .float f => .ok (.float f)
  | _, .complex c => .ok (.complex c)
  | _, .str s => .ok (.str s)
  | _, .slice _ vs => match convertAll vs with
    | .ok xs => .ok (.arr [vs.length] xs)
    | .error x => .error x
  | addr, .struct n loc => if addr then .ok (.ref n loc) else .error .panic
  | _, .other => .error .err

/-- apl/xgo/convert.go:94-102: the elements of a slice -/
def convertAll : List (GV F C) → Res (List (XV F C))
  | [] => .ok []
  | g :: gs => match convertGo true g with
    | .error x => .error x
    | .ok v => match convertAll gs with
      | .error x => .error x
      | .ok vs => .ok (v :: vs)
end

/-- apl/xgo/function.go:62-67: the elements of the right argument -/
def exportEach : List (XV F C) → List GT → Res (List (GV F C))
  | v :: vs, t :: ts => do
    let g ← exportGo v t
    let gs ← exportEach vs ts
    .ok (g :: gs)
  | _, _ => .ok []

/-- apl/array.go:90-95, apl/list.go:33-43: arrays and lists are an `apl.Array`, with a shape and elements -/
def XV.array : XV F C → Option (List Nat × List (XV F C))
  | .arr shape vs => some (shape, vs)
  | .list vs => some ([vs.length], vs)
  | .empty => some ([0], [])
  | _ => none

/-- apl/xgo/function.go:33-68: the arguments of the Go function.  With a left argument and three or more parameters no argument is set, which
makes `reflect` panic. -/
def exportArgs (ts : List GT) (l : Option (XV F C)) (r : XV F C) : Res (List (GV F C)) :=
  match ts with
  | [] => .ok []
  | [t] => do
    let g ← exportGo r t
    .ok [g]
  | t0 :: t1 :: ts =>
    match l with
    | none => match r.array with
      | some (shape, vs) =>
        if shape.length > 1 then .error .err
        else if vs.length ≠ (t0 :: t1 :: ts).length then .error .err
        else exportEach vs (t0 :: t1 :: ts)
      | none => .error .err
    | some l => match ts with
      | [] => do
        let g0 ← exportGo r t0
        let g1 ← exportGo l t1
        .ok [g0, g1]
      | _ => .error .panic

/-- apl/xgo/function.go:90-97: several results -/
def convertEach : List (GV F C) → Res (List (XV F C))
  | [] => .ok []
  | g :: gs => do
    let v ← convertGo false g
    let vs ← convertEach gs
    .ok (v :: vs)

/-- apl/xgo/function.go:83-97: the results, without the error -/
def convertOuts (outs : List (GV F C)) : Res (XV F C) :=
  match outs with
  | [] => .ok .empty
  | [g] => convertGo false g
  | _ => do
    let vs ← convertEach outs
    .ok (.list vs)

/-- apl/xgo/function.go:69-81: the error is checked first; `failed` is none if the last result is not an error, otherwise it tells if the error is
not nil. -/
def goResult : List (GV F C) × Option Bool → Res (XV F C)
  | (outs, none) => convertOuts outs
  | (outs, some false) => convertOuts outs
  | (_, some true) => .error .err

/-- apl/xgo/function.go:28-98 `Function.Call`.  The Go function has any effects. -/
def callGo {m : Type → Type} [Monad m] (ts : List GT) (fn : List (GV F C) → ExceptT Fail m (List (GV F C) × Option Bool)) (l : Option (XV F C)) (r : XV F C) :
    ExceptT Fail m (XV F C) := do
  let xs ← ofRes (exportArgs ts l r)
  let out ← fn xs
  ofRes (goResult out)

/-- the fields of all structs: `heap[loc]` are the fields of the struct with address `loc`, with their names -/
abbrev GoHeap (F C : Type) := List (List (String × GV F C))

/-- a field of a struct -/
def GoHeap.field (h : GoHeap F C) (loc : Nat) (name : String) : Option (GV F C) := (h[loc]?).bind (fun fs => mapGet fs name)

/-- apl/xgo/type.go:82-109 `Value.At`; `up` makes the first letter upper case, `method` tells if there is a method of the name.  nil is none. -/
def xgoAt (up : String → String) (method : String → Bool) (h : GoHeap F C) (loc : Nat) (key : XV F C) : Option (XV F C) :=
  match key with
  | .str s =>
    if method (up s) then some (.fn (up s))
    else match h.field loc (up s) with
      | none => none
      | some g => match convertGo true g with
        | .ok v => some v
        | .error _ => none
  | _ => none

/-- apl/xgo/type.go:111-131 `Value.Set` -/
def xgoSet (h : GoHeap F C) (loc : Nat) (key v : XV F C) : Res (GoHeap F C) :=
  match key with
  | .str s => match h.field loc s with
    | none => .error .err
    | some g => match exportGo v g.type with
      | .error e => .error e
      | .ok g' => .ok (h.modify loc (fun fs => mapSet fs s g'))
  | _ => .error .err

end Iv
