import Verif.Model.Package
import Verif.Model.Parse
import Verif.Model.Format
import Verif.Model.Scalar
import Verif.Model.Take
import Verif.Model.Reverse
import Verif.Model.Catenate
import Verif.Model.Reduce
import Verif.Model.Ops
import Verif.Model.Effect
import Verif.Model.Search
import Verif.SpecCalc
/-
The interpreter with its primitive functions: the models of the scanner, the parser, the evaluator and of some primitive functions and operators
are put together.  A value is a number, a string, another scalar, or an array of such elements.
-/
namespace Iv
variable {V O H : Type}

/-- the values of the interpreter -/
abbrev AVal (V O : Type) := Val (UItem V O)

/-- What the functions depend on: the text of numbers, the tower, the methods of the numbers of the tower, and everything that is
not modelled here: elements that are not numbers, functions for other arguments. -/
structure StdEnv (V O : Type) where
  text : TextEnv V O
  tower : Tower V
  /-- types with a uniform array type (`Tower.Uniform`) -/
  uni : GoType → Bool
  /-- methods of the numbers of a class: `Add2`, ... and `Equals`, `Less` -/
  method2 : Calc.Prim → Nat → V → V → Option (TNum V)
  method1 : Calc.Prim → Nat → V → Option (TNum V)
  eqs : Nat → V → V → Option Bool
  les : Nat → V → V → Option Bool
  /-- `ToIndex` of the numbers of a class -/
  index : Nat → V → Option Int
  /-- `Tower.ToBool` of the numbers of a class -/
  truth : Nat → V → Option Bool
  /-- `Zero()` of the uniform arrays of the tower -/
  zero : UItem V O
  /-- elements that are not both numbers -/
  rest2 : Calc.Prim → UItem V O → UItem V O → Res (UItem V O)
  rest1 : Calc.Prim → UItem V O → Res (UItem V O)
  /-- other functions -/
  other2 : Calc.Prim → AVal V O → AVal V O → Res (AVal V O)
  other1 : Calc.Prim → AVal V O → Res (AVal V O)

variable (e : StdEnv V O)

/-- apl/uniform.go `Unify` as far as the representation of the result of a primitive function is concerned -/
def StdEnv.kind (d : List (UItem V O)) : Kind :=
  match (e.tower.unifyArray e.uni ⟨.mixed, [d.length], d⟩).rep with
  | .compact .int => .int
  | .compact .bool => .bool
  | .compact .str => .str
  | .compact _ => .num
  | _ => .mixed

/-- apl/primitives/compare.go:116-121 `less` -/
def StdEnv.less (l r : TNum V) : Option Bool := cmpNum e.eqs e.les .lt l r

/-- apl/primitives/compare.go:58-92: the comparison of a symbol -/
def cmpOf : Calc.Prim → Option Cmp
  | .eq => some .eq | .ne => some .ne | .lt => some .lt | .le => some .le | .gt => some .gt | .ge => some .ge
  | _ => none

/-- The elementary functions of two numbers of one type: apl/int.go:63-90 (`Add2`, `Sub2`, `Mul2`), apl/primitives/elementary.go:200-254,
389-424 (`min2`, `max2`), apl/primitives/compare.go:58-92. -/
def StdEnv.fn2 (p : Calc.Prim) (l r : TNum V) : Option (TNum V) :=
  match cmpOf p with
  | some op => (cmpNum e.eqs e.les op l r).map .bool
  | none =>
    match p, l, r with
    | .min, l, r => (e.less l r).map (fun b => if b then l else r)
    | .max, l, r => (e.less l r).map (fun b => if b then r else l)
    | .add, .int i, .int j => (intAdd2 i j).map .int
    | .sub, .int i, .int j => (intSub2 i j).map .int
    | .mul, .int i, .int j => (intMul2 i j).map .int
    | p, .num c v, .num _ w => e.method2 p c v w
    | _, _, _ => none

/-- the elementary functions of one number: apl/int.go:67-90 (`Add`, `Sub`, `Mul`) -/
def StdEnv.fn1 (p : Calc.Prim) (r : TNum V) : Option (TNum V) :=
  match p, r with
  | .add, .int i => some (.int i)
  | .sub, .int i => (intSub i).map .int
  | .mul, .int i => (intMul i).map .int
  | p, .num c v => e.method1 p c v
  | _, _ => none

/-- apl/primitives/elementary.go:147-189 `arith2` for two elements -/
def StdEnv.item2 (p : Calc.Prim) (l r : UItem V O) : Res (UItem V O) :=
  match l, r with
  | .num a, .num b => (e.tower.arith2 (e.fn2 p) a b).map .num
  | l, r => e.rest2 p l r

/-- apl/primitives/elementary.go:114-142 `arith1` for an element.  The loop of `arith1` ends after at most as many rounds as there are
types of numbers (`C34_arith1_terminates`). -/
def StdEnv.item1 (p : Calc.Prim) (r : UItem V O) : Res (UItem V O) :=
  match r with
  | .num a => match e.tower.arith1 (e.fn1 p) (e.tower.len + 3) a with
    | some x => x.map .num
    | none => .error .err
  | r => e.rest1 p r

/-- apl/domain/numeric.go `ToIndex` of an element -/
def StdEnv.itemIndex : UItem V O → Option Int
  | .num (.bool b) => some (bool2int b)
  | .num (.int i) => some i
  | .num (.num c v) => e.index c v
  | _ => none

/-- apl/domain/array.go `ToIndexArray` of a scalar or a vector: the numbers -/
def StdEnv.indexes (v : AVal V O) : Option (List Int) :=
  match v with
  | .scalar x => (e.itemIndex x).map (fun i => [i])
  | .arr _ a => if a.shape.length = 1 then a.data.mapM e.itemIndex else none
  | _ => none

/-- the elements of an array of integers -/
def intVals : Val Int → AVal V O
  | .scalar x => .scalar (.num (.int x))
  | .empty => .empty
  | .arr k a => .arr k ⟨a.shape, a.data.map (fun x => .num (.int x))⟩
  | .bad s d => .bad s (d.map (fun x => .num (.int x)))

/-- apl/primitives/iota.go:44-60 `interval` -/
def stdInterval (origin : Int) (n : Int) : Res (AVal V O) := (interval origin n).map intVals

/-- The functions with one argument: `+ - ×` (apl/primitives/elementary.go:34-57), `⍴` (rho.go:33-62), `⍳` (iota.go:44-60),
`,` (comma.go:47-78), `⌽` (reverse.go:50-87). -/
def StdEnv.prim1 (origin : Int) (p : Calc.Prim) (r : AVal V O) : Res (AVal V O) :=
  match p with
  | .add => scalarMonadic e.kind (e.item1 .add) r
  | .sub => scalarMonadic e.kind (e.item1 .sub) r
  | .mul => scalarMonadic e.kind (e.item1 .mul) r
  | .rho => .ok (intVals (rho1 r))
  | .iota => match r with
    | .scalar x => match e.itemIndex x with
      | some n => stdInterval origin n
      | none => .error .err
    | r => e.other1 .iota r
  | .comma => ravel e.kind r
  | .rev => reverse r (-1)
  | p => e.other1 p r

/-- apl/operators/rank.go:354-359: what take fills with -/
def StdEnv.fill : AVal V O → UItem V O
  | .arr .bool _ => .num (.bool false)
  | .arr .str _ => .str ""
  | .arr .num _ => e.zero
  | .scalar x => match e.kind [x] with
    | .bool => .num (.bool false)
    | .str => .str ""
    | .num => e.zero
    | _ => .num (.int 0)
  | _ => .num (.int 0)

/-- The functions with two arguments: scalar functions (elementary.go:31-95, compare.go:13-36), `⍴` (rho.go:65-82), `,` (comma.go:190-310),
`↑` and `↓` (take.go:75-178), `⌽` (reverse.go:101-201). -/
def StdEnv.prim2 (p : Calc.Prim) (l r : AVal V O) : Res (AVal V O) :=
  match p with
  | .rho => match e.indexes l with
    | some n => rho2 (.num (.int 0)) e.kind n r
    | none => .error .err
  | .comma => catenate e.kind .last l r
  | .take => match e.indexes l with
    | some n => takedrop e.kind true (.num (.int 0)) (e.fill r) (some n) r []
    | none => e.other2 .take l r
  | .drop => match e.indexes l with
    | some n => takedrop e.kind false (.num (.int 0)) (e.fill r) (some n) r []
    | none => e.other2 .drop l r
  | .iota => e.other2 .iota l r
  | .rev => match e.indexes l, r with
    | some _, .scalar x => .ok (.scalar x)
    | some n, .arr k a => if a.shape = [] then e.other2 .rev l r else (rotateArr ⟨[n.length], n⟩ a (-1)).map (.arr k)
    | _, r => e.other2 .rev l r
  | p => scalarDyadic e.kind (e.item2 p) l r

/-- `f.Call` with two elements; the result must be an element.  Simplification: results that are arrays are not modelled. -/
def itemOf : Except Fail (IVal (AVal V O)) → Res (UItem V O)
  | .ok (.data (.scalar x)) => .ok x
  | .ok _ => .error .err
  | .error x => .error x

/-- sequencing of the interactions of Go code -/
def Act.bind {D H ρ σ : Type} : Act D H ρ → (ρ → Act D H σ) → Act D H σ
  | .ret (.ok v), k => k v
  | .ret (.error x), _ => .ret (.error x)
  | .call f l r c, k => .call f l r (fun x => (c x).bind k)
  | .exec p c, k => .exec p (fun x => (c x).bind k)
  | .envCall f l r vars c, k => .envCall f l r vars (fun x => (c x).bind k)
  | .print v c, k => .print v (c.bind k)
  | .origin c, k => .origin (fun x => (c x).bind k)
  | .getH c, k => .getH (fun x => (c x).bind k)
  | .setH h c, k => .setH h (c.bind k)

instance {D H : Type} : Monad (Act D H) where
  pure v := .ret (.ok v)
  bind := Act.bind

/-- the function `f` on elements -/
def callItem (f : Func (AVal V O)) (x y : UItem V O) : ExceptT Fail (Act (AVal V O) H) (UItem V O) :=
  ExceptT.mk (.call f (some (.data (.scalar x))) (.data (.scalar y)) (fun r => .ret (.ok (itemOf r))))

/-- a finished computation -/
def finish : Except Fail (AVal V O) → Act (AVal V O) H (IVal (AVal V O))
  | .ok v => .ret (.ok (.data v))
  | .error x => .ret (.error x)

/-- apl/operators/reduce.go:96-110 `reduction` (`f/`) without left argument; `ident` is the identity item of `f`, for arrays without elements -/
def StdEnv.reduceAct (ident : Func (AVal V O) → Option (UItem V O)) (f : Func (AVal V O)) (r : AVal V O) : Act (AVal V O) H (IVal (AVal V O)) :=
  Act.bind (reduct (m := Act (AVal V O) H) e.kind (ident f) (callItem f) r (-1)).run finish

/-- apl/operators/reduce.go:242-338 `scanArray`, `scanfunc` (`f\`) without left argument -/
def StdEnv.scanAct (f : Func (AVal V O)) (r : AVal V O) : Act (AVal V O) H (IVal (AVal V O)) :=
  Act.bind (scanfunc (m := Act (AVal V O) H) e.kind (callItem f) r (-1)).run finish

/-- the result of a function as a value; simplification: functions as results are not modelled -/
def dataOf : Except Fail (IVal (AVal V O)) → Res (AVal V O)
  | .ok (.data v) => .ok v
  | .ok _ => .error .err
  | .error x => .error x

/-- `f.Call` -/
def callVal (f : Func (AVal V O)) (l : Option (AVal V O)) (r : AVal V O) : ExceptT Fail (Act (AVal V O) H) (AVal V O) :=
  ExceptT.mk (.call f (l.map .data) (.data r) (fun x => .ret (.ok (dataOf x))))

/-- apl/operators/each.go:25-35 `each` -/
def StdEnv.eachAct (f : Func (AVal V O)) (l : Option (AVal V O)) (r : AVal V O) : Act (AVal V O) H (IVal (AVal V O)) :=
  match l with
  | none => Act.bind (each1 (m := Act (AVal V O) H) e.kind (callVal f) r).run finish
  | some l => Act.bind (each2 (m := Act (AVal V O) H) e.kind (callVal f) l r).run finish

/-- apl/operators/commute.go:17-26 `commute` -/
def swapAct (f : Func (AVal V O)) (l : Option (IVal (AVal V O))) (r : IVal (AVal V O)) : Act (AVal V O) H (IVal (AVal V O)) :=
  match l with
  | none => .call f (some r) r (fun x => .ret x)
  | some l => .call f (some r) l (fun x => .ret x)

/-- the text of a value, `v.String(a.Format)`: apl/array.go:204 and the same for the other types (`ArrayString`), 255 (`EmptyArray`) -/
def StdEnv.valText (pp : Int) : AVal V O → Res (List Char)
  | .scalar x => .ok (itemText e.text pp x)
  | .empty => .ok []
  | .arr _ a => arrayText e.text pp a.shape a.data
  | .bad _ _ => .error .panic

/-- a truth value: apl/lambda.go:150-158 -/
def StdEnv.toBool : AVal V O → Option Bool
  | .scalar (.num (.bool b)) => some b
  | .scalar (.num (.int i)) => intToBool i
  | .scalar (.num (.num c v)) => e.truth c v
  | _ => none

/-- the value of the element of a strand -/
def strandItem : IVal (AVal V O) → Option (UItem V O)
  | .data (.scalar x) => some x
  | _ => none

/-- apl/array.go:34-70: the representation of a strand: a uniform array, if all elements have one type that has one -/
def StdEnv.strandKind : List (UItem V O) → Kind
  | [] => .mixed
  | x :: xs =>
    if xs.all (fun y => y.type == x.type) then
      match x.type with
      | .str => .str
      | .bool => .bool
      | .int => .int
      | t => if e.uni t then .num else .mixed
    else .mixed

/-- apl/array.go:34-71: the array of a strand -/
def StdEnv.strandAct (vs : List (IVal (AVal V O))) : Act (AVal V O) H (IVal (AVal V O)) :=
  match vs.mapM strandItem with
  | some d => .ret (.ok (.data (.arr (e.strandKind d) ⟨[d.length], d⟩)))
  | none => .ret (.error .err)

/-- the primitive function of a symbol -/
def primOf (s : String) : Option Calc.Prim :=
  [Calc.Prim.add, .sub, .mul, .min, .max, .eq, .ne, .lt, .le, .gt, .ge, .rho, .iota, .comma, .rev, .take, .drop].find?
    (fun p => String.ofList [p.char] == s)

/-- The handlers of a primitive function (apl/primitives/register.go, apl/primitives/elementary.go:31-95 and others) put together in one handler
that accepts all arrays; arguments that are functions, lists, dictionaries, … are not modelled here. -/
def StdEnv.handler (p : Calc.Prim) : Handler (AVal V O) H where
  «to» l r := some (l, r)
  call l r := match l, r with
    | none, .data r => .origin (fun io => finish (e.prim1 io p r))
    | some (.data l), .data r => finish (e.prim2 p l r)
    | _, _ => .ret (.error .err)
  select _ _ := .ret (.error .err)

/-- the operator `/` (apl/operators/reduce.go:15-29) for a function and no left argument -/
def StdEnv.reduceOp (ident : Func (AVal V O) → Option (UItem V O)) : OpHandler (AVal V O) H where
  dyadic := false
  «to» lo ro := some (lo, ro)
  derived lo _ l r := match lo, l, r with
    | .fn f, none, .data r => e.reduceAct ident f r
    | _, _, _ => .ret (.error .err)
  select _ _ _ _ := .ret (.error .err)

/-- the operator `\` (apl/operators/reduce.go:24-29) for a function -/
def StdEnv.scanOp : OpHandler (AVal V O) H where
  dyadic := false
  «to» lo ro := some (lo, ro)
  derived lo _ l r := match lo, l, r with
    | .fn f, none, .data r => e.scanAct f r
    | _, _, _ => .ret (.error .err)
  select _ _ _ _ := .ret (.error .err)

/-- the operator `¨` (apl/operators/each.go:10-23); `<¨` sends the elements over a channel and is not modelled here -/
def StdEnv.eachOp : OpHandler (AVal V O) H where
  dyadic := false
  «to» lo ro := some (lo, ro)
  derived lo _ l r := match lo, l, r with
    | .fn (.prim s), none, .data r => if s = "<" then .ret (.error .err) else e.eachAct (.prim s) none r
    | .fn (.prim s), some (.data l), .data r => if s = "<" then .ret (.error .err) else e.eachAct (.prim s) (some l) r
    | .fn f, none, .data r => e.eachAct f none r
    | .fn f, some (.data l), .data r => e.eachAct f (some l) r
    | _, _, _ => .ret (.error .err)
  select _ _ _ _ := .ret (.error .err)

/-- the operator `⍨` (apl/operators/commute.go:9-27) -/
def swapOp : OpHandler (AVal V O) H where
  dyadic := false
  «to» lo ro := some (lo, ro)
  derived lo _ l r := match lo with
    | .fn f => swapAct f l r
    | _ => .ret (.error .err)
  select _ _ _ _ := .ret (.error .err)

/-- An interpreter with these primitive functions and operators and nothing else.  Not modelled here: lists, index specifications, indexed
and vector assignment, other primitives and operators. -/
def StdEnv.sys (ident : Func (AVal V O) → Option (UItem V O)) (letter number upper : Char → Bool) : Sys (AVal V O) H where
  letter := letter
  number := number
  upper := upper
  toBool := e.toBool
  isScalar v := match v with
    | .scalar _ => true
    | _ => false
  ofInt n := .scalar (.num (.int n))
  empty := .empty
  strand := e.strandAct
  list _ := .ret (.error .err)
  spec _ := .ret (.error .err)
  copy v := .ret (.ok v)
  prims s := (primOf s).map (fun p => [e.handler p])
  ops s := if s = "/" then [e.reduceOp ident] else if s = "\\" then [e.scanOp] else if s = "⍨" then [swapOp] else
    if s = "¨" then [e.eachOp] else []
  native _ _ _ := .ret (.error .err)
  pkgVar _ := none
  setPP _ := none
  setIdx _ _ _ _ := .ret (.error .err)
  elems _ := .ret (.error .err)

/-- The machine around it: the scanner knows its symbols (apl/scan/scan.go:95-108), the parser its primitive functions and operators
(apl/parse.go), numbers are read by the tower (apl/tower.go:37-63).  There are no commands and no files. -/
def StdEnv.world (ident : Func (AVal V O) → Option (UItem V O)) (letter number upper space : Char → Bool) : World (AVal V O) H where
  sys := e.sys ident letter number upper
  ctx := {
    symbol := fun c => if c ∈ Calc.symbols then some (String.ofList [c]) else none
    letter := letter
    number := number
    space := space
    cmd := fun _ => none }
  pctx := {
    prim := fun s => (primOf s).isSome
    op := fun s => if s ∈ ["/", "\\", "⍨", "¨", "←"] then some false else none
    varname := isVarname (e.sys (H := H) ident letter number upper)
    number := fun s => (parseNumber e.text s.toList).map (fun x => .scalar (.num x))
    str := fun s => .scalar (.str s)
    empty := .empty }
  lower _ := false
  load _ := none
  files _ := none

end Iv
