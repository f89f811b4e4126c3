import Verif.Model.Dict
/-
The interpreter: expressions, functions, environments, evaluation
(apl/eval.go, apl/function.go, apl/lambda.go, apl/op.go, apl/train.go, apl/var.go, apl/assign.go, apl/operators/assign.go).

Data (numbers, arrays, strings, dictionaries, ...) is an arbitrary type `D`; the Go heap with the contents of slices and maps is
an arbitrary type `H`.  Primitive functions, operators, the conversion of domains and the indexed part of an assignment are given
by a `Sys`: they are arbitrary Go code, which is modelled as an interaction (`Act`): it may call functions, evaluate parsed
programs, call a function in an environment of its own, print, read ⎕IO, read and write the heap, any number of times, depending
on the results, and finally returns a value or an error.

Every environment ever created has a number (the Go pointer); `St.cur` is the pointer `a.env`.

An evaluation runs with fuel; without fuel it has no outcome.  Goroutines (channels) are not modelled here.
-/
namespace Iv

mutual
/-- apl/eval.go:134-137 `expr`.  `lit` is a constant (numbers, strings, EmptyArray evaluate to themselves); `var` is
`numVar` (apl/var.go:165-179); `strand` is `array` (apl/array.go:28-72); `list` and `spec` are apl/list.go:107-121 and
apl/index.go:43-71; `fn` is any function used as an expression (it evaluates to itself); `app` is `*function`
(apl/function.go:27-31). -/
inductive Expr (D : Type) : Type
  | lit (d : D)
  | var (name : String)
  | strand (es : List (Expr D))
  | list (es : List (Expr D))
  | spec (es : List (Expr D))
  | fn (f : Func D)
  | app (f : Func D) (left : Option (Expr D)) (right : Expr D) (sel : Bool)

/-- `Function` values (apl/function.go:7-12): `prim` is `Primitive`; `fvar` is `fnVar` (apl/var.go:181-190); `lam` is `*lambda`
(apl/lambda.go:16-18, without a body for `{}`); `self` is ∇; `der` is `*derived` (apl/op.go:33-39); `train` is apl/train.go:8-11;
`native` is `ToFunction` (apl/function.go:196-198). -/
inductive Func (D : Type) : Type
  | prim (s : String)
  | fvar (name : String)
  | lam (body : Option (List (Guard D)))
  | self
  | der (op : String) (lo ro : Option (Expr D))
  | train (es : List (Expr D))
  | native (id : String)

/-- apl/lambda.go:125-128 `guardExpr` -/
inductive Guard (D : Type) : Type
  | mk (cond : Option (Expr D)) (e : Option (Expr D))
end

/-- Values.  `ident` is `Identifier` (apl/var.go:12-26), the value of an undeclared variable; `target` is `assignment`
(apl/assign.go:8-13), the unevaluated left argument of `←`. -/
inductive IVal (D : Type) : Type
  | data (d : D)
  | fn (f : Func D)
  | ident (name : String)
  | target (e : Expr D)

/-- the condition of a guard -/
def Guard.cond {D} : Guard D → Option (Expr D)
  | .mk c _ => c

/-- the expression of a guard -/
def Guard.e {D} : Guard D → Option (Expr D)
  | .mk _ e => e

/-- The variables of an environment: a Go map; the stored value may be nil (the left argument ⍺ of a monadic call). -/
abbrev Vars (D : Type) := List (String × Option (IVal D))

/-- apl/lambda.go:8-13 `env` -/
structure Env (D : Type) where
  parent : Option Nat
  vars : Vars D

/-- The interpreter state (apl/apl.go:31-47): all environments created so far, the current one, ⎕IO, ⎕PP, the values printed
so far and the heap. -/
structure St (D H : Type) where
  envs : List (Env D)
  cur : Nat
  origin : Int
  pp : Int
  out : List (IVal D)
  heap : H

/-- Evaluation: `none` is "still running" (out of fuel), otherwise a value or an error, and the new state. -/
def EM (D H α : Type) : Type := St D H → Option (Except Fail α × St D H)

instance {D H} : Monad (EM D H) where
  pure a := fun s => some (.ok a, s)
  bind m f := fun s =>
    match m s with
    | none => none
    | some (.error e, s') => some (.error e, s')
    | some (.ok a, s') => f a s'

/-- return an error -/
def fail {D H α : Type} (e : Fail) : EM D H α := fun s => some (.error e, s)

/-- no outcome: the fuel is used up -/
def noFuel {D H α : Type} : EM D H α := fun _ => none

/-- read the state -/
def getSt {D H : Type} : EM D H (St D H) := fun s => some (.ok s, s)

/-- change the state -/
def modSt {D H : Type} (f : St D H → St D H) : EM D H Unit := fun s => some (.ok (), f s)

/-- run `m`, hand the outcome over instead of failing -/
def tryEM {D H α : Type} (m : EM D H α) : EM D H (Except Fail α) := fun s =>
  match m s with
  | none => none
  | some (r, s') => some (.ok r, s')

/-- The code of primitives and operators, with result `ρ`: what it does with the interpreter. -/
inductive Act (D H ρ : Type) : Type
  /-- return -/
  | ret (r : Except Fail ρ)
  /-- `f.Call(a, l, r)` -/
  | call (f : Func D) (l : Option (IVal D)) (r : IVal D) (k : Except Fail (IVal D) → Act D H ρ)
  /-- `a.EvalProgram(p)` for one statement (⍎, apl/primitives/format.go:141-155) -/
  | exec (e : Expr D) (k : Except Fail (IVal D) → Act D H ρ)
  /-- `a.EnvCall(f, l, r, vars)` -/
  | envCall (f : Func D) (l : Option (IVal D)) (r : IVal D) (vars : Vars D) (k : Except Fail (IVal D) → Act D H ρ)
  /-- print to the output -/
  | print (v : IVal D) (k : Act D H ρ)
  /-- read ⎕IO -/
  | origin (k : Int → Act D H ρ)
  /-- read the heap -/
  | getH (k : H → Act D H ρ)
  /-- write the heap -/
  | setH (h : H) (k : Act D H ρ)

/-- apl/function.go:159-165 `PrimitiveHandler` -/
structure Handler (D H : Type) where
  to : Option (IVal D) → IVal D → Option (Option (IVal D) × IVal D)
  call : Option (IVal D) → IVal D → Act D H (IVal D)
  select : Option (IVal D) → IVal D → Act D H (IVal D)

/-- apl/op.go:23-29 `Operator` -/
structure OpHandler (D H : Type) where
  dyadic : Bool
  to : IVal D → Option (IVal D) → Option (IVal D × Option (IVal D))
  derived : IVal D → Option (IVal D) → Option (IVal D) → IVal D → Act D H (IVal D)
  select : Option (IVal D) → IVal D → Option (IVal D) → IVal D → Act D H (IVal D)

/-- Everything the interpreter core depends on. -/
structure Sys (D H : Type) where
  /-- `unicode.IsLetter`, `unicode.IsNumber`, `unicode.IsUpper` -/
  letter : Char → Bool
  number : Char → Bool
  upper : Char → Bool
  /-- the value is a `Bool`, or a number that `Tower.ToBool` converts -/
  toBool : D → Option Bool
  /-- the value can be an element of a vector (apl/array.go:12-23) -/
  isScalar : D → Bool
  /-- `Int(n)` -/
  ofInt : Int → D
  /-- `EmptyArray{}` -/
  empty : D
  /-- the array of the elements of a strand (apl/array.go:56-71) -/
  strand : List (IVal D) → Act D H (IVal D)
  /-- `List` and `IdxSpec` of the elements -/
  list : List (IVal D) → Act D H (IVal D)
  spec : List (IVal D) → Act D H (IVal D)
  /-- `v.Copy()` -/
  copy : IVal D → Act D H (IVal D)
  /-- `a.primitives` (apl/apl.go:43) -/
  prims : String → Option (List (Handler D H))
  /-- `a.operators` (apl/apl.go:44) -/
  ops : String → List (OpHandler D H)
  /-- registered Go functions -/
  native : String → Option (IVal D) → IVal D → Act D H (IVal D)
  /-- `packageVar` (apl/var.go:148-160) with the test of the prefix (100-106) -/
  pkgVar : String → Option (IVal D)
  /-- `SetPP` (apl/fmt.go:28-50): the new precision -/
  setPP : IVal D → Option Int
  /-- the part of `assignValue` (apl/operators/assign.go:112-253) with indexes -/
  setIdx : IVal D → IVal D → Option (Func D) → IVal D → Act D H (Option (IVal D))
  /-- the elements of the right argument of a vector assignment (apl/operators/assign.go:50-68): the number of elements and
  the elements, or an error -/
  elems : IVal D → Act D H (List (IVal D))

variable {D H : Type}

/-! ### Names -/

/-- apl/scan/scan.go:362-370 `AllowedInVarname` -/
def allowedInVarname (sys : Sys D H) (c : Char) (first : Bool) : Bool :=
  (first && "⎕⍺⍵".toList.contains c) || (!first && sys.number c) || c == '_' || sys.letter c

/-- all characters but the first -/
def allowedAll (sys : Sys D H) : List Char → Bool → Bool
  | [], _ => true
  | c :: cs, first => allowedInVarname sys c first && allowedAll sys cs false

/-- the part of a name behind the first `→` (apl/var.go:218-220) -/
def afterArrow : List Char → Option (List Char)
  | [] => none
  | c :: cs => if c = '→' then some cs else afterArrow cs

/-- apl/var.go:212-229 `isVarname`: `none` if the name is not allowed, otherwise if it names a function -/
def isVarname (sys : Sys D H) (s : String) : Option Bool :=
  if s.toList = [] then none
  else
    let cs := (afterArrow s.toList).getD s.toList
    if allowedAll sys cs true then
      some (!((cs.take 1).any sys.upper || cs.any (fun c => "⎕⍺⍵".toList.contains c)))
    else none

/-! ### Environments -/

/-- the loop of `LookupEnv` (apl/var.go:109-120): the first environment in the chain of parents that has the name -/
def findEnv (envs : List (Env D)) (name : String) : (fuel : Nat) → (e : Nat) → Option Nat
  | 0, _ => none
  | fuel + 1, e =>
    match envs[e]? with
    | none => none
    | some en =>
      match mapGet en.vars name with
      | some _ => some e
      | none =>
        match en.parent with
        | none => none
        | some p => findEnv envs name fuel p

/-- the value of a name in an environment; nil if there is none -/
def envGet (envs : List (Env D)) (e : Nat) (name : String) : Option (IVal D) :=
  match envs[e]? with
  | none => none
  | some en => (mapGet en.vars name).join

/-- apl/var.go:93-121 `LookupEnv`.  The chain of parents is never longer than the number of environments (`C44_chain`). -/
def lookupEnv (sys : Sys D H) (s : St D H) (name : String) : Option (IVal D) × Option Nat :=
  if name = "⎕IO" then (some (.data (sys.ofInt s.origin)), none)
  else if name = "⎕PP" then (some (.data (sys.ofInt s.pp)), none)
  else if name.toList.contains '→' then (sys.pkgVar name, none)
  else
    match findEnv s.envs name s.envs.length s.cur with
    | none => (none, none)
    | some e => (envGet s.envs e name, some e)

/-- `env.vars[name] = v` -/
def putVar (envs : List (Env D)) (e : Nat) (name : String) (v : Option (IVal D)) : List (Env D) :=
  match envs[e]? with
  | none => envs
  | some en => envs.set e { en with vars := mapSet en.vars name v }

/-- is the value a function (apl/function.go:10-12) -/
def IVal.isFn : IVal D → Bool
  | .fn _ => true
  | _ => false

/-- the value as a truth value (apl/lambda.go:150-158, apl/var.go:48-50) -/
def IVal.toBool (sys : Sys D H) : IVal D → Option Bool
  | .data d => sys.toBool d
  | _ => none

/-- apl/var.go:33-81 `AssignEnv`; `env = none` is Go's nil -/
def assignEnv (sys : Sys D H) (name : String) (v : IVal D) (env : Option Nat) : EM D H Unit := fun s =>
  match isVarname sys name with
  | none => some (.error .err, s)
  | some isfunc =>
    if name.toList.contains '→' then some (.error .err, s)
    else if name = "⎕" then some (.ok (), { s with out := s.out ++ [v] })
    else if name = "⎕IO" then
      match v.toBool sys with
      | some b => some (.ok (), { s with origin := if b then 1 else 0 })
      | none => some (.error .err, s)
    else if name = "⎕PP" then
      match sys.setPP v with
      | some n => some (.ok (), { s with pp := n })
      | none => some (.error .err, s)
    else if v.isFn && !isfunc then some (.error .err, s)
    else if !v.isFn && isfunc then some (.error .err, s)
    else
      let e := env.getD s.cur
      if name = "⍺" ∧ (envGet s.envs e "⍺").isSome then some (.ok (), s)
      else some (.ok (), { s with envs := putVar s.envs e name (some v) })

/-! ### Evaluation -/

/-- what an evaluation is asked to do: evaluate an expression, call a function, or run the body of a lambda in its
environment from the label `tail` on (apl/lambda.go:47-67) -/
inductive Job (D : Type) : Type
  | eval (e : Expr D)
  | call (f : Func D) (l : Option (IVal D)) (r : IVal D)
  | loop (body : List (Guard D)) (l : Option (IVal D)) (r : IVal D)

/-- the recursive evaluator handed to the step functions -/
abbrev Rec (D H : Type) := Job D → EM D H (IVal D)

/-- A new environment with the given variables, the current one being its parent, for the time of `m`; the deferred function
restores `a.env` also if `m` fails or panics (apl/function.go:15-24, apl/lambda.go:38-44). -/
def inNewEnv {α : Type} (vars : Vars D) (m : EM D H α) : EM D H α := fun s =>
  match m { s with envs := s.envs ++ [⟨some s.cur, vars⟩], cur := s.envs.length } with
  | none => none
  | some (r, s') => some (r, { s' with cur := s.cur })

/-- hand over the outcome of a call made by Go code; a panic cannot be caught -/
def resume {α ρ : Type} (m : EM D H α) (k : Except Fail α → EM D H ρ) : EM D H ρ := do
  match ← tryEM m with
  | .error .panic => fail .panic
  | r => k r

/-- run the code of a primitive or an operator -/
def runAct {ρ : Type} (rec : Rec D H) : Act D H ρ → EM D H ρ
  | .ret (.ok v) => pure v
  | .ret (.error e) => fail e
  | .call f l r k => resume (rec (.call f l r)) (fun x => runAct rec (k x))
  | .exec e k => resume (rec (.eval e)) (fun x => runAct rec (k x))
  | .envCall f l r vars k => resume (inNewEnv vars (rec (.call f l r))) (fun x => runAct rec (k x))
  | .print v k => fun s => runAct rec k { s with out := s.out ++ [v] }
  | .origin k => fun s => runAct rec (k s.origin) s
  | .getH k => fun s => runAct rec (k s.heap) s
  | .setH h k => fun s => runAct rec k { s with heap := h }

/-- apl/eval.go:139-147 `isAssignment` -/
def isAssignment : Expr D → Bool
  | .app (.der op _ _) _ _ _ => op == "←"
  | _ => false

/-- `isAssignment` of an expression that may be nil -/
def isAssignment? : Option (Expr D) → Bool
  | some e => isAssignment e
  | none => false

/-- evaluate the elements of a list or an index specification from left to right (apl/list.go:107-121, apl/index.go:58-68) -/
def evalAll (rec : Rec D H) : List (Expr D) → EM D H (List (IVal D))
  | [] => pure []
  | e :: es => do
    let v ← rec (.eval e)
    let vs ← evalAll rec es
    return v :: vs

/-- the elements of a strand (apl/array.go:36-54): each must be a scalar -/
def evalScalars (sys : Sys D H) (rec : Rec D H) : List (Expr D) → EM D H (List (IVal D))
  | [] => pure []
  | e :: es => do
    let v ← rec (.eval e)
    match v with
    | .data d =>
      if sys.isScalar d then do
        let vs ← evalScalars sys rec es
        return v :: vs
      else fail .err
    | _ => fail .err

/-- apl/function.go:125-139 `Primitive.Call`: the first handler whose domain accepts the arguments -/
def dispatch {ρ : Type} (use : Handler D H → Option (IVal D) → IVal D → Act D H ρ) (rec : Rec D H)
    (l : Option (IVal D)) (r : IVal D) : List (Handler D H) → EM D H ρ
  | [] => fail .err
  | h :: hs =>
    match h.to l r with
    | some (l', r') => runAct rec (use h l' r')
    | none => dispatch use rec l r hs

/-- apl/op.go:118-123: the first operator handler whose domain accepts the operands -/
def dispatchOp {ρ : Type} (use : OpHandler D H → IVal D → Option (IVal D) → Act D H ρ) (rec : Rec D H)
    (lo : IVal D) (ro : Option (IVal D)) : List (OpHandler D H) → EM D H ρ
  | [] => fail .err
  | o :: os =>
    match o.to lo ro with
    | some (lo', ro') => runAct rec (use o lo' ro')
    | none => dispatchOp use rec lo ro os

/-- evaluate an operand; a missing operand is a nil interface, whose `Eval` panics -/
def evalOpd (rec : Rec D H) : Option (Expr D) → EM D H (IVal D)
  | some e => rec (.eval e)
  | none => fail .panic

/-- apl/function.go:141-157 `Primitive.Select`, apl/op.go:126-156 `derived.Select` -/
def selectStep (sys : Sys D H) (rec : Rec D H) (f : Func D) (l : Option (IVal D)) (r : IVal D) : EM D H (IVal D) :=
  match f with
  | .der op lo ro =>
    match sys.ops op with
    | [] => fail .err
    | o :: os =>
      if o.dyadic && op != "⍂" then fail .err
      else do
        let LO ← evalOpd rec lo
        let RO ← (if o.dyadic then do let v ← evalOpd rec ro; return some v else pure none)
        dispatchOp (fun h LO RO => h.select l LO RO r) rec LO RO (o :: os)
  | .prim s =>
    match sys.prims s with
    | none => fail .err
    | some hs => dispatch (fun h => h.select) rec l r hs
  | _ => fail .err

/-- The name of the variable on the right end of an assignment target, and whether there are functions in front of it
(apl/assign.go:93-112). -/
def targetName : Expr D → Option (String × Bool)
  | .var n => some (n, false)
  | .app _ _ r _ => match targetName r with | some (n, _) => some (n, true) | none => none
  | _ => none

/-- The marks `v.selection = true` set on the functions of an assignment target (apl/assign.go:107).  The Go code sets them in
the expression tree each time the target is evaluated; targets are evaluated nowhere else, except in an expression that is
evaluated again after it has been a target, which cannot be written. -/
def markSel : Expr D → Expr D
  | .app f l r _ => .app f l (markSel r) true
  | e => e

/-- the evaluated left part of an assignment (apl/assign.go:24-31): one name with optional indexes, or several names -/
inductive Target (D : Type) : Type
  | one (name : String) (idx : Option (IVal D))
  | many (names : List String)

/-- the names of a vector of variables -/
def varNames : List (Expr D) → Option (List String)
  | [] => some []
  | .var n :: es => match varNames es with | some ns => some (n :: ns) | none => none
  | _ :: _ => none

/-- apl/assign.go:66-124 `evalAssign` -/
def evalTarget (rec : Rec D H) (e : Expr D) : EM D H (Target D) :=
  match e with
  | .fn (.fvar n) => pure (.one n none)
  | .strand es => match varNames es with | some ns => pure (.many ns) | none => fail .err
  | e =>
    match targetName e with
    | none => fail .err
    | some (n, false) => pure (.one n none)
    | some (n, true) => do
      let idx ← rec (.eval (markSel e))
      return .one n (some idx)

/-- apl/operators/assign.go:112-253 `assignValue`: without indexes the modifier is called with the value of the variable -/
def assignVal (sys : Sys D H) (rec : Rec D H) (w : IVal D) (idx : Option (IVal D)) (f : Option (Func D)) (r : IVal D) :
    EM D H (Option (IVal D)) :=
  match idx with
  | some i => runAct rec (sys.setIdx w i f r)
  | none =>
    match f with
    | none => fail .panic
    | some f => do
      let v ← rec (.call f (some w) r)
      return some v

/-- apl/operators/assign.go:105-109: store the new value, if there is one, in the environment where the variable was found -/
def assignBack (sys : Sys D H) (rec : Rec D H) (name : String) (env : Option Nat) (v : Option (IVal D)) : EM D H Unit :=
  match v with
  | none => pure ()
  | some v => do
    let v ← runAct rec (sys.copy v)
    assignEnv sys name v env

/-- apl/operators/assign.go:97-109: the modified or indexed part of `assignScalar` -/
def assignFound (sys : Sys D H) (rec : Rec D H) (name : String) (idx : Option (IVal D)) (f : Option (Func D)) (r : IVal D) :
    EM D H Unit := do
  let s ← getSt
  match lookupEnv sys s name with
  | (none, _) => fail .err
  | (some w, env) => do
    let v ← assignVal sys rec w idx f r
    assignBack sys rec name env v

/-- apl/operators/assign.go:89-110 `assignScalar` -/
def assignScalar (sys : Sys D H) (rec : Rec D H) (name : String) (idx : Option (IVal D)) (f : Option (Func D)) (r : IVal D) :
    EM D H Unit :=
  match f, idx with
  | none, none => do
    let v ← runAct rec (sys.copy r)
    assignEnv sys name v none
  | _, _ => assignFound sys rec name idx f r

/-- the loop of `assignVector` (apl/operators/assign.go:70-84) -/
def assignNames (sys : Sys D H) (rec : Rec D H) (f : Option (Func D)) : List (String × IVal D) → EM D H Unit
  | [] => pure ()
  | (n, v) :: rest => do
    assignScalar sys rec n none f v
    assignNames sys rec f rest

/-- apl/operators/assign.go:47-87 `assignVector` -/
def assignVector (sys : Sys D H) (rec : Rec D H) (names : List String) (f : Option (Func D)) (r : IVal D) : EM D H (IVal D) := do
  let vs ← runAct rec (sys.elems r)
  match vs with
  | [v] => assignNames sys rec f (names.map (fun n => (n, v)))
  | _ => if vs.length ≠ names.length then fail .err else assignNames sys rec f (names.zip vs)
  return r

/-- apl/operators/assign.go:20-45 `assign`.  Not modelled: the channel scope `⎕←C`. -/
def assignStep (sys : Sys D H) (rec : Rec D H) (t : Target D) (f : Option (Func D)) (r : IVal D) : EM D H (IVal D) :=
  match t with
  | .many names => assignVector sys rec names f r
  | .one name idx => do
    assignScalar sys rec name idx f r
    return r

/-- apl/op.go:67-124 `derived.Call`.  The operator `←` is the one of apl/operators/assign.go.  Simplification: a modifier that is
a parenthesized application is rejected like other expressions. -/
def derivedStep (sys : Sys D H) (rec : Rec D H) (op : String) (lo ro : Option (Expr D)) (l : Option (IVal D)) (r : IVal D) :
    EM D H (IVal D) :=
  if op = "←" then
    match l with
    | none =>
      match lo with
      | none => fail .err
      | some e => do
        let t ← evalTarget rec e
        assignStep sys rec t none r
    | some (.target e) =>
      match lo with
      | none => do
        let t ← evalTarget rec e
        assignStep sys rec t none r
      | some (.fn f) => do
        let t ← evalTarget rec e
        assignStep sys rec t (some f) r
      | some _ => fail .err
    | some _ => fail .err
  else
    match sys.ops op with
    | [] => fail .err
    | o :: os => do
      let RO ← (if o.dyadic then do let v ← evalOpd rec ro; return some v else pure none)
      let LO ← evalOpd rec lo
      dispatchOp (fun h LO RO => h.derived LO RO l r) rec LO RO (o :: os)

/-- apl/train.go:98-125 `fork.Call` -/
def forkRun (rec : Rec D H) (f g h : IVal D) (l : Option (IVal D)) (r : IVal D) : EM D H (IVal D) :=
  match g, h with
  | .fn g, .fn h => do
    let x ← (match f with | .fn f => rec (.call f l r) | v => pure v)
    let y ← rec (.call h l r)
    rec (.call g (some x) y)
  | _, _ => fail .err

/-- apl/train.go:74-90 `atop.Call` -/
def atopRun (rec : Rec D H) (g h : IVal D) (l : Option (IVal D)) (r : IVal D) : EM D H (IVal D) :=
  match g, h with
  | .fn g, .fn h => do
    let v ← rec (.call h l r)
    rec (.call g none v)
  | _, _ => fail .err

/-- apl/train.go:26-61 `train.Call` -/
def trainStep (rec : Rec D H) (es : List (Expr D)) (l : Option (IVal D)) (r : IVal D) : EM D H (IVal D) :=
  match es with
  | [] => fail .err
  | [_] => fail .err
  | [f, g] => do
    let f ← rec (.eval f)
    let g ← rec (.eval g)
    atopRun rec f g l r
  | [f, g, h] => do
    let f ← rec (.eval f)
    let g ← rec (.eval g)
    let h ← rec (.eval h)
    forkRun rec f g h l r
  | f :: g :: h :: rest =>
    if (f :: g :: h :: rest).length % 2 = 0 then do
      let f ← rec (.eval f)
      atopRun rec f (.fn (.train (g :: h :: rest))) l r
    else do
      let f ← rec (.eval f)
      let g ← rec (.eval g)
      forkRun rec f g (.fn (.train (h :: rest))) l r

/-- apl/lambda.go:141-170 `guardExpr.Eval`: the outer `none` is nil without an error -/
def guardEval (sys : Sys D H) (rec : Rec D H) (g : Guard D) : EM D H (Option (IVal D)) :=
  match g.cond with
  | none => do
    let v ← evalOpd rec g.e
    return some v
  | some c => do
    let v ← rec (.eval c)
    match v.toBool sys with
    | none => fail .err
    | some false => return none
    | some true => do
      let v ← evalOpd rec g.e
      return some v

/-- apl/lambda.go:92-119 `guardList.Eval`, from some guard on; the result is a value, or the arguments of a tail call -/
def guardLoop (sys : Sys D H) (rec : Rec D H) : List (Guard D) → IVal D → EM D H (IVal D ⊕ (Option (Expr D) × Expr D))
  | [], ret => pure (.inl ret)
  | g :: rest, ret =>
    let isa := isAssignment? g.e
    if g.cond.isNone && !rest.isEmpty && !isa then fail .err
    else
      match g.e with
      | some (.app .self l r _) => pure (.inr (l, r))
      | _ => do
        let v ← guardEval sys rec g
        match v with
        | none => guardLoop sys rec rest ret
        | some v => if isa then guardLoop sys rec rest v else return .inl v

/-- apl/lambda.go:47-67: bind the arguments, run the body, and start again with new arguments in a tail call.  A missing left
argument of the tail call leaves the one of the last call in place. -/
def loopStep (sys : Sys D H) (rec : Rec D H) (body : List (Guard D)) (l : Option (IVal D)) (r : IVal D) : EM D H (IVal D) := do
  modSt (fun s => { s with envs := putVar (putVar s.envs s.cur "⍺" l) s.cur "⍵" (some r) })
  let v ← guardLoop sys rec body (.data sys.empty)
  match v with
  | .inl v => return v
  | .inr (tl, tr) => do
    let r' ← rec (.eval tr)
    let l' ← (match tl with
      | none => pure l
      | some e => do let v ← rec (.eval e); return some v)
    rec (.loop body l' r')

/-- `Call` of all kinds of functions: apl/function.go:125-139, apl/var.go:195-208, apl/lambda.go:33-46, 184-198,
apl/op.go:67-124, apl/train.go:26-61. -/
def callStep (sys : Sys D H) (rec : Rec D H) (f : Func D) (l : Option (IVal D)) (r : IVal D) : EM D H (IVal D) :=
  match f with
  | .prim s =>
    match sys.prims s with
    | none => fail .err
    | some hs => dispatch (fun h => h.call) rec l r hs
  | .fvar n => do
    let s ← getSt
    match (lookupEnv sys s n).1 with
    | none => return .ident n
    | some (.fn f) => rec (.call f l r)
    | some _ => fail .err
  | .lam none => return .data sys.empty
  | .lam (some body) => inNewEnv [("∇", some (.fn (.lam (some body))))] (rec (.loop body l r))
  | .self => do
    let s ← getSt
    match s.envs[s.cur]? with
    | none => fail .panic
    | some en =>
      if en.parent.isNone then fail .err
      else
        match mapGet en.vars "∇" with
        | some (some (.fn (.lam body))) => rec (.call (.lam body) l r)
        | _ => fail .err
  | .der op lo ro => derivedStep sys rec op lo ro l r
  | .train es => trainStep rec es l r
  | .native id => runAct rec (sys.native id l r)

/-- is the function the assignment operator (apl/function.go:49) -/
def Func.isAssignOp : Func D → Bool
  | .der op _ _ => op == "←"
  | _ => false

/-- apl/function.go:34-70 `function.Eval` -/
def appStep (sys : Sys D H) (rec : Rec D H) (f : Func D) (left : Option (Expr D)) (right : Expr D) (sel : Bool) : EM D H (IVal D) := do
  let r ← rec (.eval right)
  let l ← (match left with
    | none => pure none
    | some e =>
      if f.isAssignOp then pure (some (.target e))
      else do let v ← rec (.eval e); return some v)
  match sel, right with
  | true, .var _ => selectStep sys rec f l r
  | _, _ => rec (.call f l r)

/-- `Eval` of all kinds of expressions -/
def evalStep (sys : Sys D H) (rec : Rec D H) (e : Expr D) : EM D H (IVal D) :=
  match e with
  | .lit d => return .data d
  | .var n => do
    let s ← getSt
    match (lookupEnv sys s n).1 with
    | none => return .ident n
    | some v => return v
  | .strand [] => return .data sys.empty
  | .strand [e] => rec (.eval e)
  | .strand es => do
    let vs ← evalScalars sys rec es
    runAct rec (sys.strand vs)
  | .list es => do
    let vs ← evalAll rec es
    runAct rec (sys.list vs)
  | .spec es => do
    let vs ← evalAll rec es
    runAct rec (sys.spec vs)
  | .fn f => return .fn f
  | .app f l r sel => appStep sys rec f l r sel

/-- one step of the evaluation -/
def stepTask (sys : Sys D H) (rec : Rec D H) : Job D → EM D H (IVal D)
  | .eval e => evalStep sys rec e
  | .call f l r => callStep sys rec f l r
  | .loop body l r => loopStep sys rec body l r

/-- The evaluator with a bound on the depth of calls. -/
def run (sys : Sys D H) : Nat → Rec D H
  | 0 => fun _ => noFuel
  | n + 1 => stepTask sys (run sys n)

/-! ### Registration -/

/-- apl/register.go:15-18 `RegisterPrimitive`: `a.primitives[p] = append([]PrimitiveHandler{h}, a.primitives[p]...)` -/
def registerPrimitive (m : String → Option (List (Handler D H))) (p : String) (h : Handler D H) :
    String → Option (List (Handler D H)) :=
  fun q => if q = p then some (h :: (m p).getD []) else m q

/-- apl/register.go:20-31 `RegisterOperator`: an operator with an arity that differs from the one registered first is rejected;
the table is unchanged then. -/
def registerOperator (m : String → List (OpHandler D H)) (p : String) (o : OpHandler D H) : Res (String → List (OpHandler D H)) :=
  match m p with
  | [] => .ok (fun q => if q = p then [o] else m q)
  | o' :: os => if o'.dyadic ≠ o.dyadic then .error .err else .ok (fun q => if q = p then o :: o' :: os else m q)

/-- evaluate one statement of a program: `Eval` of nil, the expression of an empty statement, panics -/
def evalStmt (sys : Sys D H) (n : Nat) (e : Option (Expr D)) : EM D H (IVal D) :=
  match e with
  | some e => run sys n (.eval e)
  | none => fail .panic

/-- apl/eval.go:64-74 `EvalProgram` -/
def evalProgram (sys : Sys D H) (n : Nat) : List (Option (Expr D)) → EM D H (List (IVal D))
  | [] => pure []
  | e :: es => do
    let v ← evalStmt sys n e
    let vs ← evalProgram sys n es
    return v :: vs

/-- write the value of a statement to the output, unless the statement is an assignment (apl/eval.go:39-55) -/
def writeStmt (e : Option (Expr D)) (v : IVal D) : EM D H Unit :=
  if isAssignment? e then pure () else modSt (fun s => { s with out := s.out ++ [v] })

/-- apl/eval.go:14-58 `Eval`: values of statements that are no assignments are written to the output.  Not modelled: the
elements of a channel are written one by one, images go elsewhere. -/
def evalWrite (sys : Sys D H) (n : Nat) : List (Option (Expr D)) → EM D H Unit
  | [] => pure ()
  | e :: es => do
    let v ← evalStmt sys n e
    writeStmt e v
    evalWrite sys n es

end Iv
