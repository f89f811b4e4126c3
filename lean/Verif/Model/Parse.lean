import Verif.Model.Interp
/-
The parser: tokens to expressions (apl/parse.go).
-/
namespace Iv

/-- apl/scan/scan.go:22-39 `Type` -/
inductive TT : Type
  | endl | symbol | number | string | chars | identifier
  | leftParen | rightParen | leftBrack | rightBrack | leftBrace | rightBrace
  | colon | semicolon | self | diamond
deriving DecidableEq

/-- apl/scan/scan.go:14-18 `Token`, without the position, which is used for messages only -/
structure Token where
  t : TT
  s : String
deriving DecidableEq

/-- What the parser asks the interpreter: is a symbol a primitive (`p.a.primitives`), is it an operator and is it dyadic
(`p.a.operators`), `isVarname` (apl/var.go:212-229: `none` if the name is not allowed, otherwise if it names a function),
`Tower.Parse` for numbers, the value of a string, and `EmptyArray{}`. -/
structure PCtx (D : Type) where
  prim : String → Bool
  op : String → Option Bool
  varname : String → Option Bool
  number : String → Option D
  str : String → D
  empty : D

/-- apl/parse.go:18-23 `class` -/
inductive Cls : Type
  | noun | verb | adverb | conj
deriving DecidableEq

/-- apl/parse.go:27-30 `item` -/
structure Item (D : Type) where
  e : Expr D
  cls : Cls

variable {D : Type}

/-- a monadic or a dyadic operator: `class&(adverb|conjunction) != 0` -/
def Cls.isOp : Cls → Bool
  | .adverb => true
  | .conj => true
  | _ => false

/-- `i.e.(idxSpec)` (apl/parse.go:459) -/
def Item.isSpec (i : Item D) : Bool :=
  match i.e with
  | .spec _ => true
  | _ => false

/-- The `Function` of an item of class verb (`f.e.(Function)`).  Simplification: a parenthesized assignment of a function, `(f←+)`, has
class verb and can be applied in the Go code; it is rejected here. -/
def Item.fn? (i : Item D) : Res (Func D) :=
  match i.e with
  | .fn f => .ok f
  | _ => .error .panic

/-! ### The stack

The Go slice `p.stack` has the rightmost item first.  Functions that work on the left end of the stack get it reversed. -/

/-- apl/parse.go:480-532 `resolveBrackets`, the leftmost item first -/
def resolveBrackets (ls : List (Item D)) : Res (List (Item D)) :=
  match ls with
  | l :: s :: rest =>
    match s.e with
    | .spec es =>
      match l.e with
      | .fn (.prim p) =>
        match es with
        | [a] => .ok (⟨.fn (.der "⍂" (some (.fn (.prim p))) (some a)), .verb⟩ :: rest)
        | _ => .error .err
      | .fn (.der op lo ro) =>
        match es with
        | [a] => .ok (⟨.fn (.der op lo ro), l.cls⟩ :: ⟨.fn (.der "⍂" none none), .conj⟩ :: ⟨a, .noun⟩ :: rest)
        | _ => .error .err
      | e => if l.cls = .noun then .ok (⟨.app (.prim "⌷") (some (.spec es)) e false, .noun⟩ :: rest) else .error .err
    | _ => .ok ls
  | _ => .ok ls

/-- set `d.lo` of an operator (`e.(*derived)` panics otherwise) -/
def setLo (d : Expr D) (lo : Expr D) : Res (Expr D) :=
  match d with
  | .fn (.der op _ ro) => .ok (.fn (.der op (some lo) ro))
  | _ => .error .panic

/-- set `d.lo` and `d.ro` -/
def setLoRo (d : Expr D) (lo ro : Expr D) : Res (Expr D) :=
  match d with
  | .fn (.der op _ _) => .ok (.fn (.der op (some lo) (some ro)))
  | _ => .error .panic

/-- is the class of the item at a position an operator -/
def opAt (ls : List (Item D)) (i : Nat) : Bool :=
  match ls[i]? with
  | some x => x.cls.isOp
  | none => false

/-- apl/parse.go:574-597 `mopReduce`.  The number of rounds is bounded by the length of the stack, which shrinks in each one. -/
def mopReduce : (fuel : Nat) → (i : Nat) → (ls : List (Item D)) → (reduced : Bool) → Res (Bool × List (Item D))
  | 0, _, ls, reduced => .ok (reduced, ls)
  | fuel + 1, i, ls, reduced =>
    match ls[i]?, ls[i + 1]? with
    | some x, some d =>
      if d.cls ≠ .adverb then .ok (reduced, ls)
      else if opAt ls 0 || (i == 1 && opAt ls 1) then .ok (reduced, ls)
      else do
        let e ← setLo d.e x.e
        mopReduce fuel (i + 1) ((ls.set i ⟨e, .verb⟩).eraseIdx (i + 1)) true
    | _, _ => .ok (reduced, ls)

/-- apl/parse.go:602-627 `dopReduce` -/
def dopReduce (i : Nat) (ls : List (Item D)) : Res (Bool × List (Item D)) :=
  match ls[i]?, ls[i + 1]?, ls[i + 2]? with
  | some x, some d, some y =>
    if d.cls ≠ .conj then .ok (false, ls)
    else if opAt ls 0 || (i == 1 && opAt ls 1) then .ok (false, ls)
    else do
      let e ← setLoRo d.e x.e y.e
      .ok (true, ((ls.set i ⟨e, .verb⟩).eraseIdx (i + 1)).eraseIdx (i + 1))
  | _, _, _ => .ok (false, ls)

/-- one round of `resolveOperators` -/
def opRound (last : Bool) (ls : List (Item D)) : Res (Bool × List (Item D)) := do
  let (ok1, ls) ← (if last then mopReduce ls.length 0 ls false else .ok (false, ls))
  let (ok2, ls) ← mopReduce ls.length 1 ls false
  let (ok3, ls) ← (if last then dopReduce 0 ls else .ok (false, ls))
  let (ok4, ls) ← dopReduce 1 ls
  .ok (ok1 || ok2 || ok3 || ok4, ls)

/-- apl/parse.go:553-569 `resolveOperators`.  Each round that goes on shortens the stack. -/
def resolveOperators (last : Bool) : (fuel : Nat) → (ls : List (Item D)) → Res (List (Item D))
  | 0, ls => .ok ls
  | fuel + 1, ls => do
    let (ok, ls) ← opRound last ls
    if ok then resolveOperators last fuel ls else .ok ls

/-- the class on the left of `fA` (apl/parse.go:664-670) -/
def fALeft (last : Bool) : List (Item D) → Cls
  | [] => if last then .verb else .conj
  | x :: _ => x.cls

/-- the classes on the left of `AfA` (apl/parse.go:694-701): `none` if there are not enough items -/
def AfALeft (last : Bool) : List (Item D) → Option (Cls × Cls)
  | y :: x :: _ => some (y.cls, x.cls)
  | _ => if last then some (.noun, .conj) else none

/-- apl/parse.go:655-682 `reducefA`, the rightmost item first -/
def reducefA (last : Bool) (st : List (Item D)) : Res (Bool × List (Item D)) :=
  match st with
  | r :: f :: rest =>
    if r.cls = .noun ∧ f.cls = .verb ∧ (fALeft last rest = .verb ∨ fALeft last rest = .adverb) then do
      let g ← f.fn?
      .ok (true, ⟨.app g none r.e false, .noun⟩ :: rest)
    else .ok (false, st)
  | _ => .ok (false, st)

/-- apl/parse.go:684-725 `reduceAfA`, the rightmost item first -/
def reduceAfA (last : Bool) (st : List (Item D)) : Res (Bool × List (Item D)) :=
  match st with
  | r :: f :: l :: rest =>
    match AfALeft last rest with
    | none => .ok (false, st)
    | some (y, x) =>
      if ¬ (l.cls = .noun ∧ f.cls = .verb ∧ r.cls = .noun) then .ok (false, st)
      else if last ∨ y = .verb ∨ (y = .noun ∧ x ≠ .conj) then do
        let g ← f.fn?
        .ok (true, ⟨.app g (some l.e) r.e false, .noun⟩ :: rest)
      else .ok (false, st)
  | _ => .ok (false, st)

/-- apl/parse.go:645-653 `resolveArrays`.  Each round that goes on shortens the stack. -/
def resolveArrays (last : Bool) : (fuel : Nat) → (st : List (Item D)) → Res (List (Item D))
  | 0, st => .ok st
  | fuel + 1, st => do
    let (fok, st) ← reducefA last st
    let (aok, st) ← reduceAfA last st
    if fok || aok then resolveArrays last fuel st else .ok st

/-- the elements of a train -/
def trainOf (e : Expr D) : Option (List (Expr D)) :=
  match e with
  | .fn (.train es) => some es
  | _ => none

/-- apl/parse.go:758-781 `reduceff`, the rightmost item first -/
def reduceff (last : Bool) (st : List (Item D)) : Option (List (Item D)) :=
  match st with
  | r0 :: r1 :: rest =>
    let c := match rest with
      | [] => Cls.conj
      | x :: _ => x.cls
    if r0.cls = .verb ∧ r1.cls = .verb ∧ ((rest = [] ∧ last) ∨ c ≠ .conj) then
      match trainOf r0.e with
      | some t => some (⟨.fn (.train (r1.e :: t)), .verb⟩ :: rest)
      | none => some (⟨.fn (.train [r1.e, r0.e]), .verb⟩ :: rest)
    else none
  | _ => none

/-- the loop of `resolveFunctions` (apl/parse.go:741-745).  Each round that goes on shortens the stack. -/
def reduceTrains (last : Bool) : (fuel : Nat) → List (Item D) → List (Item D)
  | 0, st => st
  | fuel + 1, st =>
    match reduceff last st with
    | none => st
    | some st' => reduceTrains last fuel st'

/-- apl/parse.go:740-756 `resolveFunctions` -/
def resolveFunctions (last : Bool) (st : List (Item D)) : List (Item D) :=
  let st := reduceTrains last st.length st
  if last then
    match st with
    | [r0, r1] =>
      match trainOf r0.e with
      | some t => if r1.cls = .noun ∧ t.length % 2 = 0 then [⟨.fn (.train (r1.e :: t)), .verb⟩] else st
      | none => st
    | _ => st
  else st

/-- apl/parse.go:455-473 `reduce` -/
def parseReduce (last : Bool) (st : List (Item D)) : Res (List (Item D)) :=
  match st.reverse with
  | [] => .error .panic
  | l :: ls =>
    if l.isSpec then .ok st
    else do
      let ls ← resolveBrackets (l :: ls)
      let ls ← resolveOperators last ls.length ls
      let st ← resolveArrays last ls.length ls.reverse
      let st := resolveFunctions last st
      if last && st.length > 1 then .error .err else .ok st

/-- apl/parse.go:873-895 `linkFuncAssign` -/
def linkFuncAssign (i : Item D) : Item D :=
  match i.e with
  | .fn (.train [.fn (.der op lo ro), e]) => if op = "←" then ⟨.app (.der op lo ro) none e false, .verb⟩ else i
  | _ => i

/-! ### Tokens -/

/-- apl/parse.go:844-869 `splitTokens`: the parts between the separators outside of nested parts -/
def splitTokens (at_ : TT) (inc dec : List TT) : (lv : Int) → (cur : List Token) → List Token → List (List Token)
  | _, cur, [] => [cur]
  | lv, cur, t :: ts =>
    let lv' := if t.t ∈ inc then lv + 1 else if t.t ∈ dec then lv - 1 else lv
    if lv' = 0 ∧ t.t = at_ then cur :: splitTokens at_ inc dec lv' [] ts
    else splitTokens at_ inc dec lv' (cur ++ [t]) ts

/-- The loop of `subStatement` (apl/parse.go:229-246): the tokens in front of the closing parenthesis up to the matching opening one.
The tokens are given from right to left; `inner` has them in normal order. -/
def matchParen (left right : TT) : (l : Nat) → (inner : List Token) → List Token → Option (List Token × List Token)
  | _, _, [] => none
  | l, inner, t :: ts =>
    if t.t = .endl then none
    else if t.t = right then matchParen left right (l + 1) (t :: inner) ts
    else if t.t = left then
      if l ≤ 1 then some (inner, ts) else matchParen left right (l - 1) (t :: inner) ts
    else matchParen left right l (t :: inner) ts

/-- parse parts; empty ones have no item -/
def parseAll (parse : List Token → Res (Option (Item D))) : List (List Token) → Res (List (Option (Expr D)))
  | [] => .ok []
  | ts :: rest => do
    let i ← parse ts
    let es ← parseAll parse rest
    .ok (i.map Item.e :: es)

/-- apl/parse.go:283-299 `parseList`; an empty element is the empty array (apl/list.go:111-114, where it is evaluated) -/
def parseList (ctx : PCtx D) (parse : List Token → Res (Option (Item D))) (ts : List Token) : Res (Item D) := do
  let l := (splitTokens .semicolon [.leftParen] [.rightParen] 0 [] ts).dropLast
  let es ← parseAll parse l
  .ok ⟨.list (es.map (fun e => e.getD (.lit ctx.empty))), .noun⟩

/-- apl/parse.go:303-322 `parseBrackets` -/
def parseBrackets (ctx : PCtx D) (parse : List Token → Res (Option (Item D))) (ts : List Token) : Res (Item D) := do
  let l := splitTokens .semicolon [.leftParen, .leftBrack] [.rightParen, .rightBrack] 0 [] ts
  let es ← parseAll parse l
  .ok ⟨.spec (es.map (fun e => e.getD (.lit ctx.empty))), .adverb⟩

/-- apl/parse.go:359-381 `guardExpr` -/
def parseGuard (parse : List Token → Res (Option (Item D))) (ts : List Token) : Res (Guard D × Option (Expr D)) :=
  let l := splitTokens .colon [.leftBrace] [.rightBrace] 0 [] ts
  if l.length > 3 then .error .err
  else do
    let es ← parseAll parse l
    match es with
    | [e] => .ok (.mk none e, none)
    | [c, e] => .ok (.mk c e, none)
    | [c, e, t] => .ok (.mk c e, t)
    | _ => .error .err

/-- the loop of `parseLambda` (apl/parse.go:333-345) -/
def parseGuards (parse : List Token → Res (Option (Item D))) : List (List Token) → Res (List (Guard D))
  | [] => .ok []
  | [ts] => do
    let (g, t) ← parseGuard parse ts
    match t with
    | none => .ok [g]
    | some t => .ok [g, .mk none (some t)]
  | ts :: rest => do
    let (g, t) ← parseGuard parse ts
    match t with
    | some _ => .error .err
    | none => do
      let gs ← parseGuards parse rest
      .ok (g :: gs)

/-- apl/parse.go:346-352: remove an empty last entry -/
def dropEmptyGuard (gs : List (Guard D)) : List (Guard D) :=
  match gs.getLast? with
  | some (.mk none none) => gs.dropLast
  | _ => gs

/-- apl/parse.go:329-354 `parseLambda` -/
def parseLambda (parse : List Token → Res (Option (Item D))) (ts : List Token) : Res (Item D) := do
  let l := splitTokens .diamond [.leftBrace] [.rightBrace] 0 [] ts
  let gs ← parseGuards parse l
  .ok ⟨.fn (.lam (some (dropEmptyGuard gs))), .verb⟩

/-- apl/parse.go:220-280 `subStatement`: the item, and the tokens that are left (from right to left) -/
def subStatement (ctx : PCtx D) (parse : List Token → Res (Option (Item D))) (right : TT) (ts : List Token) :
    Res (Item D × List Token) :=
  let left := if right = .rightBrace then TT.leftBrace else if right = .rightParen then .leftParen else .leftBrack
  match matchParen left right 1 [] ts with
  | none => .error .err
  | some ([], rest) =>
    if left = .leftBrace then .ok (⟨.fn (.lam none), .verb⟩, rest)
    else if left = .leftBrack then .ok (⟨.spec [], .adverb⟩, rest)
    else .error .err
  | some (inner, rest) =>
    if left = .leftParen then
      if (inner.getLast?).map Token.t = some .semicolon then do
        let i ← parseList ctx parse inner
        .ok (i, rest)
      else do
        let i ← parse inner
        match i with
        | some i => .ok (i, rest)
        | none => .error .panic
    else if left = .leftBrack then do
      let i ← parseBrackets ctx parse inner
      .ok (i, rest)
    else do
      let i ← parseLambda parse inner
      .ok (i, rest)

/-- The loop of `collectArray` (apl/parse.go:394-434): elements from right to left (the collected ones in normal order in `ar`,
`none` is nil); the tokens are given from right to left. -/
def collectLoop (ctx : PCtx D) (ar : Option (List (Expr D))) : List Token → Res (Option (List (Expr D)) × List Token)
  | [] => .ok (ar, [])
  | t :: ts =>
    match t.t with
    | .number =>
      match ctx.number t.s with
      | none => .error .err
      | some n => collectLoop ctx (some (.lit n :: ar.getD [])) ts
    | .string => collectLoop ctx (some (.lit (ctx.str t.s) :: ar.getD [])) ts
    | .chars =>
      let runes := t.s.toList.map (fun c => Expr.lit (ctx.str (String.ofList [c])))
      if runes = [] then collectLoop ctx ar ts
      else if ar.isSome ∧ runes.length > 1 then .error .err
      else collectLoop ctx (some (runes ++ ar.getD [])) ts
    | .identifier =>
      match ctx.varname t.s with
      | some false => collectLoop ctx (some (.var t.s :: ar.getD [])) ts
      | _ => .ok (ar, t :: ts)
    | _ => .ok (ar, t :: ts)

/-- the expression of the collected elements (apl/parse.go:436-449) -/
def strandExpr (ctx : PCtx D) : Option (List (Expr D)) → Expr D
  | none => .lit ctx.empty
  | some [e] => e
  | some es => .strand es

/-- apl/parse.go:388-450 `collectArray` -/
def collectArray (ctx : PCtx D) (ts : List Token) : Res (Item D × List Token) := do
  let (ar, rest) ← collectLoop ctx none ts
  .ok (⟨strandExpr ctx ar, .noun⟩, rest)

/-- is the item the operator dot (apl/parse.go:791-794) -/
def isDot (i : Item D) : Bool :=
  match i.e with
  | .fn (.der op _ _) => op == "."
  | _ => false

/-- The next item of a statement (apl/parse.go:128-202): the tokens are given from right to left, `prev` is the leftmost item on the
stack.  `specialJot` (apl/parse.go:787-797) is part of it. -/
def nextItem (ctx : PCtx D) (parse : List Token → Res (Option (Item D))) (prev : Option (Item D)) (t : Token) (ts : List Token) :
    Res (Item D × List Token) :=
  match t.t with
  | .symbol =>
    if ctx.prim t.s then .ok (⟨.fn (.prim t.s), .verb⟩, ts)
    else
      match ctx.op t.s with
      | none => .error .err
      | some dyadic =>
        if t.s = "∘" ∧ prev.any isDot then .ok (⟨.fn (.prim "∘"), .verb⟩, ts)
        else .ok (⟨.fn (.der t.s none none), if dyadic then .conj else .adverb⟩, ts)
  | .number => collectArray ctx (t :: ts)
  | .string => collectArray ctx (t :: ts)
  | .chars => collectArray ctx (t :: ts)
  | .identifier =>
    match ctx.varname t.s with
    | none => .error .err
    | some true => .ok (⟨.fn (.fvar t.s), .verb⟩, ts)
    | some false => collectArray ctx (t :: ts)
  | .self => .ok (⟨.fn .self, .verb⟩, ts)
  | .rightParen => subStatement ctx parse .rightParen ts
  | .rightBrack => subStatement ctx parse .rightBrack ts
  | .rightBrace => subStatement ctx parse .rightBrace ts
  | _ => .error .err

/-- the end of a statement (apl/parse.go:130-137): the remaining item -/
def finishStatement (st : List (Item D)) : Res (Option (Item D)) := do
  let st ← parseReduce true st
  match st with
  | [] => .error .panic
  | [i] => .ok (some (linkFuncAssign i))
  | i :: _ => .ok (some i)

/-- The loop of `parseStatement` (apl/parse.go:123-203); the tokens are given from right to left.  Each round takes at least one
token. -/
def stmtLoop (ctx : PCtx D) (parse : List Token → Res (Option (Item D))) : (fuel : Nat) → (ts : List Token) → (st : List (Item D)) →
    Res (Option (Item D))
  | _, [], [] => .ok none
  | _, [], st => finishStatement st
  | 0, _, _ => .error .err
  | fuel + 1, t :: ts, st =>
    if t.t = .endl then
      match st with
      | [] => .ok none
      | st => finishStatement st
    else do
      let (i, ts) ← nextItem ctx parse st.getLast? t ts
      let st ← parseReduce false (st ++ [i])
      stmtLoop ctx parse fuel ts st

/-- apl/parse.go:113-205 `parseStatement` with a bound on the nesting of parentheses; `none` is an empty statement.  The bound has no
influence if it is larger than the number of tokens (`parseN_fuel`). -/
def parseN (ctx : PCtx D) : Nat → List Token → Res (Option (Item D))
  | 0, _ => .error .err
  | n + 1, ts => stmtLoop ctx (parseN ctx n) ts.length ts.reverse []

/-- apl/parse.go:113-205 `parseStatement` -/
def parseStatement (ctx : PCtx D) (ts : List Token) : Res (Option (Item D)) := parseN ctx (ts.length + 1) ts

/-- The loop of `nextStatement` (apl/parse.go:74-95): the tokens up to the next separator and the remaining tokens -/
def nextLoop : (b : Nat) → (stmt : List Token) → List Token → Res (List Token × List Token)
  | _, stmt, [] => .ok (stmt, [])
  | b, stmt, t :: ts =>
    if t.t = .leftBrace then nextLoop (b + 1) (stmt ++ [t]) ts
    else if t.t = .rightBrace then
      if b = 0 then .error .err else nextLoop (b - 1) (stmt ++ [t]) ts
    else if b = 0 ∧ t.t = .diamond then .ok (stmt, ts)
    else nextLoop b (stmt ++ [t]) ts

/-- The loop of `parse` (apl/parse.go:46-63); `none` is nil, the expression of an empty statement. -/
def parseLoop (parse : List Token → Res (Option (Item D))) : (fuel : Nat) → List Token → Res (List (Option (Expr D)))
  | _, [] => .ok []
  | 0, _ => .error .err
  | fuel + 1, ts => do
    let (stmt, rest) ← nextLoop 0 [] ts
    let i ← parse stmt
    let es ← parseLoop parse fuel rest
    .ok (i.map Item.e :: es)

/-- apl/parse.go:44-68 `parse` -/
def parseProgram (ctx : PCtx D) (ts : List Token) : Res (List (Option (Expr D))) := do
  let p ← parseLoop (parseStatement ctx) ts.length ts
  if p.isEmpty then .error .err else .ok p

end Iv
