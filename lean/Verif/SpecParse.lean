import Verif.Model.Parse
/-
Specification for C46: the words of a statement, their scope, and the tokens that spell them.  Only the types of tokens, expressions
and items are shared with the model of the parser.
-/
namespace Iv
variable {D : Type}

/-! ### Specification: words and scope -/

/-- An operator symbol behind an operand: a monadic one, or a dyadic one with its right operand (a noun or a verb). -/
inductive OpUse (D : Type) : Type
  | mop (s : String)
  | dop (s : String) (q : Expr D) (isVerb : Bool)

/-- A word: an operand (a noun or a verb) with the operators applied to it.  Without operators it is the noun or the function itself. -/
structure Word (D : Type) where
  p : Expr D
  isVerb : Bool
  ops : List (OpUse D)

/-- The derived function: operators bind to the left, `p o1 o2` is `(p o1) o2`, and take one operand on the right. -/
def derive (e : Expr D) : List (OpUse D) → Expr D
  | [] => e
  | .mop s :: r => derive (.fn (.der s (some e) none)) r
  | .dop s q _ :: r => derive (.fn (.der s (some e) (some q))) r

/-- is the word a function -/
def Word.verb (w : Word D) : Bool := w.isVerb || !w.ops.isEmpty

/-- the value of a word -/
def Word.e (w : Word D) : Expr D := derive w.p w.ops

/-- The long right scope: a function has everything on its right as right argument, and the noun directly on its left, if there is
one, as left argument. -/
def scope : List (Word D) → Option (Expr D)
  | [] => none
  | w :: ws =>
    if w.verb then
      match w.e, scope ws with
      | .fn f, some r => some (.app f none r false)
      | _, _ => none
    else
      match ws with
      | [] => some w.e
      | v :: vs =>
        if v.verb then
          match v.e, scope vs with
          | .fn f, some r => some (.app f (some w.e) r false)
          | _, _ => none
        else none

/-! ### Items -/

def clsOf (isVerb : Bool) : Cls := if isVerb then .verb else .noun

/-- the items of an operator and its right operand -/
def OpUse.items : OpUse D → List (Item D)
  | .mop s => [⟨.fn (.der s none none), .adverb⟩]
  | .dop s q b => [⟨.fn (.der s none none), .conj⟩, ⟨q, clsOf b⟩]

def opsItems : List (OpUse D) → List (Item D)
  | [] => []
  | o :: os => o.items ++ opsItems os

/-- the items of a word, from left to right -/
def Word.items (w : Word D) : List (Item D) := ⟨w.p, clsOf w.isVerb⟩ :: opsItems w.ops

/-- the item of the derived function -/
def Word.item (w : Word D) : Item D := ⟨w.e, clsOf w.verb⟩

/-- all items of a statement, from left to right -/
def wordsItems : List (Word D) → List (Item D)
  | [] => []
  | w :: ws => w.items ++ wordsItems ws

/-- no three monadic operators in a row -/
def noTriple : List (OpUse D) → Bool
  | .mop _ :: .mop _ :: .mop _ :: _ => false
  | _ :: os => noTriple os
  | [] => true

/-- the last operator of the word is a monadic one -/
def endsMop (ops : List (OpUse D)) : Bool :=
  match ops.getLast? with
  | some (.mop _) => true
  | _ => false

/-- the word is an operand with one monadic operator -/
def Word.single (w : Word D) : Bool :=
  match w.ops with
  | [.mop _] => true
  | _ => false

/-- The words behind the first one do not have three monadic operators in a row, and if one of them ends with a monadic operator, the
next one has no operators or a single monadic one. -/
def Chained : List (Word D) → Prop
  | [] => True
  | v :: vs => noTriple v.ops = true ∧ (endsMop v.ops = true → ∀ u, vs.head? = some u → u.ops = [] ∨ u.single = true) ∧ Chained vs

/-- The condition for the words of a statement; there is no condition for the first one. -/
def Parsable : List (Word D) → Prop
  | [] => True
  | _ :: vs => Chained vs

/-! ### Functions -/

def isSpecE : Expr D → Bool
  | .spec _ => true
  | _ => false

def isFnE : Expr D → Bool
  | .fn _ => true
  | _ => false

/-- is the expression a train -/
def isTrainE : Expr D → Bool
  | .fn (.train _) => true
  | _ => false

/-- The value of a sequence of functions: a single function or a train. -/
def funScope : List (Word D) → Option (Expr D)
  | [] => none
  | [w] => some w.e
  | ws => some (.fn (.train (ws.map Word.e)))

/-! ### Tokens -/

/-- a token that can be an element of a vector -/
def strandTok (ctx : PCtx D) (t : Token) : Bool :=
  match t.t with
  | .number => true
  | .string => true
  | .chars => true
  | .identifier => ctx.varname t.s == some false
  | _ => false


abbrev tLP : Token := ⟨.leftParen, "("⟩
abbrev tRP : Token := ⟨.rightParen, ")"⟩
abbrev tLB : Token := ⟨.leftBrack, "["⟩
abbrev tRB : Token := ⟨.rightBrack, "]"⟩
abbrev tLC : Token := ⟨.leftBrace, "{"⟩
abbrev tRC : Token := ⟨.rightBrace, "}"⟩
abbrev tSemi : Token := ⟨.semicolon, ";"⟩
abbrev tColon : Token := ⟨.colon, ":"⟩
abbrev tDia : Token := ⟨.diamond, "⋄"⟩
abbrev tJot : Token := ⟨.symbol, "∘"⟩

/-- an element of a vector literal -/
inductive Elem (ctx : PCtx D) : Token → Expr D → Prop
  | number (s n) : ctx.number s = some n → Elem ctx ⟨.number, s⟩ (.lit n)
  | string (s) : Elem ctx ⟨.string, s⟩ (.lit (ctx.str s))
  | char (c : Char) : Elem ctx ⟨.chars, String.ofList [c]⟩ (.lit (ctx.str (String.ofList [c])))
  | var (s) : ctx.varname s = some false → Elem ctx ⟨.identifier, s⟩ (.var s)

/-- neighbouring elements, `List.Forall₂` -/
inductive Elems (ctx : PCtx D) : List Token → List (Expr D) → Prop
  | nil : Elems ctx [] []
  | cons (t e ts es) : Elem ctx t e → Elems ctx ts es → Elems ctx (t :: ts) (e :: es)

/-- a single value, a vector literal, a text in single quotes -/
inductive Strand (ctx : PCtx D) : List Token → Expr D → Prop
  | one (t e) : Elem ctx t e → Strand ctx [t] e
  | many (ts es) : 2 ≤ ts.length → Elems ctx ts es → Strand ctx ts (.strand es)
  | chars (s : String) : 2 ≤ s.toList.length →
      Strand ctx [⟨.chars, s⟩] (.strand (s.toList.map (fun c => .lit (ctx.str (String.ofList [c])))))
  | empty : Strand ctx [⟨.chars, ""⟩] (.lit ctx.empty)

/-! The parts of a statement depend on `Q`, the statements that can be nested in parentheses, brackets and braces. -/

/-- a position in brackets or in a list: it may be empty -/
inductive Slot (ctx : PCtx D) (Q : List Token → Item D → Prop) : List Token → Expr D → Prop
  | none : Slot ctx Q [] (.lit ctx.empty)
  | some (ts i) : Q ts i → Slot ctx Q ts i.e

/-- positions separated by semicolons -/
inductive Slots (ctx : PCtx D) (Q : List Token → Item D → Prop) : List Token → List (Expr D) → Prop
  | one (ts e) : Slot ctx Q ts e → Slots ctx Q ts [e]
  | cons (ts e us es) : Slot ctx Q ts e → Slots ctx Q us es → Slots ctx Q (ts ++ tSemi :: us) (e :: es)

/-- the tokens between brackets -/
inductive Brackets (ctx : PCtx D) (Q : List Token → Item D → Prop) : List Token → List (Expr D) → Prop
  | empty : Brackets ctx Q [] []
  | slots (ts es) : ts ≠ [] → Slots ctx Q ts es → Brackets ctx Q ts es

/-- The elements of a list, each one with a semicolon behind it; an element may be empty.  An element must not use brackets: the parser
splits the list at all semicolons outside of parentheses. -/
inductive ListElems (ctx : PCtx D) (Q : List Token → Item D → Prop) : List Token → List (Expr D) → Prop
  | nil : ListElems ctx Q [] []
  | cons (ts e us es) : Slot ctx Q ts e → (∀ t ∈ ts, t.t ≠ .leftBrack) → ListElems ctx Q us es → ListElems ctx Q (ts ++ tSemi :: us) (e :: es)

/-- a guarded expression: `expr` or `cond:expr` -/
inductive Guarded (Q : List Token → Item D → Prop) : List Token → Guard D → Prop
  | plain (ts i) : Q ts i → Guarded Q ts (.mk none (some i.e))
  | cond (cs c ts i) : Q cs c → Q ts i → Guarded Q (cs ++ tColon :: ts) (.mk (some c.e) (some i.e))

/-- the body of a lambda function: guarded expressions separated by diamonds, with a diamond at the end or with the ternary form -/
inductive Body (Q : List Token → Item D → Prop) : List Token → List (Guard D) → Prop
  | one (ts g) : Guarded Q ts g → Body Q ts [g]
  | trail (ts g) : Guarded Q ts g → Body Q (ts ++ [tDia]) [g]
  | ternary (cs c ts i us j) : Q cs c → Q ts i → Q us j →
      Body Q (cs ++ tColon :: (ts ++ tColon :: us)) [.mk (some c.e) (some i.e), .mk none (some j.e)]
  | cons (ts g us gs) : Guarded Q ts g → Body Q us gs → Body Q (ts ++ tDia :: us) (g :: gs)

/-- the tokens of an operand or of an operator -/
inductive Atom (ctx : PCtx D) (Q : List Token → Item D → Prop) : List Token → Item D → Prop
  | prim (s) : ctx.prim s = true → Atom ctx Q [⟨.symbol, s⟩] ⟨.fn (.prim s), .verb⟩
  | mop (s) : ctx.prim s = false → ctx.op s = some false → Atom ctx Q [⟨.symbol, s⟩] ⟨.fn (.der s none none), .adverb⟩
  | dop (s) : ctx.prim s = false → ctx.op s = some true → Atom ctx Q [⟨.symbol, s⟩] ⟨.fn (.der s none none), .conj⟩
  | jot : ctx.prim "∘" = false → ctx.op "∘" = some true → Atom ctx Q [tJot] ⟨.fn (.prim "∘"), .verb⟩
  | fvar (s) : ctx.varname s = some true → Atom ctx Q [⟨.identifier, s⟩] ⟨.fn (.fvar s), .verb⟩
  | self (s) : Atom ctx Q [⟨.self, s⟩] ⟨.fn .self, .verb⟩
  | strand (ts e) : Strand ctx ts e → Atom ctx Q ts ⟨e, .noun⟩
  | paren (ts i) : Q ts i → Atom ctx Q (tLP :: (ts ++ [tRP])) i
  | list (ts es) : ts ≠ [] → ListElems ctx Q ts es → Atom ctx Q (tLP :: (ts ++ [tRP])) ⟨.list es, .noun⟩
  | lambda (ts gs) : Body Q ts gs → Atom ctx Q (tLC :: (ts ++ [tRC])) ⟨.fn (.lam (some gs)), .verb⟩
  | lambda0 : Atom ctx Q [tLC, tRC] ⟨.fn (.lam none), .verb⟩

/-- an operand or an operator, an operand with an index, a primitive function with an axis -/
inductive Piece (ctx : PCtx D) (Q : List Token → Item D → Prop) : List Token → Item D → Prop
  | atom (ts i) : Atom ctx Q ts i → Piece ctx Q ts i
  | index (ts x bs es) : Atom ctx Q ts ⟨x, .noun⟩ → Brackets ctx Q bs es →
      Piece ctx Q (ts ++ tLB :: (bs ++ [tRB])) ⟨.app (.prim "⌷") (some (.spec es)) x false, .noun⟩
  | axis (s bs a) : ctx.prim s = true → bs ≠ [] → Slots ctx Q bs [a] →
      Piece ctx Q (⟨.symbol, s⟩ :: tLB :: (bs ++ [tRB])) ⟨.fn (.der "⍂" (some (.fn (.prim s))) (some a)), .verb⟩

/-- A jot is a function in front of the operator `.` (and of a function derived by it) and an operator otherwise; `next` is the item on
its right. -/
def jotOK (ctx : PCtx D) (p : List Token × Item D) (next : Option (Item D)) : Prop :=
  ctx.prim "∘" = false → p.1 = [tJot] → (p.2.cls = .verb ↔ next.any isDot = true)

/-- Neighbouring pieces are separated: no value directly next to another value, and the meaning of jots. -/
def Adjacent (ctx : PCtx D) : List (List Token × Item D) → Prop
  | [] => True
  | [p] => jotOK ctx p none
  | p :: q :: r =>
    (∀ s t, p.1.getLast? = some s → q.1.head? = some t → ¬ (strandTok ctx s = true ∧ strandTok ctx t = true)) ∧
      jotOK ctx p (some q.2) ∧ Adjacent ctx (q :: r)

/-- The pieces of a statement from left to right.  An axis behind an operator or behind a derived function is written in brackets; it is
the right operand of the operator `⍂`: `+/[1]A` is `((+/)⍂1)A`.  The piece behind the one that follows the axis must not be an operator. -/
inductive Pieces (ctx : PCtx D) (Q : List Token → Item D → Prop) : List (List Token × Item D) → Prop
  | nil : Pieces ctx Q []
  | cons (p ps) : Piece ctx Q p.1 p.2 → Pieces ctx Q ps → Pieces ctx Q (p :: ps)
  | opAxis (ts op lo ro c bs a ps) : Atom ctx Q ts ⟨.fn (.der op lo ro), c⟩ → bs ≠ [] → Slots ctx Q bs [a] → isFnE a = false →
      (∀ q, ps[1]? = some q → q.2.cls.isOp = false) → Pieces ctx Q ps →
      Pieces ctx Q ((ts, ⟨.fn (.der op lo ro), c⟩) :: ([tLB], ⟨.fn (.der "⍂" none none), .conj⟩) :: (bs ++ [tRB], ⟨a, .noun⟩) :: ps)

/-- The tokens of a statement and its value: an array expression, a function or train, the assignment of a function, or a train that
begins with an array. -/
inductive Phrase (ctx : PCtx D) (Q : List Token → Item D → Prop) : List Token → Item D → Prop
  | value (ps ws e) : Pieces ctx Q ps → Adjacent ctx ps → ps.map Prod.snd = wordsItems ws → Parsable ws →
      scope ws = some e → Phrase ctx Q (ps.map Prod.fst).flatten ⟨e, .noun⟩
  | func (ps ws f) : Pieces ctx Q ps → Adjacent ctx ps → ps.map Prod.snd = wordsItems ws → Parsable ws →
      (∀ w ∈ ws, w.verb = true) → (∀ z, 2 ≤ ws.length → ws.getLast? = some z → isTrainE z.e = false) →
      (∀ lo ro g, f ≠ .fn (.train [.fn (.der "←" lo ro), g])) →
      funScope ws = some f → Phrase ctx Q (ps.map Prod.fst).flatten ⟨f, .verb⟩
  | assign (ps a g lo ro) : Pieces ctx Q ps → Adjacent ctx ps → ps.map Prod.snd = wordsItems [a, g] →
      noTriple g.ops = true → a.verb = true → g.verb = true → a.e = .fn (.der "←" lo ro) → isTrainE g.e = false →
      Phrase ctx Q (ps.map Prod.fst).flatten ⟨.app (.der "←" lo ro) none g.e false, .verb⟩
  | fork (ps w ws) : Pieces ctx Q ps → Adjacent ctx ps → ps.map Prod.snd = wordsItems (w :: ws) → Parsable (w :: ws) →
      w.verb = false → (∀ v ∈ ws, v.verb = true) → (∀ z, ws.getLast? = some z → isTrainE z.e = false) → ws ≠ [] →
      ws.length % 2 = 0 → Phrase ctx Q (ps.map Prod.fst).flatten ⟨.fn (.train ((w :: ws).map Word.e)), .verb⟩

/-- The tokens of a statement with parentheses, brackets and braces nested less than `n` deep, and its value. -/
def Statement (ctx : PCtx D) : Nat → List Token → Item D → Prop
  | 0 => fun _ _ => False
  | n + 1 => Phrase ctx (Statement ctx n)

end Iv
