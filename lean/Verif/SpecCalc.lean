import Verif.Spec
import Verif.Model.Scan
/-
Specification for C92: a small language of array programs (integer arrays, primitive functions, reduction, scan, commute, each, lambda functions with
guards, local variables and recursion, named variables and functions), how its programs are written, and what they mean.  It does not refer
to the scanner, the parser, the interpreter or the primitive functions; only the types of tokens and arrays are shared with the model.
-/
namespace Iv.Calc

/-- the primitive functions -/
inductive Prim
  | add | sub | mul | min | max | eq | ne | lt | le | gt | ge | rho | iota | comma | rev | take | drop
deriving DecidableEq, Repr

/-- the symbol of a primitive function -/
def Prim.char : Prim → Char
  | .add => '+' | .sub => '-' | .mul => '×' | .min => '⌊' | .max => '⌈'
  | .eq => '=' | .ne => '≠' | .lt => '<' | .le => '≤' | .gt => '>' | .ge => '≥'
  | .rho => '⍴' | .iota => '⍳' | .comma => ',' | .rev => '⌽' | .take => '↑' | .drop => '↓'

/-- a function may be used with an operator: `f/` is the reduction, `f\` the scan, `f⍨` swaps the arguments, `f¨` is used with each element -/
inductive Op | plain | reduce | scan | swap | each
deriving DecidableEq, Repr

mutual
/-- Terms: a number or a vector of numbers, a variable, a function with one argument, a function with two arguments. -/
inductive Tm : Type
  | num (n : Int) (ns : List Int)
  | var (x : String)
  | mon (f : Fn) (o : Op) (r : Tm)
  | dya (l : Tm) (f : Fn) (o : Op) (r : Tm)

/-- Functions: a primitive one, a named one, a lambda function. -/
inductive Fn : Type
  | prim (p : Prim)
  | name (f : String)
  | lam (b : Body)

/-- The body of a lambda function: `t`, `x←t⋄b`, `c:t⋄b`. -/
inductive Body : Type
  | ret (t : Tm)
  | set (x : String) (t : Tm) (b : Body)
  | guard (c t : Tm) (b : Body)
end

/-- Statements: show the value of a term, assign it to a variable, define a function. -/
inductive Stmt : Type
  | shw (t : Tm)
  | set (x : String) (t : Tm)
  | fn (f : String) (b : Body)

/-! ### Meaning -/

/-- What is known at some place: ⎕IO, the variables, and the functions. -/
structure Scope where
  origin : Int
  vals : String → Option (Arr Int)
  fns : String → Option Body

/-- a variable gets a new value -/
def Scope.set (c : Scope) (x : String) (a : Arr Int) : Scope := { c with vals := fun y => if y = x then some a else c.vals y }

/-- a function gets a new definition -/
def Scope.def (c : Scope) (f : String) (b : Body) : Scope := { c with fns := fun g => if g = f then some b else c.fns g }

/-- Inside of a function: ⍺ and ⍵ are the arguments; everything else is what it is at the place of the call (dynamic scope). -/
def Scope.call (c : Scope) (l : Option (Arr Int)) (r : Arr Int) : Scope :=
  { c with vals := fun y => if y = "⍺" then l else if y = "⍵" then some r else c.vals y }

/-- the number with 64 bits in two's complement -/
def int64 (n : Int) : Int := Int.bmod n (2 ^ 64)

/-- the truth values are numbers -/
def truth (p : Bool) : Int := if p then 1 else 0

/-- a number as an array without axes -/
def single (n : Int) : Arr Int := ⟨[], [n]⟩

/-- a vector -/
def vector (l : List Int) : Arr Int := ⟨[l.length], l⟩

/-- the primitive functions of two numbers -/
def numbers2 : Prim → Option (Int → Int → Int)
  | .add => some fun x y => int64 (x + y)
  | .sub => some fun x y => int64 (x - y)
  | .mul => some fun x y => int64 (x * y)
  | .min => some fun x y => if x < y then x else y
  | .max => some fun x y => if x < y then y else x
  | .eq => some fun x y => truth (x = y)
  | .ne => some fun x y => truth (x ≠ y)
  | .lt => some fun x y => truth (x < y)
  | .le => some fun x y => truth (x ≤ y)
  | .gt => some fun x y => truth (y < x)
  | .ge => some fun x y => truth (y ≤ x)
  | _ => none

/-- the primitive functions of one number -/
def numbers1 : Prim → Option (Int → Int)
  | .add => some id
  | .sub => some fun x => int64 (-x)
  | .mul => some Int.sign
  | _ => none

/-- Element by element: arrays of the same shape; a single number is used with every element of the other array, and so is the element of an
array with one element. -/
def elementwise (g : Int → Int → Int) (a b : Arr Int) : Option (Arr Int) :=
  if a.shape = b.shape then some ⟨a.shape, List.zipWith g a.data b.data⟩
  else if b.shape = [] then some ⟨a.shape, a.data.map (fun x => g x (b.data.headD 0))⟩
  else if a.data.length = 1 then some ⟨b.shape, b.data.map (fun y => g (a.data.headD 0) y)⟩
  else if b.data.length = 1 then some ⟨a.shape, a.data.map (fun x => g x (b.data.headD 0))⟩
  else none

/-- the number of elements of an array with the given shape -/
def count (s : List Nat) : Nat := s.foldr (· * ·) 1

/-- The primitive functions with one argument.  All arrays have at least one element. -/
def apply1 (origin : Int) (p : Prim) (r : Arr Int) : Option (Arr Int) :=
  match p with
  | .rho => if r.shape = [] then none else some (vector (r.shape.map Int.ofNat))
  | .iota => if r.shape = [] ∧ 1 ≤ r.data.headD 0 then
      some (vector ((List.range (r.data.headD 0).toNat).map (fun i : Nat => origin + (i : Int)))) else none
  | .comma => some (vector r.data)
  | .rev => if r.shape.length ≤ 1 then some ⟨r.shape, r.data.reverse⟩ else none
  | p => (numbers1 p).map (fun g => ⟨r.shape, r.data.map g⟩)

/-- The primitive functions with two arguments.  All arrays have at least one element. -/
def apply2 (p : Prim) (l r : Arr Int) : Option (Arr Int) :=
  match p with
  | .rho => if l.shape.length ≤ 1 ∧ (∀ n ∈ l.data, 1 ≤ n) then
      some ⟨l.data.map Int.toNat, (List.range (count (l.data.map Int.toNat))).map (fun i => r.data.getD (i % r.data.length) 0)⟩ else none
  | .comma => if l.shape.length ≤ 1 ∧ r.shape.length ≤ 1 then some (vector (l.data ++ r.data)) else none
  | .take => if l.shape = [] ∧ r.shape.length = 1 ∧ l.data.headD 0 ≠ 0 then
      let n := (l.data.headD 0).natAbs
      let fill := List.replicate (n - r.data.length) 0
      some (vector (if 0 < l.data.headD 0 then r.data.take n ++ fill else fill ++ r.data.drop (r.data.length - n))) else none
  | .drop => if l.shape = [] ∧ r.shape.length = 1 ∧ (l.data.headD 0).natAbs < r.data.length then
      let n := (l.data.headD 0).natAbs
      some (vector (if 0 < l.data.headD 0 then r.data.drop n else r.data.take (r.data.length - n))) else none
  | .rev => if l.shape = [] ∧ r.shape.length ≤ 1 ∧ (l.data.headD 0).natAbs < 2 ^ 62 then
      let k := (l.data.headD 0 % r.data.length).toNat
      some ⟨r.shape, r.data.drop k ++ r.data.take k⟩ else none
  | p => (numbers2 p).bind (fun g => elementwise g l r)

/-- the rows of an array: its elements in groups of `n` -/
def rows (n : Nat) (data : List Int) : List (List Int) :=
  (List.range (data.length / n)).map (fun i => (data.drop (i * n)).take n)

/-- the first element, the first two elements, …, all elements -/
def prefixes (xs : List Int) : List (List Int) := (List.range xs.length).map (fun i => xs.take (i + 1))

/-- What can be said about a program: a term has a value, a function (with an operator) gives a value for its arguments, a body has a value,
a function folds numbers to a number, a function folds every one of some rows, a function gives a number for every one of some pairs
(the left one may be missing). -/
inductive Claim
  | value (t : Tm) (a : Arr Int)
  | applies (f : Fn) (o : Op) (l : Option (Arr Int)) (r a : Arr Int)
  | body (b : Body) (a : Arr Int)
  | folds (f : Fn) (xs : List Int) (v : Int)
  | foldsAll (f : Fn) (xss : List (List Int)) (vs : List Int)
  | maps (f : Fn) (ps : List (Option Int × Int)) (vs : List Int)

/-- The meaning of programs. -/
inductive Holds : Scope → Claim → Prop
  | num (c n) : Holds c (.value (.num n []) (single n))
  | nums (c n m ms) : Holds c (.value (.num n (m :: ms)) (vector (n :: m :: ms)))
  | var (c x a) : c.vals x = some a → Holds c (.value (.var x) a)
  | mon (c f o r y a) : Holds c (.value r y) → Holds c (.applies f o none y a) → Holds c (.value (.mon f o r) a)
  | dya (c l f o r x y a) : Holds c (.value r y) → Holds c (.value l x) → Holds c (.applies f o (some x) y a) →
      Holds c (.value (.dya l f o r) a)
  /- functions -/
  | prim1 (c p r a) : apply1 c.origin p r = some a → Holds c (.applies (.prim p) .plain none r a)
  | prim2 (c p l r a) : apply2 p l r = some a → Holds c (.applies (.prim p) .plain (some l) r a)
  | name (c f b l r a) : c.fns f = some b → Holds (c.call l r) (.body b a) → Holds c (.applies (.name f) .plain l r a)
  | lam (c b l r a) : Holds (c.call l r) (.body b a) → Holds c (.applies (.lam b) .plain l r a)
  /- operators -/
  | swap1 (c f r a) : Holds c (.applies f .plain (some r) r a) → Holds c (.applies f .swap none r a)
  | swap2 (c f l r a) : Holds c (.applies f .plain (some r) l a) → Holds c (.applies f .swap (some l) r a)
  | reduce0 (c f n) : Holds c (.applies f .reduce none (single n) (single n))
  | reduce1 (c f xs v) : Holds c (.folds f xs v) → Holds c (.applies f .reduce none (vector xs) (single v))
  | reduce (c f s n data vs) : s ≠ [] → Holds c (.foldsAll f (rows n data) vs) →
      Holds c (.applies f .reduce none ⟨s ++ [n], data⟩ ⟨s, vs⟩)
  | scan0 (c f n) : Holds c (.applies f .scan none (single n) (single n))
  | scan (c f s n data vs) : Holds c (.foldsAll f ((rows n data).flatMap prefixes) vs) →
      Holds c (.applies f .scan none ⟨s ++ [n], data⟩ ⟨s ++ [n], vs⟩)
  /- `<¨` is not the each operator -/
  | each0 (c f n a) : f ≠ .prim .lt → Holds c (.applies f .plain none (single n) a) → Holds c (.applies f .each none (single n) a)
  | each1 (c f r vs) : f ≠ .prim .lt → r.shape ≠ [] → Holds c (.maps f (r.data.map (fun y => (none, y))) vs) →
      Holds c (.applies f .each none r ⟨r.shape, vs⟩)
  | each00 (c f m n a) : f ≠ .prim .lt → Holds c (.applies f .plain (some (single m)) (single n) a) →
      Holds c (.applies f .each (some (single m)) (single n) a)
  | each2 (c f l r vs) : f ≠ .prim .lt → l.shape = r.shape → r.shape ≠ [] → Holds c (.maps f (List.zipWith (fun x y => (some x, y)) l.data r.data) vs) →
      Holds c (.applies f .each (some l) r ⟨r.shape, vs⟩)
  | eachL (c f n r vs) : f ≠ .prim .lt → r.shape ≠ [] → Holds c (.maps f (r.data.map (fun y => (some n, y))) vs) →
      Holds c (.applies f .each (some (single n)) r ⟨r.shape, vs⟩)
  | eachR (c f l n vs) : f ≠ .prim .lt → l.shape ≠ [] → Holds c (.maps f (l.data.map (fun x => (some x, n))) vs) →
      Holds c (.applies f .each (some l) (single n) ⟨l.shape, vs⟩)
  /- bodies -/
  | ret (c t a) : Holds c (.value t a) → Holds c (.body (.ret t) a)
  | set (c x t b y a) : Holds c (.value t y) → Holds (c.set x y) (.body b a) → Holds c (.body (.set x t b) a)
  | yes (c g t b a) : Holds c (.value g (single 1)) → Holds c (.value t a) → Holds c (.body (.guard g t b) a)
  | no (c g t b a) : Holds c (.value g (single 0)) → Holds c (.body b a) → Holds c (.body (.guard g t b) a)
  /- folds: from right to left -/
  | last (c f x) : Holds c (.folds f [x] x)
  | step (c f x xs v w) : xs ≠ [] → Holds c (.folds f xs v) → Holds c (.applies f .plain (some (single x)) (single v) (single w)) →
      Holds c (.folds f (x :: xs) w)
  | none (c f) : Holds c (.foldsAll f [] [])
  | all (c f xs v xss vs) : Holds c (.folds f xs v) → Holds c (.foldsAll f xss vs) → Holds c (.foldsAll f (xs :: xss) (v :: vs))
  /- one after the other -/
  | done (c f) : Holds c (.maps f [] [])
  | pair (c f l y v ps vs) : Holds c (.applies f .plain (l.map single) (single y) (single v)) → Holds c (.maps f ps vs) →
      Holds c (.maps f ((l, y) :: ps) (v :: vs))

/-- A program: statements one after the other.  `Prints c p out c'`: the values of the terms that are shown, in order, and what is known
afterwards. -/
inductive Prints : Scope → List Stmt → List (Arr Int) → Scope → Prop
  | nil (c) : Prints c [] [] c
  | shw (c t a p out c') : Holds c (.value t a) → Prints c p out c' → Prints c (.shw t :: p) (a :: out) c'
  | set (c x t a p out c') : Holds c (.value t a) → Prints (c.set x a) p out c' → Prints c (.set x t :: p) out c'
  | fn (c f b p out c') : Prints (c.def f b) p out c' → Prints c (.fn f b :: p) out c'

/-! ### Text -/

/-- the text of a number: negative numbers have a high minus -/
def showInt (n : Int) : List Char := if n < 0 then '¯' :: (Nat.toDigits 10 n.natAbs) else Nat.toDigits 10 n.natAbs

/-- the text of a number or of a vector: the numbers with blanks between them -/
def showList : List Int → List Char
  | [] => []
  | [n] => showInt n
  | n :: m :: ns => showInt n ++ ' ' :: showList (m :: ns)

def sym (c : Char) : Token := ⟨.symbol, String.ofList [c]⟩
def numTok (n : Int) : Token := ⟨.number, String.ofList (showInt n)⟩
def ident (x : String) : Token := ⟨.identifier, x⟩

/-- the operator behind a function -/
def Op.toks : Op → List Token
  | .plain => []
  | .reduce => [sym '/']
  | .scan => [sym '\\']
  | .swap => [sym '⍨']
  | .each => [sym '¨']

/-- a term that can be a left argument without parentheses -/
def Tm.atomic : Tm → Bool
  | .num _ _ => true
  | .var _ => true
  | _ => false

mutual
/-- the tokens of a term; a left argument that is not a number, a vector or a variable is in parentheses -/
def Tm.toks : Tm → List Token
  | .num n ns => (n :: ns).map numTok
  | .var x => [ident x]
  | .mon f o r => f.toks ++ o.toks ++ r.toks
  | .dya l f o r => (if l.atomic then l.toks else ⟨.leftParen, "("⟩ :: l.toks ++ [⟨.rightParen, ")"⟩]) ++ f.toks ++ o.toks ++ r.toks

/-- the tokens of a function -/
def Fn.toks : Fn → List Token
  | .prim p => [sym p.char]
  | .name f => [ident f]
  | .lam b => ⟨.leftBrace, "{"⟩ :: b.toks ++ [⟨.rightBrace, "}"⟩]

/-- the tokens of a body -/
def Body.toks : Body → List Token
  | .ret t => t.toks
  | .set x t b => ident x :: sym '←' :: t.toks ++ ⟨.diamond, "⋄"⟩ :: b.toks
  | .guard c t b => c.toks ++ ⟨.colon, ":"⟩ :: t.toks ++ ⟨.diamond, "⋄"⟩ :: b.toks
end

/-- the tokens of a statement -/
def Stmt.toks : Stmt → List Token
  | .shw t => t.toks
  | .set x t => ident x :: sym '←' :: t.toks
  | .fn f b => ident f :: sym '←' :: (Fn.lam b).toks

/-- the tokens of a program: statements with diamonds between them -/
def progToks : List Stmt → List Token
  | [] => []
  | [s] => s.toks
  | s :: t :: p => s.toks ++ ⟨.diamond, "⋄"⟩ :: progToks (t :: p)

/-- a blank is written between numbers and names only -/
def wordy (t : Token) : Bool := t.t == .number || t.t == .identifier

/-- the text of tokens -/
def source : List Token → List Char
  | [] => []
  | [t] => t.s.toList
  | t :: u :: r => t.s.toList ++ (if wordy t && wordy u then [' '] else []) ++ source (u :: r)

/-- the characters of the primitive functions, the operators and the assignment -/
def symbols : List Char := ['+', '-', '×', '⌊', '⌈', '=', '≠', '<', '≤', '>', '≥', '⍴', '⍳', ',', '⌽', '↑', '↓', '/', '\\', '⍨', '¨', '←']

/-! ### Names -/

/-- letters, digits, upper case letters -/
structure Chars where
  letter : Char → Bool
  number : Char → Bool
  upper : Char → Bool

/-- A name begins with a letter or a low line, which are followed by letters, digits and low lines. -/
def Chars.Name (k : Chars) (c : Char) (cs : List Char) : Prop :=
  (k.letter c = true ∨ c = '_') ∧ ∀ d ∈ cs, k.letter d = true ∨ k.number d = true ∨ d = '_'

/-- the name of a variable: it begins with an upper case letter, or it is ⍺ or ⍵ -/
def Chars.VarName (k : Chars) (x : String) : Prop :=
  x = "⍺" ∨ x = "⍵" ∨ ∃ c cs, x = String.ofList (c :: cs) ∧ k.Name c cs ∧ k.upper c = true

/-- the name of a function: it does not begin with an upper case letter -/
def Chars.FnName (k : Chars) (x : String) : Prop := ∃ c cs, x = String.ofList (c :: cs) ∧ k.Name c cs ∧ k.upper c = false

mutual
/-- The names that are used: `v` are the names for variables, `f` the ones for functions; the numbers have 64 bits. -/
def Tm.Uses (v f : String → Prop) : Tm → Prop
  | .num n ns => ∀ m ∈ n :: ns, -2 ^ 63 ≤ m ∧ m < 2 ^ 63
  | .var x => v x
  | .mon g _ r => g.Uses v f ∧ r.Uses v f
  | .dya l g _ r => l.Uses v f ∧ g.Uses v f ∧ r.Uses v f

def Fn.Uses (v f : String → Prop) : Fn → Prop
  | .prim _ => True
  | .name g => f g
  | .lam b => b.Uses v f

/-- ⍺ is not assigned -/
def Body.Uses (v f : String → Prop) : Body → Prop
  | .ret t => t.Uses v f
  | .set x t b => v x ∧ x ≠ "⍺" ∧ t.Uses v f ∧ b.Uses v f
  | .guard c t b => c.Uses v f ∧ t.Uses v f ∧ b.Uses v f
end

def Stmt.Uses (v f : String → Prop) : Stmt → Prop
  | .shw t => t.Uses v f
  | .set x t => v x ∧ x ≠ "⍺" ∧ t.Uses v f
  | .fn g b => f g ∧ b.Uses v f

end Iv.Calc
