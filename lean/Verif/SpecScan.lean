import Verif.Model.Scan
/-
What the lines of the scanner mean: literals, lexemes, lines.  The only parts of the model used here are the tokens and the character classes
of the environment (`ScanCtx`).
-/
namespace Iv

/-- a hexadecimal digit and its value -/
def HexDigit (c : Char) (v : Nat) : Prop := "0123456789abcdef".toList[v]? = some c ∨ "0123456789ABCDEF".toList[v]? = some c

/-- an octal digit and its value -/
def OctDigit (c : Char) (v : Nat) : Prop := "01234567".toList[v]? = some c

/-- hexadecimal digits and the number they stand for -/
inductive HexNum : List Char → Nat → Prop
  | nil : HexNum [] 0
  | snoc (ds c v d) : HexNum ds v → HexDigit c d → HexNum (ds ++ [c]) (v * 16 + d)

/-- the escapes of one letter -/
def letterEscapes : List (Char × Char) :=
  [('a', '\x07'), ('b', '\x08'), ('f', '\x0c'), ('n', '\n'), ('r', '\r'), ('t', '\t'), ('v', '\x0b'), ('\\', '\\'), ('"', '"')]

/-- escape letters for a number of hexadecimal digits -/
def codeEscapes : List (Char × Nat) := [('x', 2), ('u', 4), ('U', 8)]

/-- the text after a backslash and the character it stands for -/
inductive Escape : List Char → Char → Prop
  | letter (e x) : (e, x) ∈ letterEscapes → Escape [e] x
  | code (e ds v) : (e, ds.length) ∈ codeEscapes → HexNum ds v → v.isValidChar → Escape (e :: ds) (Char.ofNat v)
  | octal (a b c i j k) : OctDigit a i → OctDigit b j → OctDigit c k → (i * 8 + j) * 8 + k ≤ 255 →
      Escape [a, b, c] (Char.ofNat ((i * 8 + j) * 8 + k))

/-- text between double quotes, and the string it stands for -/
inductive Spells : List Char → List Char → Prop
  | nil : Spells [] []
  | plain (c s w) : c ≠ '"' → c ≠ '\\' → c ≠ '\n' → Spells s w → Spells (c :: s) (c :: w)
  | escape (t x s w) : Escape t x → Spells s w → Spells ('\\' :: t ++ s) (x :: w)

/-- quotes are written twice within single quotes -/
def doubled : List Char → List Char
  | [] => []
  | c :: w => if c = '\'' then c :: c :: doubled w else c :: doubled w

/-- the characters that end a string with a backtick: white space and some others -/
def EndsTick (ctx : ScanCtx) (c : Char) : Prop := ctx.space c = true ∨ c ∈ ['`', '}', ']', ')', '⋄', '#', ';']

/-- A string literal (its text, the token it gives) followed by `rest`. -/
inductive Literal (ctx : ScanCtx) : List Char → Token → List Char → Prop
  | chars (w rest) : rest.head? ≠ some '\'' → Literal ctx ('\'' :: doubled w ++ ['\'']) ⟨.chars, String.ofList w⟩ rest
  | quoted (src w rest) : Spells src w → Literal ctx ('"' :: src ++ ['"']) ⟨.string, String.ofList w⟩ rest
  | tick (w rest) : (∀ c ∈ w, ¬ EndsTick ctx c) → (∀ c, rest.head? = some c → EndsTick ctx c) →
      Literal ctx ('`' :: w) ⟨.string, String.ofList w⟩ rest

/-- decimal digits -/
def Digit (c : Char) : Prop := '0' ≤ c ∧ c ≤ '9'

/-- the characters of a number: digits, letters, dot and high minus -/
def InNumber (c : Char) : Prop := Digit c ∨ ('a' ≤ c ∧ c ≤ 'z') ∨ ('A' ≤ c ∧ c ≤ 'Z') ∨ c = '.' ∨ c = '¯'

/-- A number starts with a digit, a high minus, or a dot in front of a digit. -/
def BeginsNumber : List Char → Prop
  | [] => False
  | c :: cs => Digit c ∨ c = '¯' ∨ (c = '.' ∧ ∃ d, cs.head? = some d ∧ Digit d)

/-- the first character of a name -/
def FirstInName (ctx : ScanCtx) (c : Char) : Prop := c ∈ ['⎕', '⍺', '⍵', '_'] ∨ ctx.letter c = true

/-- the other characters of a name -/
def InName (ctx : ScanCtx) (c : Char) : Prop := ctx.number c = true ∨ c = '_' ∨ ctx.letter c = true

/-- the tokens that consist of one character -/
def punctuation : List (Char × TT) :=
  [('(', .leftParen), (')', .rightParen), ('[', .leftBrack), (']', .rightBrack), ('{', .leftBrace), ('}', .rightBrace),
   (':', .colon), (';', .semicolon), ('∇', .self), ('⋄', .diamond)]

/-- no string and no number starts here -/
def NoLiteral (cs : List Char) : Prop := (∀ c, cs.head? = some c → c ∉ ['"', '\'', '`']) ∧ ¬ BeginsNumber cs

/-- A lexeme (its text, its token) followed by `rest`.  Strings and numbers go before symbols, those before names, and those before the other
characters; numbers and names are as long as possible. -/
inductive Lexeme (ctx : ScanCtx) : List Char → Token → List Char → Prop
  | literal (text t rest) : Literal ctx text t rest → Lexeme ctx text t rest
  | number (w rest) : BeginsNumber (w ++ rest) → (∀ c ∈ w, InNumber c) → (∀ c, rest.head? = some c → ¬ InNumber c) →
      Lexeme ctx w ⟨.number, String.ofList w⟩ rest
  | symbol (c s rest) : NoLiteral (c :: rest) → ctx.symbol c = some s → Lexeme ctx [c] ⟨.symbol, s⟩ rest
  | name (c w rest) : NoLiteral (c :: w ++ rest) → ctx.symbol c = none → FirstInName ctx c → (∀ d ∈ w, InName ctx d) →
      (∀ d, rest.head? = some d → ¬ InName ctx d ∧ d ≠ '→') → Lexeme ctx (c :: w) ⟨.identifier, String.ofList (c :: w)⟩ rest
  | qualified (c w v rest) : NoLiteral (c :: w ++ '→' :: v ++ rest) → ctx.symbol c = none → FirstInName ctx c →
      (∀ d ∈ w, InName ctx d) → ¬ InName ctx '→' → (∀ d ∈ v, InName ctx d) → (∀ d, rest.head? = some d → ¬ InName ctx d) →
      Lexeme ctx (c :: w ++ '→' :: v) ⟨.identifier, String.ofList (c :: w ++ '→' :: v)⟩ rest
  | punct (c t rest) : NoLiteral (c :: rest) → ctx.symbol c = none → ¬ FirstInName ctx c → (c, t) ∈ punctuation →
      Lexeme ctx [c] ⟨t, String.ofList [c]⟩ rest

/-- The tokens of a line: lexemes one after the other, with blanks between them, up to the end of the line or a comment.  (The conditions on
blanks and on the comment sign are met unless they are registered as symbols or count as letters.) -/
inductive Lexes (ctx : ScanCtx) : List Char → List Token → Prop
  | done : Lexes ctx [] []
  | comment (cs) : ctx.symbol '⍝' = none → ¬ FirstInName ctx '⍝' → Lexes ctx ('⍝' :: cs) []
  | blank (c cs ts) : c ∈ [' ', '\r', '\t'] → ctx.symbol c = none → ¬ FirstInName ctx c → Lexes ctx cs ts → Lexes ctx (c :: cs) ts
  | token (text t rest ts) : Lexeme ctx text t rest → Lexes ctx rest ts → Lexes ctx (text ++ rest) (t :: ts)

end Iv
