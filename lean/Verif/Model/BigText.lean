import Verif.Model.Big
import Verif.Model.Format
import Mathlib.Data.Rat.Defs
/-
Numbers of the big tower as text and back: apl/big/int.go, apl/big/rat.go.
Go's math/big `SetString` and `String` are modelled on characters.  Left out: underscores (not part of a number token), and in decimal fractions
the prefixes 0b, 0o, 0x and binary exponents (`p`), which are rejected here.  No format strings are set.
-/
namespace Iv
variable {O : Type}

/-- apl/big/int.go:19-26 `Int.String` -/
def bigIntText (i : Int) : List Char :=
  match signText false 10 i with
  | '-' :: cs => '¯' :: cs
  | cs => cs

/-- `strings.Replace(s, "-", "¯", -1)` -/
def highMinusAll (s : List Char) : List Char := s.map (fun c => if c = '-' then '¯' else c)

/-- `strings.Replace(s, "¯", "-", -1)` -/
def lowMinusAll (s : List Char) : List Char := s.map (fun c => if c = '¯' then '-' else c)

/-- `strings.Replace(s, x, y, 1)` for characters -/
def replaceFirst (x y : Char) : List Char → List Char
  | [] => []
  | c :: cs => if c = x then y :: cs else c :: replaceFirst x y cs

/-- Go's `Rat.String`: numerator and denominator in lowest terms -/
def goRatText (q : ℚ) : List Char := signText false 10 q.num ++ '/' :: natText false 10 q.den

/-- `strings.HasSuffix(s, "/1")` -/
def endsOne (s : List Char) : Bool := s.drop (s.length - 2) == ['/', '1']

/-- apl/big/rat.go:25-43 `Rat.String` -/
def ratText (q : ℚ) : List Char :=
  if endsOne (highMinusAll (goRatText q)) then (highMinusAll (goRatText q)).dropLast.dropLast else replaceFirst '/' 'r' (highMinusAll (goRatText q))

/-- digits, at least one -/
def digits1 (s : List Char) : Option Nat := if s = [] then none else digitsVal 10 0 s

/-- Go's `big.Int.SetString(s, 10)` -/
def setInt10 (s : List Char) : Option Int :=
  match s with
  | '-' :: cs => (digits1 cs).map (fun u => -(u : Int))
  | '+' :: cs => (digits1 cs).map (fun u => (u : Int))
  | cs => (digits1 cs).map (fun u => (u : Int))

/-- Go's `big.Int.SetString(s, 0)` -/
def setInt0 (s : List Char) : Option Int :=
  match s with
  | '-' :: cs => (parseUint cs).map (fun u => -(u : Int))
  | '+' :: cs => (parseUint cs).map (fun u => (u : Int))
  | cs => (parseUint cs).map (fun u => (u : Int))

/-- apl/big/int.go:33-41 `ParseInt` -/
def parseBigInt (s : List Char) : Option Int := setInt10 (lowMinusAll s)

/-- is it a decimal digit -/
def isDec (c : Char) : Bool := '0' ≤ c && c ≤ '9'

/-- the text before and after the first slash -/
def cutSlash : List Char → Option (List Char × List Char)
  | [] => none
  | c :: cs => if c = '/' then some ([], cs) else (cutSlash cs).map (fun p => (c :: p.1, p.2))

/-- Go's `Rat.SetString` with a slash: the denominator has no sign and is not zero -/
def setFraction (a b : List Char) : Option ℚ :=
  match setInt0 a, parseUint b with
  | some n, some d => if d = 0 then none else some ((n : ℚ) / d)
  | _, _ => none

/-- Go's `scanExponent` -/
def scanExp (s : List Char) : Option Int :=
  match s with
  | [] => some 0
  | 'e' :: cs => setInt10 cs
  | 'E' :: cs => setInt10 cs
  | _ => none

/-- mantissa and exponent: the digits in front of the dot, those behind it, and the rest -/
def decimalOf (a b rest : List Char) : Option (Nat × Int) :=
  match digits1 (a ++ b), scanExp rest with
  | some m, some e => some (m, e - b.length)
  | _, _ => none

/-- the part behind the digits in front of the dot -/
def decimalRest (a : List Char) : List Char → Option (Nat × Int)
  | '.' :: cs => decimalOf a (cs.takeWhile isDec) (cs.dropWhile isDec)
  | cs => decimalOf a [] cs

/-- A decimal number without sign as mantissa and power of ten.  This is the syntax both of math/big (`nat.scan` with a fraction, `scanExponent`) and
of strconv (`readFloat`). -/
def decimalSyntax (s : List Char) : Option (Nat × Int) := decimalRest (s.takeWhile isDec) (s.dropWhile isDec)

/-- the value; exponents beyond a million are rejected -/
def ratOfDecimal : Nat × Int → Option ℚ
  | (m, k) => if m = 0 then some 0 else if k.natAbs > 1000000 then none else some ((m : ℚ) * (10 : ℚ) ^ k)

/-- Go's `Rat.SetString` without a slash and without a sign -/
def setDecimal (s : List Char) : Option ℚ := (decimalSyntax s).bind ratOfDecimal

/-- Go's `Rat.SetString` without a slash -/
def setSigned (s : List Char) : Option ℚ :=
  match s with
  | '-' :: cs => (setDecimal cs).map (fun q => -q)
  | '+' :: cs => setDecimal cs
  | cs => setDecimal cs

/-- Go's `Rat.SetString` -/
def setRat (s : List Char) : Option ℚ :=
  match cutSlash s with
  | some (a, b) => setFraction a b
  | none => setSigned s

/-- apl/big/rat.go:54-63 `ParseRat` -/
def parseRat (s : List Char) : Option ℚ := setRat (replaceFirst 'r' '/' (lowMinusAll s))

/-- the text of a number of the tower -/
def bigText : BigV → List Char
  | .int n => bigIntText n
  | .rat q => ratText q

/-- `Parse` of a class of the tower (apl/big/register.go:27-36) -/
def bigParse : Nat → List Char → Option BigV
  | 0, s => (parseBigInt s).map .int
  | 1, s => (parseRat s).map .rat
  | _, _ => none

/-- the tower of apl/big/register.go:24-52 as an environment for formatting and parsing -/
def bigText.env (print space : Char → Bool) (other : Int → Nat → O → List Char) : TextEnv BigV O where
  print := print
  space := space
  numText := fun _ _ v => bigText v
  numParse := bigParse
  classes := 2
  otherText := other

/-- `Tower.Parse` with the big tower -/
def parseBig (s : List Char) : Option BigN := parseNumber (bigText.env (O := Empty) (fun _ => true) (fun _ => false) (fun _ _ o => nomatch o)) s

end Iv
