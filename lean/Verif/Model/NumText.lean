import Verif.Model.BigText
/-
Numbers of the default tower as text and back: apl/numbers/float.go:14-46, apl/numbers/complex.go:14-118, apl/numbers/register.go:19-57.
Floating point numbers are a type `F` of which rounding (Go's strconv is trusted to round correctly), the text, negation and the functions of
math/cmplx are parameters.  Go's `strconv.ParseFloat` is modelled on characters; left out are hexadecimal numbers and underscores, and that
exponents beyond 10000 are cut (the result is the same: zero or an error).  No format strings are set.
-/
namespace Iv
variable {F O : Type}

/-- What is asked about floating point numbers. -/
structure FloatEnv (F : Type) where
  /-- the number nearest to a (sign and) non-negative rational; none if it is too large (`strconv.ErrRange`) -/
  round : (neg : Bool) → ℚ → Option F
  /-- infinity with a sign -/
  inf : (neg : Bool) → F
  nan : F
  /-- Go's `-x` -/
  neg : F → F
  /-- Go's `x == n` for a small integer -/
  eqInt : F → Int → Bool
  /-- the number 0 -/
  zero : F
  /-- `cmplx.Rect(mag, deg / 180 * π)` -/
  rect : F → F → F × F
  /-- `fmt.Sprintf` with `%v`, or with the precision in digits -/
  text : (prec : Option Nat) → F → List Char

/-- the numbers of the tower: Float, Complex, Time (in nanoseconds since year 0) -/
inductive DefV (F : Type)
  | float (x : F)
  | cplx (re im : F)
  | time (t : Int)
deriving DecidableEq

/-- lower case of a letter -/
def lowerChar (c : Char) : Char := if 'A' ≤ c ∧ c ≤ 'Z' then Char.ofNat (c.toNat + 32) else c

/-- Go's strconv `special`: infinity (with a sign) and not-a-number, in any case -/
def specialOf (env : FloatEnv F) (s : List Char) : Option F :=
  match s.map lowerChar with
  | '-' :: cs => if cs = "inf".toList ∨ cs = "infinity".toList then some (env.inf true) else none
  | '+' :: cs => if cs = "inf".toList ∨ cs = "infinity".toList then some (env.inf false) else none
  | cs => if cs = "inf".toList ∨ cs = "infinity".toList then some (env.inf false) else if cs = "nan".toList then some env.nan else none

/-- the number nearest to mantissa times a power of ten -/
def roundDecimal (env : FloatEnv F) (neg : Bool) : Nat × Int → Option F
  | (m, k) => env.round neg ((m : ℚ) * (10 : ℚ) ^ k)

/-- a decimal number with a sign -/
def readDecimal (env : FloatEnv F) (s : List Char) : Option F :=
  match s with
  | '-' :: cs => (decimalSyntax cs).bind (roundDecimal env true)
  | '+' :: cs => (decimalSyntax cs).bind (roundDecimal env false)
  | cs => (decimalSyntax cs).bind (roundDecimal env false)

/-- Go's `strconv.ParseFloat(s, 64)`: the number, if there is no error -/
def goParseFloat (env : FloatEnv F) (s : List Char) : Option F :=
  match specialOf env s with
  | some x => some x
  | none => readDecimal env s

/-- `strings.TrimSuffix(s, ".")` -/
def trimDot (s : List Char) : List Char := if s.getLast? = some '.' then s.dropLast else s

/-- apl/numbers/float.go:40-46 `ParseFloat` -/
def parseFloat (env : FloatEnv F) (s : List Char) : Option F := goParseFloat env (trimDot (lowMinusAll s))

/-- the text before and after the first occurrence of a character (`strings.Index`) -/
def cutAt (x : Char) : List Char → Option (List Char × List Char)
  | [] => none
  | c :: cs => if c = x then some ([], cs) else (cutAt x cs).map (fun p => (c :: p.1, p.2))

/-- apl/numbers/complex.go:86-97: magnitude and angle -/
def polar (env : FloatEnv F) (f d : F) : F × F :=
  if env.eqInt d 0 then (f, env.zero)
  else if env.eqInt d 90 then (env.zero, f)
  else if env.eqInt d 180 then (env.neg f, env.zero)
  else if env.eqInt d 270 then (env.zero, env.neg f)
  else env.rect f d

/-- two numbers -/
def parseTwo (env : FloatEnv F) (g : F → F → F × F) (a b : List Char) : Option (F × F) :=
  match parseFloat env a with
  | none => none
  | some x => match parseFloat env b with
    | none => none
    | some y => some (g x y)

/-- apl/numbers/complex.go:98-117: `J` or `j` between the parts, or a real number -/
def parseRect (env : FloatEnv F) (s : List Char) : Option (F × F) :=
  match cutAt 'J' s with
  | some (a, b) => parseTwo env (fun x y => (x, y)) a b
  | none => match cutAt 'j' s with
    | some (a, b) => parseTwo env (fun x y => (x, y)) a b
    | none => (parseFloat env s).map (fun x => (x, env.zero))

/-- apl/numbers/complex.go:70-118 `ParseComplex` -/
def parseComplex (env : FloatEnv F) (s : List Char) : Option (F × F) :=
  match cutAt 'a' s with
  | some (a, b) => parseTwo env (polar env) a b
  | none => parseRect env s

/-- `%v` for negative PP, otherwise a number of digits (6 if PP is 0) -/
def precOf (pp : Int) : Option Nat := if pp < 0 then none else if pp = 0 then some 6 else some pp.toNat

/-- apl/numbers/register.go:100-112 `getformat` without format strings: the minus sign is kept if PP is below ¯1 -/
def minusOf (pp : Int) (s : List Char) : List Char := if pp < -1 then s else highMinusAll s

/-- apl/numbers/float.go:17-35 `Float.String`, except for PP ¯16 (binary exponents) -/
def floatText (env : FloatEnv F) (pp : Int) (x : F) : List Char := minusOf pp (env.text (precOf pp) x)

/-- apl/numbers/complex.go:24-63 `Complex.String`, except for PP ¯3 (Go's notation for complex numbers) -/
def complexText (env : FloatEnv F) (pp : Int) (re im : F) : List Char :=
  minusOf pp (if pp = -2 then '[' :: env.text none re ++ ',' :: env.text none im ++ [']'] else env.text (precOf pp) re ++ 'J' :: env.text (precOf pp) im)

/-- `Parse` of a class of the tower (apl/numbers/register.go:20-40); `time` is `ParseTime` -/
def defParse (env : FloatEnv F) (time : List Char → Option Int) : Nat → List Char → Option (DefV F)
  | 0, s => (parseFloat env s).map .float
  | 1, s => (parseComplex env s).map (fun p => .cplx p.1 p.2)
  | 2, s => (time s).map .time
  | _, _ => none

/-- `Tower.Parse` with the default tower -/
def parseDef (env : FloatEnv F) (time : List Char → Option Int) (s : List Char) : Option (TNum (DefV F)) :=
  parseNumber (⟨fun _ => true, fun _ => false, fun _ _ _ => [], defParse env time, 3, fun _ _ o => nomatch o⟩ : TextEnv (DefV F) Empty) s

end Iv
