import Verif.Model.TimeText
/-
Durations as text and back: Go's `Duration.String` and `time.ParseDuration`, which apl/numbers/time.go uses.
-/
namespace Iv

/-- Go's `fmtFrac`: the digits of the fraction of `v / 10^prec` from the right, without trailing zeros; the whole part -/
def fmtFrac (v : Nat) : (prec : Nat) → (print : Bool) → List Char → List Char × Nat
  | 0, print, acc => (if print then '.' :: acc else acc, v)
  | n + 1, print, acc =>
    if print || v % 10 != 0 then fmtFrac (v / 10) n true (digitChar false (v % 10) :: acc) else fmtFrac (v / 10) n false acc

/-- a number with a fraction and a unit -/
def fracText (v prec : Nat) (unit : List Char) : List Char :=
  let p := fmtFrac v prec false unit
  natText false 10 p.2 ++ p.1

/-- Go's `Duration.String` from the minutes on -/
def hmText (m : Nat) (rest : List Char) : List Char :=
  if m = 0 then rest
  else if m / 60 = 0 then natText false 10 (m % 60) ++ 'm' :: rest
  else natText false 10 (m / 60) ++ 'h' :: natText false 10 (m % 60) ++ 'm' :: rest

/-- Go's `Duration.String` for at least a second -/
def secondsText (u : Nat) : List Char :=
  let p := fmtFrac u 9 false ['s']
  hmText (p.2 / 60) (natText false 10 (p.2 % 60) ++ p.1)

/-- Go's `Duration.String` without sign -/
def absText (u : Nat) : List Char :=
  if u = 0 then ['0', 's']
  else if u < 1000 then fracText u 0 ['n', 's']
  else if u < 1000000 then fracText u 3 ['µ', 's']
  else if u < 1000000000 then fracText u 6 ['m', 's']
  else secondsText u

/-- Go's `Duration.String` -/
def durString (d : Int) : List Char := if d < 0 then '-' :: absText d.natAbs else absText d.natAbs

/-- Go's `unitMap`: nanoseconds of a unit -/
def unitMap (u : List Char) : Option Nat :=
  if u = ['n', 's'] then some 1
  else if u = ['u', 's'] then some 1000
  else if u = ['µ', 's'] then some 1000
  else if u = ['μ', 's'] then some 1000
  else if u = ['m', 's'] then some 1000000
  else if u = ['s'] then some 1000000000
  else if u = ['m'] then some 60000000000
  else if u = ['h'] then some 3600000000000
  else none

/-- Go's `leadingInt`: overflow is an error -/
def leadingInt (x : Nat) : List Char → Option (Nat × List Char)
  | [] => some (x, [])
  | c :: cs =>
    if isDec c then
      if x > 2 ^ 63 / 10 then none
      else if x * 10 + decVal c > 2 ^ 63 then none
      else leadingInt (x * 10 + decVal c) cs
    else some (x, c :: cs)

/-- Go's `leadingFraction`: digits that overflow are ignored; value, scale and rest -/
def leadingFraction (x scale : Nat) (overflow : Bool) : List Char → Nat × Nat × List Char
  | [] => (x, scale, [])
  | c :: cs =>
    if isDec c then
      if overflow then leadingFraction x scale true cs
      else if x > (2 ^ 63 - 1) / 10 then leadingFraction x scale true cs
      else if x * 10 + decVal c > 2 ^ 63 then leadingFraction x scale true cs
      else leadingFraction (x * 10 + decVal c) (scale * 10) false cs
    else (x, scale, c :: cs)

/-- the optional fraction: value, scale, whether there are digits, rest -/
def optFraction (s : List Char) : Nat × Nat × Bool × List Char :=
  match s with
  | '.' :: cs =>
    let p := leadingFraction 0 1 false cs
    (p.1, p.2.1, decide (p.2.2.length ≠ cs.length), p.2.2)
  | cs => (0, 1, false, cs)

/-- part of a unit -/
def inUnit (c : Char) : Bool := !(c == '.' || isDec c)

/-- number and unit: the value is cut to nanoseconds.  `mul f unit scale` is Go's `uint64(float64(f) * (float64(unit) / scale))`. -/
def unitValue (mul : Nat → Nat → Nat → Nat) (v f scale unit : Nat) : Option Nat :=
  if v > 2 ^ 63 / unit then none
  else if f > 0 then
    if v * unit + mul f unit scale > 2 ^ 63 then none else some (v * unit + mul f unit scale)
  else some (v * unit)

/-- after the whole part: fraction, unit, value -/
def durPart2 (mul : Nat → Nat → Nat → Nat) (pre : Bool) (v : Nat) (s : List Char) : Option (Nat × List Char) :=
  let q := optFraction s
  if !pre && !q.2.2.1 then none
  else match unitMap (q.2.2.2.takeWhile inUnit) with
    | none => none
    | some unit => (unitValue mul v q.1 q.2.1 unit).map (fun n => (n, q.2.2.2.dropWhile inUnit))

/-- one number with its unit -/
def durPart (mul : Nat → Nat → Nat → Nat) (s : List Char) : Option (Nat × List Char) :=
  match s with
  | [] => none
  | c :: cs =>
    if c = '.' ∨ isDec c = true then
      match leadingInt 0 (c :: cs) with
      | none => none
      | some (v, s') => durPart2 mul (decide (s'.length ≠ (c :: cs).length)) v s'
    else none

/-- the loop of Go's `ParseDuration` -/
def durLoop (mul : Nat → Nat → Nat → Nat) : (fuel : Nat) → (d : Nat) → List Char → Option Nat
  | _, d, [] => some d
  | 0, _, _ :: _ => none
  | n + 1, d, c :: cs => match durPart mul (c :: cs) with
    | none => none
    | some (v, rest) => if d + v > 2 ^ 63 then none else durLoop mul n (d + v) rest

/-- without sign -/
def durAbs (mul : Nat → Nat → Nat → Nat) (s : List Char) : Option Nat :=
  if s = ['0'] then some 0
  else if s = [] then none
  else durLoop mul s.length 0 s

/-- the sign: a positive duration is below 2^63 -/
def signedDur (neg : Bool) : Option Nat → Option Int
  | none => none
  | some d => if neg then some (-(d : Int)) else if d > 2 ^ 63 - 1 then none else some d

/-- Go's `time.ParseDuration` -/
def parseDuration (mul : Nat → Nat → Nat → Nat) (s : List Char) : Option Int :=
  match s with
  | '-' :: cs => signedDur true (durAbs mul cs)
  | '+' :: cs => signedDur false (durAbs mul cs)
  | cs => signedDur false (durAbs mul cs)

end Iv
