import Verif.Model.Time
import Verif.Model.NumText
/-
Time stamps as text and back: apl/numbers/time.go:25-70, with the parts of Go's `time.Parse` and `Time.Format` that its layouts use.
Durations are in Model/DurText.
-/
namespace Iv

/-- the parts of a layout -/
inductive LayoutItem
  | year | month | day | hour | minute | second
  | lit (c : Char)
deriving DecidableEq

/-- the fields of a time -/
structure Clock where
  y : Nat := 0
  mo : Nat := 1
  d : Nat := 1
  h : Nat := 0
  mi : Nat := 0
  s : Nat := 0
  ns : Nat := 0
deriving DecidableEq

/-- apl/numbers/time.go:42-47 `layouts` -/
def layouts : List (List LayoutItem) :=
  let date : List LayoutItem := [.year, .lit '.', .month, .lit '.', .day]
  let minutes : List LayoutItem := date ++ [.lit 'T', .hour, .lit '.', .minute]
  [date, minutes, minutes, minutes ++ [.lit '.', .second]]

/-- the value of a digit -/
def decVal (c : Char) : Nat := c.toNat - '0'.toNat

/-- Go's time `getnum`: one or two digits; `fixed` requires two -/
def getnum (fixed : Bool) : List Char → Option (Nat × List Char)
  | [] => none
  | [a] => if isDec a then (if fixed then none else some (decVal a, [])) else none
  | a :: b :: cs =>
    if isDec a then (if isDec b then some (decVal a * 10 + decVal b, cs) else if fixed then none else some (decVal a, b :: cs)) else none

/-- the year: four digits -/
def getyear : List Char → Option (Nat × List Char)
  | a :: b :: c :: d :: cs =>
    if isDec a && isDec b && isDec c && isDec d then some (decVal a * 1000 + decVal b * 100 + decVal c * 10 + decVal d, cs) else none
  | _ => none

/-- the number of digits -/
def digitsNat (ds : List Char) : Nat := ds.foldl (fun v c => v * 10 + decVal c) 0

/-- Go's `parseNanoseconds`: at most nine digits count -/
def nanos (ds : List Char) : Nat := digitsNat (ds.take 9) * 10 ^ (9 - (ds.take 9).length)

/-- a fraction after the seconds: a dot and digits -/
def fraction : List Char → Option (Nat × List Char)
  | '.' :: c :: cs => if isDec c then some (nanos ((c :: cs).takeWhile isDec), (c :: cs).dropWhile isDec) else none
  | _ => none

/-- one number with its range -/
def field (r : Option (Nat × List Char)) (lo hi : Nat) : Option (Nat × List Char) :=
  match r with
  | none => none
  | some (n, cs) => if lo ≤ n ∧ n ≤ hi then some (n, cs) else none

/-- the seconds and their fraction -/
def withFraction (c : Clock) : Option (Nat × List Char) → Option (Clock × List Char)
  | none => none
  | some (n, cs) => match fraction cs with
    | some (ns, rest) => some ({ c with s := n, ns := ns }, rest)
    | none => some ({ c with s := n }, cs)

/-- Go's `time.Parse`: one part of a layout -/
def parseItem (c : Clock) (cs : List Char) : LayoutItem → Option (Clock × List Char)
  | .year => (getyear cs).map (fun p => ({ c with y := p.1 }, p.2))
  | .month => (field (getnum true cs) 1 12).map (fun p => ({ c with mo := p.1 }, p.2))
  | .day => (getnum true cs).map (fun p => ({ c with d := p.1 }, p.2))
  | .hour => (field (getnum false cs) 0 23).map (fun p => ({ c with h := p.1 }, p.2))
  | .minute => (field (getnum true cs) 0 59).map (fun p => ({ c with mi := p.1 }, p.2))
  | .second => withFraction c (field (getnum true cs) 0 59)
  | .lit x => match cs with
    | [] => none
    | y :: ys => if y = x then some (c, ys) else none

/-- all parts; there must be no text left -/
def parseItems (c : Clock) (cs : List Char) : List LayoutItem → Option Clock
  | [] => if cs = [] then some c else none
  | i :: is => match parseItem c cs i with
    | none => none
    | some (c', cs') => parseItems c' cs' is

/-- Go's `daysIn` -/
def goDaysIn (y mo : Nat) : Nat :=
  if mo = 2 ∧ isLeap y = true then 29 else [31, 28, 31, 30, 31, 30, 31, 31, 30, 31, 30, 31].getD (mo - 1) 0

/-- Go's `time.Parse`: the day of the month is checked at the end; `Date` in UTC -/
def clockTime (c : Clock) : Option Int :=
  if c.d < 1 ∨ c.d > goDaysIn c.y c.mo then none
  else some (goDate c.y c.mo c.d * nsDay + ((c.h * 3600 + c.mi * 60 + c.s) * 1000000000 + c.ns : Nat))

/-- Go's `time.Parse` with a layout -/
def goTimeParse (layout : List LayoutItem) (s : List Char) : Option Int := (parseItems {} s layout).bind clockTime

/-- apl/numbers/time.go:28-32: the first layout that fits -/
def parseLayouts (s : List Char) : List (List LayoutItem) → Option Int
  | [] => none
  | l :: ls => match goTimeParse l s with
    | some t => some t
    | none => parseLayouts s ls

/-- apl/numbers/time.go:25-37 `ParseTime`; `dur` is `time.ParseDuration` -/
def parseTime (dur : List Char → Option Int) (s : List Char) : Option Int :=
  match parseLayouts (lowMinusAll s) layouts with
  | some t => some t
  | none => (dur (lowMinusAll s)).map (fun d => 0 + d)

/-- Go's time `appendInt`: digits with leading zeros -/
def padInt (w n : Nat) : List Char := List.replicate (w - (natText false 10 n).length) '0' ++ natText false 10 n

/-- Go's `Format("2006.01.02T15.04.05.000")` for years that are not negative -/
def stampText (t : Int) : List Char :=
  let c := civil (t / nsDay)
  let r := (t % nsDay).toNat
  padInt 4 c.1.toNat ++ '.' :: padInt 2 c.2.1 ++ '.' :: padInt 2 c.2.2.toNat ++ 'T' :: padInt 2 (r / 3600000000000) ++
    '.' :: padInt 2 (r / 60000000000 % 60) ++ '.' :: padInt 2 (r / 1000000000 % 60) ++ '.' :: padInt 3 (r / 1000000 % 1000)

/-- apl/numbers/time.go:49-70 `Time.String` without format strings; `durText` is Go's `Duration.String`.  The minus is kept for PP below ¯1
(register.go:97-109), and then a duration is not returned, but formatted as a time stamp. -/
def timeText (durText : Int → List Char) (pp : Int) (t : Int) : List Char :=
  if t < y1k then
    if pp < -1 then stampText t else highMinusAll (durText (timeSub t 0))
  else stampText t

end Iv
