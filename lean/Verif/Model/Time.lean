import Verif.Model.Basic
/-
Times and durations: apl/numbers/time.go.
A time (Go's `time.Time`) is the number of nanoseconds since the begin of the year 0 (`y0`), in UTC: all times that are parsed are.  Go's calendar is
the proleptic Gregorian one; a day is the number of days since 0000.01.01, which is a Saturday.
Simplifications: multiplication and division of durations are done in floating point and are not modelled, and neither are parsing and formatting.
-/
namespace Iv

/-! ### Go's library -/

/-- nanoseconds of a day -/
def nsDay : Int := 86400 * 1000000000

/-- days from 0000.01.01 to the begin of a year -/
def jan1 (y : Int) : Int := 365 * y + (y + 3) / 4 - (y + 99) / 100 + (y + 399) / 400

/-- leap years -/
def isLeap (y : Int) : Bool := y % 4 == 0 && (y % 100 != 0 || y % 400 == 0)

/-- the days before the months of a year -/
def monthDays (leap : Bool) : List Int :=
  let l : Int := if leap then 1 else 0
  [0, 31, 59 + l, 90 + l, 120 + l, 151 + l, 181 + l, 212 + l, 243 + l, 273 + l, 304 + l, 334 + l]

/-- the year of a day: an estimate from the mean length of the years, which may be off by one -/
def yearOf (d : Int) : Int :=
  let y := 400 * d / 146097
  if d < jan1 y then y - 1 else if jan1 (y + 1) ≤ d then y + 1 else y

/-- the month (1 to 12) of a day in its year -/
def monthOf (leap : Bool) (yday : Int) : Nat := ((monthDays leap).filter (fun c => decide (c ≤ yday))).length

/-- Go's `Date`: year, month and day of the month -/
def civil (d : Int) : Int × Nat × Int :=
  let y := yearOf d
  let m := monthOf (isLeap y) (d - jan1 y)
  (y, m, d - jan1 y - (monthDays (isLeap y)).getD (m - 1) 0 + 1)

/-- Go's `time.Date` as a day; months and days outside of their range are normalised. -/
def goDate (y m d : Int) : Int :=
  let y' := y + (m - 1) / 12
  jan1 y' + (monthDays (isLeap y')).getD ((m - 1) % 12).toNat 0 + d - 1

/-- Go's `Weekday`: Sunday is 0 -/
def weekday (d : Int) : Int := (d + 6) % 7

/-- Go's `ISOWeek`: year and number of the week, which are determined by the Thursday of the week -/
def isoWeek (d : Int) : Int × Int :=
  let thu := if weekday d = 0 then d - 3 else d + (4 - weekday d)
  (yearOf thu, (thu - jan1 (yearOf thu)) / 7 + 1)

/-- Go's `Time.Sub`: the difference as a duration of 64 bits, saturating -/
def timeSub (t u : Int) : Int := max (-2 ^ 63) (min (2 ^ 63 - 1) (t - u))

/-- the negative of an int64 -/
def negDur (d : Int) : Int := if d = -2 ^ 63 then d else -d

/-- Go's `Duration.Round` for a positive `m` -/
def durRound (d m : Int) : Int :=
  let r := Int.tmod d m
  if d < 0 then
    if -r + -r < m then d + -r
    else if -2 ^ 63 ≤ d - m + -r then d - m + -r else -2 ^ 63
  else if r + r < m then d - r
  else if d + m - r < 2 ^ 63 then d + m - r else 2 ^ 63 - 1

/-! ### apl/numbers/time.go -/

/-- apl/numbers/time.go:14 `y1k`: the begin of the year 1000 -/
def y1k : Int := jan1 1000 * nsDay

/-- apl/numbers/time.go:78-80 `Less` -/
def timeLess (t u : Int) : Bool := t < u

/-- apl/numbers/time.go:88-98 `Add2` -/
def timeAdd2 (t u : Int) : Option Int :=
  if t > y1k ∧ u > y1k then none
  else if t > y1k then some (t + timeSub u 0)
  else some (u + timeSub t 0)

/-- apl/numbers/time.go:100-106 `Sub` -/
def timeNeg (t : Int) : Option Int := if t < y1k then some (0 + negDur (timeSub t 0)) else none

/-- apl/numbers/time.go:113-124 `Sub2` -/
def timeSub2 (t u : Int) : Option Int :=
  if t > y1k ∧ u > y1k then some (0 + timeSub t u)
  else if t < y1k ∧ u < y1k then some (0 + timeSub t 0 + negDur (timeSub u 0))
  else if t > y1k ∧ u < y1k then some (t + negDur (timeSub u 0))
  else none

/-- apl/numbers/time.go:134-141 `Mul`: the sign -/
def timeSign (t : Int) : Int := if t < 0 then -1 else if t > 0 then 1 else 0

/-- apl/numbers/time.go:177-182 `Abs` -/
def timeAbs (t : Int) : Int := if t < 0 then 0 + negDur (timeSub t 0) else t

/-- apl/numbers/time.go:184-186 `Floor` (Go's `Truncate` rounds down, also before the year 1) -/
def timeFloor (t : Int) : Int := t - t % 1000000000

/-- apl/numbers/time.go:188-190 `Ceil` -/
def timeCeil (t : Int) : Int := timeFloor (t + 500000000)

/-- apl/numbers/time.go:127-132 `Duration` -/
def timeDuration (t : Int) : Option Int := if t < y1k then some (timeSub t 0) else none

/-- apl/numbers/time.go:235-245 `roundQuarter`: the begin of the quarter, the year and the number -/
def roundQuarter (t : Int) : Int × Int × Int :=
  let y := (civil (t / nsDay)).1
  if t < goDate y 4 1 * nsDay then (goDate y 1 1 * nsDay, y, 1)
  else if t < goDate y 7 1 * nsDay then (goDate y 4 1 * nsDay, y, 2)
  else if t < goDate y 10 1 * nsDay then (goDate y 7 1 * nsDay, y, 3)
  else (goDate y 10 1 * nsDay, y, 4)

/-- a loop `for P(date) { date += step }`; none if it has not ended after `fuel` rounds -/
def dayLoop (P : Int → Bool) (step : Int) : (fuel : Nat) → Int → Option Int
  | 0, _ => none
  | n + 1, d => if P d then dayLoop P step n (d + step) else some d

/-- apl/numbers/time.go:247-263 `roundWeek`: the day -/
def roundWeek (fuel : Nat) (year week : Int) : Option Int :=
  (dayLoop (fun d => weekday d != 1) (-1) fuel (goDate year 0 0)).bind fun d =>
  (dayLoop (fun d => decide ((isoWeek d).1 < year)) 1 fuel d).bind fun d =>
  dayLoop (fun d => decide ((isoWeek d).2 < week)) 1 fuel d

/-- apl/numbers/time.go:265-284 `roundDuration`: the unit -/
def durUnit (s : String) : Option Int :=
  if s = "h" then some (3600 * 1000000000)
  else if s = "m" then some (60 * 1000000000)
  else if s = "s" then some 1000000000
  else if s = "ms" then some 1000000
  else if s = "us" then some 1000
  else if s = "μs" then some 1000
  else if s = "ns" then some 1
  else none

/-- apl/numbers/time.go:265-284 `roundDuration` -/
def roundDuration (d : Int) (s : String) : Res Int :=
  match durUnit s with
  | some m => .ok (0 + durRound d m)
  | none => .error .err

/-- apl/numbers/time.go:200-233 `Round` for times after year 1000; `hour`, `min` and `sec` are those of the day; none if a loop has not ended. -/
def roundStamp (fuel : Nat) (t : Int) (period : String) : Option (Res Int) :=
  let date := civil (t / nsDay)
  let day := goDate date.1 date.2.1 date.2.2 * nsDay
  let hour := t % nsDay / (3600 * 1000000000)
  let min := t % nsDay / (60 * 1000000000) % 60
  let sec := t % nsDay / 1000000000 % 60
  if period = "Y" then some (.ok (goDate date.1 1 1 * nsDay))
  else if period = "M" then some (.ok (goDate date.1 date.2.1 1 * nsDay))
  else if period = "D" then some (.ok day)
  else if period = "h" then some (.ok (day + hour * (3600 * 1000000000)))
  else if period = "m" then some (.ok (day + hour * (3600 * 1000000000) + min * (60 * 1000000000)))
  else if period = "s" then some (.ok (day + hour * (3600 * 1000000000) + min * (60 * 1000000000) + sec * 1000000000))
  else if period = "Q" then some (.ok (roundQuarter t).1)
  else if period = "W" then (roundWeek fuel (isoWeek (t / nsDay)).1 (isoWeek (t / nsDay)).2).map (fun d => .ok (d * nsDay))
  else some (.error .err)

/-- apl/numbers/time.go:200-233 `Round` -/
def timeRound (fuel : Nat) (t : Int) (period : String) : Option (Res Int) :=
  match timeDuration t with
  | some d => some (roundDuration d period)
  | none => roundStamp fuel t period

/-- apl/primitives/elementary.go:514-529 `roundTime` of an array: each element, up to the first error -/
def roundTimes (fuel : Nat) (period : String) : List Int → Option (Res (List Int))
  | [] => some (.ok [])
  | t :: ts => match timeRound fuel t period with
    | none => none
    | some (.error e) => some (.error e)
    | some (.ok r) => match roundTimes fuel period ts with
      | none => none
      | some (.error e) => some (.error e)
      | some (.ok rs) => some (.ok (r :: rs))

end Iv
