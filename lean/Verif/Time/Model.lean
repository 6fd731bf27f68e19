import Verif.StopWatch.Model
import Verif.Decimal.Model

/-!
# Making and printing times: `Awl/Time.h`

Durations are counts of 10^-w seconds in 64 bits (`w` is 9 for nanoseconds, 3 for milliseconds, 0 for seconds).  `std::chrono::hh_mm_ss` and its output are as in
the standard ([time.hms], [time.format]); characters are their codes.
`std::mktime` is that of a time zone with a constant offset in the Gregorian calendar, with a `time_t` of 64 bits that does not overflow; daylight saving time is left out.
-/

namespace Verif.Time

open Verif Verif.StopWatch Verif.Decimal

/-! ### Printing -/

/-- A number with at least two digits (part of `std::chrono::hh_mm_ss`, Awl/Time.h:54-56). -/
def two (n : Nat) : List Nat := chars (pad 2 (digitsOf n))

/-- `out << std::chrono::hh_mm_ss{ val }` (Awl/Time.h:49-56). -/
def hms (w : Nat) (val : Int) : Res (List Nat) := do
  let a ← i64 val.natAbs
  let a := a.toNat
  let h := a / (3600 * 10 ^ w)
  let a := a - h * (3600 * 10 ^ w)
  let m := a / (60 * 10 ^ w)
  let a := a - m * (60 * 10 ^ w)
  let s := a / 10 ^ w
  let f := a - s * 10 ^ w
  return (if val < 0 then [45] else []) ++ two h ++ 58 :: two m ++ 58 :: two s ++ (if w ≠ 0 then 46 :: chars (pad w (digitsOf f)) else [])

/-- `format_duration` of GCC and MSVC, Time.h:44-56.  (Lines 61-104 are for no compiler: neither MSVC, GCC nor Clang.) -/
def formatDuration (w : Nat) (val : Int) (_part_count : Nat) : Res (List Nat) := hms w val

/-- `format_duration` of Clang, Time.h:108-112, for `w ≤ 9` (a finer duration does not convert): the number of nanoseconds and "ns". -/
def formatDurationClang (w : Nat) (val : Int) (_part_count : Nat) : Res (List Nat) := do
  let ns ← i64 (val * 10 ^ (9 - w))
  return (if ns < 0 then [45] else []) ++ chars (digitsOf ns.natAbs) ++ [110, 115]

/-- `operator << (out, StopWatch)`, Time.h:128-134, at the time `now`. -/
def printWatch (watch : Watch) (now : Int) : Res (List Nat) := do
  let e ← elapsed watch now
  formatDuration 9 e 2

/-! ### Making -/

/-- The days of the years before `y` since 1970 (POSIX, "Seconds Since the Epoch", with divisions that round down) (part of `std::mktime`, Awl/Time.h:29). -/
def daysBefore (y : Int) : Int := 365 * (y - 1970) + (y - 1969) / 4 - (y - 1901) / 100 + (y - 1601) / 400

/-- A leap year (part of `std::mktime`, Awl/Time.h:29). -/
def leap (y : Int) : Bool := y % 4 = 0 ∧ (y % 100 ≠ 0 ∨ y % 400 = 0)

/-- The days of the months before the month `m`, counted from 0, in a year that is not a leap year (part of `std::mktime`, Awl/Time.h:29). -/
def monthStart (m : Int) : Int :=
  if m = 0 then 0 else if m = 1 then 31 else if m = 2 then 59 else if m = 3 then 90 else if m = 4 then 120 else if m = 5 then 151
  else if m = 6 then 181 else if m = 7 then 212 else if m = 8 then 243 else if m = 9 then 273 else if m = 10 then 304 else 334

/-- `std::tm` (Awl/Time.h:20-27). -/
structure Tm where
  year : Int
  mon : Int
  mday : Int
  hour : Int
  min : Int
  sec : Int

/-- `std::mktime`; `zone`: seconds to add to the universal time (Awl/Time.h:29). -/
def mktime (zone : Int) (t : Tm) : Int :=
  let y := t.year + 1900 + t.mon / 12
  let m := t.mon % 12
  let day := daysBefore y + monthStart m + (if leap y ∧ 2 ≤ m then 1 else 0) + t.mday - 1
  day * 86400 + t.hour * 3600 + t.min * 60 + t.sec - zone

/-- `int` has 32 bits (the `int` arithmetic, Awl/Time.h:21). -/
def i32 (x : Int) : Res Int := if -2 ^ 31 ≤ x ∧ x < 2 ^ 31 then .ok x else .ub

/-- `make_time<Clock, Duration>(year, month, day, hour, min, second)`, Time.h:17-32, for a clock that counts nanoseconds and durations of 10^-w seconds with `w ≤ 9`:
`from_time_t` multiplies in 64 bits, `time_point_cast` divides. -/
def makeTime (zone : Int) (w : Nat) (year month day hour min second : Int) : Res Int := do
  let y ← i32 (year - 1900)
  let t := mktime zone ⟨y, month, day, hour, min, second⟩
  let ns ← i64 (t * 10 ^ 9)
  return ns.tdiv (10 ^ (9 - w))

/-! #### Any time zone and any clock

The time zone is given by what the local clock shows; `mk` is `std::mktime` as a function of the date and time, taken as a number of seconds; it may fail. -/

/-- The seconds of a date and a time of the day, as if it were universal time (part of `std::mktime`, Awl/Time.h:29). -/
def localSecs (t : Tm) : Int := mktime 0 t

/-- `std::mktime` returns -1 if it fails (Awl/Time.h:29). -/
def mktimeZ (mk : Int → Option Int) (t : Tm) : Int := (mk (localSecs t)).getD (-1)

/-- `time_point_cast` from counts of 10^-c seconds to counts of 10^-w seconds (Awl/Time.h:31). -/
def castTime (c w : Nat) (x : Int) : Res Int := if w ≤ c then .ok (x.tdiv (10 ^ (c - w))) else i64 (x * 10 ^ (w - c))

/-- `make_time<Clock, Duration>(year, month, day, hour, min, second)`, Time.h:17-32, for a clock that counts 10^-c seconds. -/
def makeTimeZ (mk : Int → Option Int) (c w : Nat) (year month day hour min second : Int) : Res Int := do
  let y ← i32 (year - 1900)
  let t := mktimeZ mk ⟨y, month, day, hour, min, second⟩
  let x ← i64 (t * 10 ^ c)
  castTime c w x

/-- `make_time(..., fs)`, Time.h:34-40, in any time zone. -/
def makeTimeFsZ (mk : Int → Option Int) (c w : Nat) (year month day hour min second fs : Int) : Res Int := do
  let t ← makeTimeZ mk c w year month day hour min second
  i64 (t + fs)

/-- `make_time(..., fs)`, Time.h:34-40. -/
def makeTimeFs (zone : Int) (w : Nat) (year month day hour min second fs : Int) : Res Int := do
  let t ← makeTime zone w year month day hour min second
  i64 (t + fs)

end Verif.Time
