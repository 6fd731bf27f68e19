import Verif.Common.Res
import Mathlib.Data.Nat.GCD.Basic

/-!
# The stop watch: `Awl/StopWatch.h`

`std::chrono::steady_clock` counts nanoseconds in a signed integer of 64 bits (libstdc++, libc++ and MSVC).  A duration is a count and a period, a fraction of
seconds that is known to the compiler; the arithmetic of the fractions in the compiler is exact here (an overflow there does not compile).  Counts of durations are
integers of up to 64 bits with a sign; durations of floating point are left out.
-/

namespace Verif.StopWatch

open Verif

/-- `std::ratio`: a period in seconds (the parameter `ratio` of StopWatch.h:26, and that of the durations). -/
structure Period where
  num : Nat
  den : Nat
  hn : 0 < num
  hd : 0 < den

/-- `std::nano` (of `steady_clock::duration`, StopWatch.h:46). -/
def nano : Period := ⟨1, 10 ^ 9, by omega, by omega⟩

/-- An integer of 64 bits (the counts of StopWatch.h:46, 64). -/
def Fits (x : Int) : Prop := -2 ^ 63 ≤ x ∧ x < 2 ^ 63

instance (x : Int) : Decidable (Fits x) := by unfold Fits; infer_instance

/-- Arithmetic of `int64_t`: an overflow is undefined (StopWatch.h:48). -/
def i64 (x : Int) : Res Int := if Fits x then .ok x else .ub

/-- Conversion to a type of `bits` bits: modulo 2^bits (to `value_type`, StopWatch.h:29). -/
def wrap (bits : Nat) (x : Int) : Int :=
  let r := x % 2 ^ bits
  if 2 ^ (bits - 1) ≤ r then r - 2 ^ bits else r

/-- `std::chrono::duration_cast` to a count of 64 bits ([time.duration.cast]): times the numerator and divided by the denominator of the fraction of the
periods, in 64 bits, rounding to zero (StopWatch.h:29, 35, 54). -/
def durationCast (p q : Period) (c : Int) : Res Int := do
  let n := p.num * q.den
  let d := p.den * q.num
  let g := Nat.gcd n d
  let x ← i64 (c * (n / g : Nat))
  return x.tdiv (d / g : Nat)

/-- `StopWatch` (StopWatch.h:64). -/
structure Watch where
  startTime : Int
deriving DecidableEq, Repr

/-- The constructor, StopWatch.h:16-19; `from` is `now()` if it is left out. -/
def make (t : Int) : Watch := ⟨t⟩

/-- `Reset`, StopWatch.h:21-24, at the time `now`. -/
def reset (_ : Watch) (now : Int) : Watch := ⟨now⟩

/-- `GetElapsedTime`, StopWatch.h:46-49, and the conversion, :57-60. -/
def elapsed (w : Watch) (now : Int) : Res Int := i64 (now - w.startTime)

/-- `GetElapsedCount<value_type, ratio>`, StopWatch.h:26-30, for an integer with a sign of `bits` bits; also `GetElapsedCast`, :32-36. -/
def elapsedCount (w : Watch) (bits : Nat) (p : Period) (now : Int) : Res Int := do
  let e ← elapsed w now
  let c ← durationCast nano p e
  return wrap bits c

/-- `HasElapsed`, StopWatch.h:51-55. -/
def hasElapsed (w : Watch) (p : Period) (interval now : Int) : Res Bool := do
  let e ← elapsed w now
  let i ← durationCast p nano interval
  return decide (i ≤ e)

end Verif.StopWatch
