import Verif.Fp.Round
import Verif.Common.Res

/-!
# Floating point in `Awl/Math.h` and `Awl/StopWatch.h`

`p` is the precision of the type, less one: 23 for `float`, 52 for `double`.  Every operation rounds to the nearest (`rnd p`).
-/

namespace Verif.Fp

open Verif

variable (p : ℕ)

/-- `static_cast` of a floating point number to an integer: towards zero (Math.h:36, and `duration_cast`, StopWatch.h:54). -/
def trunc (q : ℚ) : ℤ := if 0 ≤ q then ⌊q⌋ else ⌈q⌉

/-- `round<I>(f)`, Math.h:33-37, for an integer type with the values `lo … hi`; the sum is rounded, a result that the type cannot hold is undefined. -/
def round (lo hi : ℤ) (f : ℚ) : Res ℤ :=
  let t := trunc (rnd p (f + 1 / 2))
  if lo ≤ t ∧ t ≤ hi then .ok t else .ub

/-- `pi<T>()`, Math.h:15: the literal is a `double`. -/
def pi : ℚ := rnd p (rnd 52 (314159265358979323846 / 10 ^ 20))

/-- `half_pi<T>()`, Math.h:17. -/
def halfPi : ℚ := rnd p (rnd 52 (157079632679489661923 / 10 ^ 20))

/-- `quarter_pi<T>()`, Math.h:19. -/
def quarterPi : ℚ := rnd p (rnd 52 (785398163397448309616 / 10 ^ 21))

/-- `degrees_to_radians(x)`, Math.h:21-25. -/
def toRadians (x : ℚ) : ℚ := rnd p (rnd p (x / 180) * pi p)

/-- `raidans_to_degrees(x)`, Math.h:27-31. -/
def toDegrees (x : ℚ) : ℚ := rnd p (rnd p (x / pi p) * 180)

/-- `std::chrono::duration_cast` between a count of nanoseconds and a floating point duration whose period is `n / d` times one: the count is converted, multiplied and
divided in the type of floating point ([time.duration.cast]; StopWatch.h:29, 35, 43, 54).  The standard leaves out a factor of one. -/
def cast (n d : ℕ) (c : ℚ) : ℚ := rnd p (rnd p (rnd p c * rnd p n) / rnd p d)

/-- `GetElapsedSeconds<T>()`, StopWatch.h:40-44, `e` nanoseconds after the start (`GetElapsedTime`, :46-49). -/
def seconds (e : ℤ) : ℚ := cast p 1 (10 ^ 9) e

/-- `HasElapsed(interval)`, StopWatch.h:51-55, for an interval of `x` seconds, `e` nanoseconds after the start; a conversion to a number of nanoseconds that 64 bits
cannot hold is undefined. -/
def hasElapsed (x : ℚ) (e : ℤ) : Res Bool :=
  let i := trunc (cast p (10 ^ 9) 1 x)
  if -2 ^ 63 ≤ i ∧ i < 2 ^ 63 then .ok (decide (i ≤ e)) else .ub

end Verif.Fp
