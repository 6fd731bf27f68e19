import Verif.Double.Round
import Verif.Decimal.Model

/-!
# Decimals and doubles: the parts of `Awl/Decimal.h` that go through `double`

The `Float` of the templates is `double`.
-/

namespace Verif.Double

open Verif Verif.Decimal

variable (c : Cfg)

/-- Conversion of a floating point number to an integer: the fraction is dropped (`static_cast<Int>`, Awl/Decimal.h:176). -/
def trunc (x : ℚ) : ℤ := if 0 ≤ x then ⌊x⌋ else ⌈x⌉

/-- `static_cast<Int>(x)`: undefined if `Int` cannot hold the integer (Awl/Decimal.h:176, 424, 441). -/
def toInt (x : ℚ) : Res ℤ := sint c (trunc x)

/-- `std::llround`: halves away from zero.  The result of a number that `long long` cannot hold is unspecified; here it is undefined (Awl/Decimal.h:407). -/
def llround (x : ℚ) : Res ℤ :=
  let r := if 0 ≤ x then ⌊x + 1 / 2⌋ else -⌊-x + 1 / 2⌋
  if -2 ^ 63 ≤ r ∧ r < 2 ^ 63 then .ok r else .ub

/-- Conversion of a `long long` to `Int`: modulo 2^w (Awl/Decimal.h:407). -/
def wrapInt (x : ℤ) : ℤ := (x + 2 ^ (c.w - 1)) % 2 ^ c.w - 2 ^ (c.w - 1)

/-- `cast<double>()`, `operator double`, Decimal.h 92-104.  A denominator of zero would give an infinity; here it is undefined. -/
def castD (d : Dec) : Res ℚ := do
  let den ← c.denom d.exp
  if den = 0 then .ub else .ok (rnd (rnd d.mantissa / rnd den))

/-- `operator = (Float)`, Decimal.h 172-179. -/
def assign (d : Dec) (v : ℚ) : Res Dec := do
  let den ← c.denom d.exp
  let m ← toInt c (rnd (v * rnd den))
  d.setMantissa c m

/-- `make_decimal`, Decimal.h 392-400, and `make_truncated`, 453-457. -/
def makeDecimal (v : ℚ) (digits : Nat) : Res Dec := assign c (ofDigits c digits) v

/-- `make_rounded`, Decimal.h 402-410. -/
def makeRounded (v : ℚ) (digits : Nat) : Res Dec := do
  let d := ofDigits c digits
  let den ← c.denom d.exp
  let r ← llround (rnd (v * rnd den))
  d.setMantissa c (wrapInt c r)

/-- `make_ceiled`, Decimal.h 419-427; `std::ceil` of a double is a double. -/
def makeCeiled (v : ℚ) (digits : Nat) : Res Dec := do
  let d := ofDigits c digits
  let den ← c.denom d.exp
  let m ← toInt c ⌈rnd (v * rnd den)⌉
  d.setMantissa c m

/-- `make_floored`, Decimal.h 436-444. -/
def makeFloored (v : ℚ) (digits : Nat) : Res Dec := do
  let d := ofDigits c digits
  let den ← c.denom d.exp
  let m ← toInt c ⌊rnd (v * rnd den)⌋
  d.setMantissa c m

/-- `make_other`, Decimal.h 625-633. -/
def makeOther (d : Dec) (v : ℚ) : Res Dec := assign c (ofDigits c d.exp) v

/-- `operator + (double)` and `+=`, Decimal.h 262-265, 272-277. -/
def addD (d : Dec) (v : ℚ) : Res Dec := do
  let o ← makeOther c d v
  d.add c o

/-- `operator - (double)` and `-=`, Decimal.h 267-270, 279-284. -/
def subD (d : Dec) (v : ℚ) : Res Dec := do
  let o ← makeOther c d v
  d.sub c o

/-- `operator * (double)`, Decimal.h 286-291. -/
def mulD (d : Dec) (a : ℚ) : Res ℚ := do
  let b ← castD c d
  .ok (rnd (a * b))

/-- `operator *= (double)`, Decimal.h 300-305. -/
def mulAssign (d : Dec) (a : ℚ) : Res Dec := do
  let x ← mulD c d a
  makeOther c d x

/-- `operator /= (double)`, Decimal.h 307-312, 293-298.  A division by zero gives an infinity or NaN, whose conversion to an integer is undefined. -/
def divAssign (d : Dec) (a : ℚ) : Res Dec := do
  let b ← castD c d
  if a = 0 then .ub else makeOther c d (rnd (b / a))

end Verif.Double
