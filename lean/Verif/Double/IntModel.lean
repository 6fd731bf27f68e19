import Verif.Double.Model

/-!
# Decimals and integers: the parts of `Awl/Decimal.h` that take or give integers

An integer goes through `double`: it is converted before it is multiplied, and the quotient is computed with doubles.
-/

namespace Verif.Double

open Verif Verif.Decimal

variable (c : Cfg)

/-- An integer type, the `Float` of `cast` (Awl/Decimal.h:92-96). -/
structure IntTy where
  bits : ℕ
  signed : Bool
deriving DecidableEq, Repr

/-- The smallest value of the type (Awl/Decimal.h:92-96). -/
def IntTy.lo (t : IntTy) : ℤ := if t.signed then -2 ^ (t.bits - 1) else 0

/-- The largest value of the type (Awl/Decimal.h:92-96). -/
def IntTy.hi (t : IntTy) : ℤ := if t.signed then 2 ^ (t.bits - 1) - 1 else 2 ^ t.bits - 1

/-- Conversion between integer types: modulo 2^bits (`static_cast<Float>(mantissa())`, Awl/Decimal.h:95). -/
def IntTy.wrap (t : IntTy) (x : ℤ) : ℤ := t.lo + (x - t.lo) % 2 ^ t.bits

/-- `operator = (Float)` for an integer, Awl/Decimal.h:172-179: the usual conversions make a double of it first. -/
def assignInt (d : Dec) (n : ℤ) : Res Dec := assign c d (rnd n)

/-- `make_decimal`, `make_rounded`, `make_ceiled`, `make_floored` and `make_truncated` of an integer, Awl/Decimal.h:392-400, 412-416, 429-433, 446-450, 453-457. -/
def makeInt (n : ℤ) (digits : ℕ) : Res Dec := assignInt c (ofDigits c digits) n

/-- `cast` to an integer type, Awl/Decimal.h:92-96.  The conversion of a double that the type cannot hold is undefined. -/
def castInt (t : IntTy) (d : Dec) : Res ℤ := do
  let den ← c.denom d.exp
  if den = 0 then .ub
  else
    let r := trunc (rnd (rnd (t.wrap d.mantissa) / rnd den))
    if t.lo ≤ r ∧ r ≤ t.hi then .ok r else .ub

/-- `d < n`, Awl/Decimal.h:98-104: both are converted to double. -/
def lessInt (d : Dec) (n : ℤ) : Res Bool := castD c d >>= fun x => .ok (decide (x < rnd n))

/-- `d == n`, Awl/Decimal.h:98-104. -/
def equalInt (d : Dec) (n : ℤ) : Res Bool := castD c d >>= fun x => .ok (decide (x = rnd n))

/-- `d > n`, Awl/Decimal.h:98-104. -/
def greaterInt (d : Dec) (n : ℤ) : Res Bool := castD c d >>= fun x => .ok (decide (rnd n < x))

end Verif.Double
