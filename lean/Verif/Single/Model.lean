import Verif.Single.Round
import Verif.Double.Model

/-!
# Decimals and floats: the parts of `Awl/Decimal.h` that go through `float`

The `Float` of the templates is `float`.  A `float` is converted to `double` without rounding, so that `operator =` and the functions `make_decimal` and `make_rounded`
of a `float` are those of `Verif.Double`.
-/

namespace Verif.Single

open Verif Verif.Decimal

/-- `cast<float>()`, Awl/Decimal.h:92-96: the mantissa becomes a `float`, the denominator a `double`, so that the division is one of doubles; its result becomes a
`float`.  A denominator of zero would give an infinity; here it is undefined. -/
def castF (c : Cfg) (d : Dec) : Res ℚ := do
  let den ← c.denom d.exp
  if den = 0 then .ub else .ok (rnd (Double.rnd (rnd d.mantissa / Double.rnd den)))

end Verif.Single
