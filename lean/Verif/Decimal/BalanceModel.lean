import Verif.Decimal.Model

/-! # A balance: a decimal to which decimals are added and from which they are subtracted -/

namespace Verif.Decimal

/-- `b += d` or `b -= d` (Awl/Decimal.h:248-260). -/
inductive Entry
  | add (d : Dec)
  | sub (d : Dec)
deriving Repr, DecidableEq

/-- `operator +=` and `operator -=`, `Awl/Decimal.h:248-260`: the decimal afterwards, and whether an exception was thrown; the assignment is not reached then. -/
def post (c : Cfg) (b : Dec) : Entry → Dec × Res Unit
  | .add d =>
    match b.add c d with
    | .ok r => (r, .ok ())
    | .throw e => (b, .throw e)
    | .ub => (b, .ub)
  | .sub d =>
    match b.sub c d with
    | .ok r => (r, .ok ())
    | .throw e => (b, .throw e)
    | .ub => (b, .ub)

/-- A loop of `+=` and `-=` (`Awl/Decimal.h:248-260`) that ends at an exception. -/
def posts (c : Cfg) (b : Dec) : List Entry → Dec × Res Unit
  | [] => (b, .ok ())
  | e :: es =>
    match post c b e with
    | (r, .ok ()) => posts c r es
    | (r, .throw x) => (r, .throw x)
    | (r, .ub) => (r, .ub)

end Verif.Decimal
