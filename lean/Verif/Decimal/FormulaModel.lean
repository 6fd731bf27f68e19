import Verif.Decimal.Model

/-! # Formulas: calculations with decimals that are given as texts -/

namespace Verif.Decimal

/-- An expression of a program: `decimal("1.50")`, `a + b`, `a - b`, `multiply(a, b)`, `-a`, `a.normalize()`, `a.truncate(digits)`, `Awl/Decimal.h:61-70, 219-246, 356-368, 842-850`. -/
inductive Formula
  | text (t : List Nat)
  | add (a b : Formula)
  | sub (a b : Formula)
  | mul (a b : Formula)
  | neg (a : Formula)
  | norm (a : Formula)
  | trunc (a : Formula) (digits : Nat)
deriving Repr, DecidableEq

/-- The value of the expression (`Awl/Decimal.h:61-70, 219-246, 356-368, 842-850`); operands are evaluated from left to right, and none of them has effects. -/
def Formula.eval (c : Cfg) : Formula → Res Dec
  | .text t => fromString c t
  | .add a b => do
    let x ← a.eval c
    let y ← b.eval c
    x.add c y
  | .sub a b => do
    let x ← a.eval c
    let y ← b.eval c
    x.sub c y
  | .mul a b => do
    let x ← a.eval c
    let y ← b.eval c
    multiply c x y
  | .neg a => do
    let x ← a.eval c
    .ok x.neg
  | .norm a => do
    let x ← a.eval c
    .ok (x.normalize c)
  | .trunc a digits => do
    let x ← a.eval c
    x.truncate c digits

end Verif.Decimal
