import Verif.Common.Res
import Mathlib.Data.Rat.Floor

/-!
# `Awl/Math.h`: `round`, `clamp`, `sign`

Floating point numbers are rational numbers, and their addition is exact (so the errors of `f + 0.5f` itself are left out).  Conversion to an integer type with the values
`lo … hi` drops the fraction, and is undefined if the result is not one of them.
-/

namespace Verif.Math

open Verif

/-- `static_cast` of a floating point number to an integer: towards zero (Math.h:36). -/
def trunc (q : Rat) : Int := if 0 ≤ q then ⌊q⌋ else ⌈q⌉

/-- `round<I>(f)`, Math.h:33-37. -/
def round (lo hi : Int) (f : Rat) : Res Int :=
  let t := trunc (f + 1 / 2)
  if lo ≤ t ∧ t ≤ hi then .ok t else .ub

/-- `clamp(v, lo, hi, less)`, Math.h:41-55: the new value of `v`. -/
def clamp {α : Type} (less : α → α → Bool) (v lo hi : α) : α :=
  if less v lo then lo else if less hi v then hi else v

/-- `sign(val)`, Math.h:63-67, for a type with the comparison `less` and the zero `z`. -/
def sign {α : Type} (less : α → α → Bool) (z val : α) : Int := (if less z val then 1 else 0) - (if less val z then 1 else 0)

end Verif.Math
