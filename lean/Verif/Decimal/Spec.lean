import Verif.Decimal.Model
import Mathlib.Data.Rat.Defs
import Mathlib.Algebra.Order.Ring.Rat
import Mathlib.Algebra.Order.Field.Basic
import Mathlib.Tactic.FieldSimp
import Mathlib.Tactic.Linarith
import Mathlib.Tactic.Ring
import Mathlib.Tactic.NormNum

/-! # Decimals as numbers, and decimal literals -/

namespace Verif.Decimal

/-- The number a decimal stands for. -/
def Dec.value (d : Dec) : ℚ := (if d.pos then 1 else -1) * d.man / 10 ^ d.exp

/-- The configurations that make sense: there is a sign bit, at least one bit for the digit count and one for the mantissa,
and the powers of ten up to the largest digit count fit the integer type. -/
structure Cfg.Good (c : Cfg) : Prop where
  exp : 1 ≤ c.e
  man : c.e + 1 < c.w
  pow : 10 ^ c.maxExp < 2 ^ c.w

/-- The number written as a sequence of digits. -/
def number (ds : List Nat) : Nat := ds.foldl (fun n d => 10 * n + d) 0

/-- A decimal literal: an optional sign, digits, and optionally a point and digits; `ds` and `fs` are the digits before and
behind the point. -/
def Literal (t : List Nat) (negative : Bool) (ds fs : List Nat) : Prop :=
  (∀ d ∈ ds, d < 10) ∧ (∀ d ∈ fs, d < 10) ∧
  ∃ sign point, t = sign ++ ds.map (· + 48) ++ point ++ fs.map (· + 48) ∧
    (sign = [45] ∧ negative = true ∨ (sign = [43] ∨ sign = []) ∧ negative = false) ∧
    (point = [46] ∨ point = [] ∧ fs = [])

/-- The number a literal denotes. -/
def literalValue (negative : Bool) (ds fs : List Nat) : ℚ :=
  (if negative then -1 else 1) * (number ds + (number fs : ℚ) / 10 ^ fs.length)

end Verif.Decimal
