import Verif.Decimal.BalanceModel
import Verif.Decimal.Spec

/-! # A balance: specification -/

namespace Verif.Decimal

/-- The decimal of an entry. -/
def Entry.dec : Entry → Dec
  | .add d => d
  | .sub d => d

/-- The amount by which the balance changes. -/
def Entry.amount : Entry → ℚ
  | .add d => d.value
  | .sub d => -d.value

/-- The sum of the amounts. -/
def total : List Entry → ℚ
  | [] => 0
  | e :: es => e.amount + total es

/-- The sum of the amounts without their signs. -/
def turnover : List Entry → ℚ
  | [] => 0
  | e :: es => |e.amount| + turnover es

/-- The entry that takes an entry back. -/
def Entry.back : Entry → Entry
  | .add d => .sub d
  | .sub d => .add d

/-- Not minus zero. -/
def Dec.Plain (d : Dec) : Prop := d.value = 0 → d.pos = true

end Verif.Decimal
