import Verif.Decimal.FormulaModel
import Verif.Decimal.Spec

/-! # Formulas: specification -/

namespace Verif.Decimal

/-- `x` can be written with `k` digits behind the point. -/
def Whole (k : Nat) (x : ℚ) : Prop := ∃ n : Int, x * 10 ^ k = n

/-- `x` needs `k` digits behind the point. -/
def Needs (k : Nat) (x : ℚ) : Prop := Whole k x ∧ ∀ j, j < k → ¬ Whole j x

/-- The formula has the value `x`, written with `k` digits behind the point, and everything that is calculated on the way fits the type: the numbers in the texts; the
operands and the result of `+` and `-` with the larger number of digits; the product with the digits of both factors. -/
inductive Calculates (c : Cfg) : Formula → ℚ → Nat → Prop
  | text {t ds fs neg k} : t ≠ [] → Literal t neg ds fs → fs.length ≤ 255 → Needs k (literalValue neg ds fs) → k ≤ c.maxExp →
    |literalValue neg ds fs * 10 ^ k| ≤ c.maxMan → Calculates c (.text t) (literalValue neg ds fs) k
  | add {a b x y j k n} : Calculates c a x j → Calculates c b y k → n = max j k → |x * 10 ^ n| ≤ c.maxMan → |y * 10 ^ n| ≤ c.maxMan →
    |(x + y) * 10 ^ n| ≤ c.maxMan → Calculates c (.add a b) (x + y) n
  | sub {a b x y j k n} : Calculates c a x j → Calculates c b y k → n = max j k → |x * 10 ^ n| ≤ c.maxMan → |y * 10 ^ n| ≤ c.maxMan →
    |(x - y) * 10 ^ n| ≤ c.maxMan → Calculates c (.sub a b) (x - y) n
  | mul {a b x y j k} : Calculates c a x j → Calculates c b y k → j + k ≤ c.maxExp → |x * y * 10 ^ (j + k)| ≤ c.maxMan →
    Calculates c (.mul a b) (x * y) (j + k)
  | neg {a x k} : Calculates c a x k → Calculates c (.neg a) (-x) k
  | norm {a x j k} : Calculates c a x j → Needs k x → Calculates c (.norm a) x k
  | trunc {a x y j k n} : Calculates c a x j → n = min j k → Whole k y → 0 ≤ x * y → |y| ≤ |x| → |x| < |y| + 1 / 10 ^ k → Calculates c (.trunc a k) y n

end Verif.Decimal
