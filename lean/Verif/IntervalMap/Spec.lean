/-! # A function from keys to values -/

namespace Verif.IntervalMap

variable {V : Type}

/-- The keys `a … b` get the value `v`. -/
def put (f : Int → Option V) (a b : Int) (v : V) : Int → Option V :=
  fun k => if a ≤ k ∧ k ≤ b then some v else f k

def putAll : (Int → Option V) → List (Int × Int × V) → Int → Option V
  | f, [] => f
  | f, (a, b, v) :: h => putAll (put f a b v) h

/-- There are no keys without a value between `[a, b]` and the nearest keys, on the left and on the right, that have a
value, if this is `v`. -/
def NoGap (f : Int → Option V) (a b : Int) (v : V) : Prop :=
  (∀ p, p < a → f p = some v → (∀ j, p < j → j < a → f j = none) → p = a - 1) ∧
  (∀ p, b < p → f p = some v → (∀ j, b < j → j < p → f j = none) → p = b + 1)

/-- `NoGap` for every call of a history. -/
def NoGaps : (Int → Option V) → List (Int × Int × V) → Prop
  | _, [] => True
  | f, (a, b, v) :: h => (a ≤ b → NoGap f a b v) ∧ NoGaps (put f a b v) h

/-- A call that assigns the greatest key: it has no value yet, or the keys from `a - 1` up to it have all the same value. -/
def TopOk (hi : Int) (f : Int → Option V) (a b : Int) : Prop :=
  b = hi → f hi = none ∨ ∃ w, ∀ j, a - 1 ≤ j → j ≤ hi → f j = some w

/-- `TopOk` for every call of a history. -/
def TopsOk (hi : Int) : (Int → Option V) → List (Int × Int × V) → Prop
  | _, [] => True
  | f, (a, b, v) :: h => (a ≤ b → TopOk hi f a b) ∧ TopsOk hi (put f a b v) h

/-- The key has no value and lies between `[a, b]` and the nearest key with a value, on the left or on the right, which has
the value `v`. -/
def InGap (f : Int → Option V) (a b : Int) (v : V) (k : Int) : Prop :=
  f k = none ∧
  ((k < a ∧ ∃ p, p < k ∧ f p = some v ∧ ∀ j, p < j → j < a → f j = none) ∨
   (b < k ∧ ∃ p, k < p ∧ f p = some v ∧ ∀ j, b < j → j < p → f j = none))

end Verif.IntervalMap
