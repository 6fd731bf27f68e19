import Verif.IntervalMap.Spec

/-! # What a call that throws may leave of a function from keys to values -/

namespace Verif.IntervalMap

variable {V : Type}

/-- All keys from `a` to `k` have the value of `a`. -/
def Together (f : Int → Option V) (a k : Int) : Prop :=
  f a ≠ none ∧ ∀ j, (a ≤ j ∧ j ≤ k) ∨ (k ≤ j ∧ j ≤ a) → f j = f a

/-- No key has another value than before; keys that have lost their value are in `[a, b]`, or have the value of `a` together
with all keys from there to `a`. -/
def Lost (f : Int → Option V) (a b : Int) (f' : Int → Option V) : Prop :=
  ∀ k, f' k = f k ∨ (f' k = none ∧ ((a ≤ k ∧ k ≤ b) ∨ Together f a k))

/-- The keys `a … b` have the value `v`, the others are as before, except that those in a gap towards a neighbour with
the value `v` may have got it. -/
def Done (f : Int → Option V) (a b : Int) (v : V) (f' : Int → Option V) : Prop :=
  ∀ k, f' k = put f a b v k ∨ (InGap f a b v k ∧ f' k = some v)

end Verif.IntervalMap
