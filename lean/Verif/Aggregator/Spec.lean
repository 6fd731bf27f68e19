import Verif.Aggregator.Model

/-! # When the handler should be called -/

namespace Verif.Aggregator

/-- The value given last for the place `i`. -/
def latest {V : Type} (i : Nat) : List (Op V) → Option V
  | [] => none
  | .set j v :: ops => (latest i ops).or (if j = i then some v else none)
  | .cancel :: ops => latest i ops

/-- All of the `n` values were given. -/
def Complete {V : Type} (n : Nat) (ops : List (Op V)) : Prop := ∀ i, i < n → latest i ops ≠ none

/-- It was cancelled. -/
def Cancelled {V : Type} (ops : List (Op V)) : Prop := Op.cancel ∈ ops

/-- The places are less than `n`. -/
def Typed {V : Type} (n : Nat) (ops : List (Op V)) : Prop := ∀ i v, Op.set i v ∈ ops → i < n

/-- No value is given. -/
def Silent {V : Type} (ops : List (Op V)) : Prop := ∀ i v, Op.set i v ∉ ops

end Verif.Aggregator
