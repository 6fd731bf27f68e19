import Verif.Compare.Model

/-! # Orders -/

namespace Verif.Compare

/-- Two values `c` does not tell apart. -/
def Eqv {α : Type} (c : α → α → Bool) (a b : α) : Prop := c a b = false ∧ c b a = false

/-- The lexicographic order: some comparator says less, and all before it do not tell the values apart. -/
def Lex {α : Type} (cs : List (α → α → Bool)) (a b : α) : Prop :=
  ∃ pre c post, cs = pre ++ c :: post ∧ c a b = true ∧ ∀ d ∈ pre, Eqv d a b

/-- The comparisons of elements and keys as one relation; the comparator does not compare keys with keys, `kk` does. -/
def mixed {α : Type} (c : Comp α) (kk : c.Key → c.Key → Bool) : α ⊕ c.Key → α ⊕ c.Key → Bool
  | .inl a, .inl b => c.tt a b
  | .inl a, .inr k => c.tk a k
  | .inr k, .inl b => c.kt k b
  | .inr k, .inr k' => kk k k'

/-- Elements and keys are ordered together: some order of the keys fits to the comparisons. -/
def Consistent {α : Type} (c : Comp α) : Prop := ∃ kk, StrictWeak (mixed c kk)

/-- Sorted: no element is less than one before it. -/
def Sorted {α : Type} (lt : α → α → Bool) (l : List α) : Prop := l.Pairwise (fun a b => lt b a = false)

/-- Strictly sorted: every element is less than those after it. -/
def Strict {α : Type} (lt : α → α → Bool) (l : List α) : Prop := l.Pairwise (fun a b => lt a b = true)

end Verif.Compare
