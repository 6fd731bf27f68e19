/-! # Comparators -/

namespace Verif

/-- `lt` is a strict weak order: what the C++ standard library and `vector_set` require of a comparator. -/
structure StrictWeak {α : Type} (lt : α → α → Bool) : Prop where
  irrefl : ∀ a, lt a a = false
  trans : ∀ a b c, lt a b = true → lt b c = true → lt a c = true
  incompTrans : ∀ a b c, lt a b = false → lt b a = false → lt b c = false → lt c b = false →
    lt a c = false ∧ lt c a = false

namespace StrictWeak

variable {α : Type} {lt : α → α → Bool}

theorem asymm (h : StrictWeak lt) {a b : α} (hab : lt a b = true) : lt b a = false := by
  cases hb : lt b a with
  | false => rfl
  | true => have := h.trans a b a hab hb; rw [h.irrefl] at this; cases this

/-- `a < b` and `b ~ c` give `a < c`. -/
theorem lt_of_lt_of_eqv (h : StrictWeak lt) {a b c : α} (hab : lt a b = true) (h1 : lt b c = false)
    (h2 : lt c b = false) : lt a c = true := by
  cases hac : lt a c with
  | true => rfl
  | false =>
    cases hca : lt c a with
    | true => have := h.trans c a b hca hab; rw [h2] at this; cases this
    | false =>
      have := (h.incompTrans a c b hac hca h2 h1).1
      rw [this] at hab; cases hab

theorem lt_of_eqv_of_lt (h : StrictWeak lt) {a b c : α} (h1 : lt a b = false) (h2 : lt b a = false)
    (hbc : lt b c = true) : lt a c = true := by
  cases hac : lt a c with
  | true => rfl
  | false =>
    cases hca : lt c a with
    | true => have := h.trans b c a hbc hca; rw [h2] at this; cases this
    | false =>
      have := (h.incompTrans b a c h2 h1 hac hca).1
      rw [this] at hbc; cases hbc

end StrictWeak
end Verif
