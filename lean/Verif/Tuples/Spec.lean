import Verif.Tuples.Model

/-! # What a sequence of calls is -/

namespace Verif.Tuples

variable {σ α β : Type}

/-- Calls, one after the other, none of which throws, and their results. -/
inductive Did (f : Fn σ α β) : σ → List α → List β → σ → Prop where
  | nil {s} : Did f s [] [] s
  | cons {s a b s' t bs s''} : f s a = (.ok b, s') → Did f s' t bs s'' → Did f s (a :: t) (b :: bs) s''

/-- `r` is how a sequence of calls for the elements of `t`, in order, ends: all return, or one does not and it is the last. -/
def Sequence (f : Fn σ α β) (s : σ) (t : List α) (r : Res (List β) × σ) : Prop :=
  (∃ bs, r.1 = .ok bs ∧ Did f s t bs r.2) ∨
  ∃ X a Y bs s', t = X ++ a :: Y ∧ Did f s X bs s' ∧ ((∃ e, r.1 = .throw e ∧ f s' a = (.throw e, r.2)) ∨ (r.1 = .ub ∧ f s' a = (.ub, r.2)))

/-- The result of a loop, without what the calls return. -/
def unitRes (r : Res (List Unit) × σ) : Res Unit × σ :=
  match r with
  | (.ok _, s) => (.ok (), s)
  | (.throw e, s) => (.throw e, s)
  | (.ub, s) => (.ub, s)

end Verif.Tuples
