import Verif.StopCount.Model

namespace Verif.Stop.Count

theorem less_true (a b : Nat) : less a b = true ↔ a < b := by simp [less]

theorem less_false (a b : Nat) : less a b = false ↔ ¬ a < b := by simp [less]

theorem or_one (w : Nat) (h : w % 2 = 0) : w ||| 1 = w + 1 := by
  have h1 : (w ||| 1) / 2 = w / 2 := by rw [Nat.or_div_two]; simp
  have h2 : (w ||| 1) % 2 = 1 := by rw [Nat.or_mod_two_eq_one]; exact .inr rfl
  omega

theorem or_two (w : Nat) (h : w / 2 % 2 = 0) : w ||| 2 = w + 2 := by
  have h1 : (w ||| 2) / 2 = w / 2 + 1 := by rw [Nat.or_div_two]; exact or_one _ h
  have h2 : (w ||| 2) % 2 = 1 ↔ w % 2 = 1 := by rw [Nat.or_mod_two_eq_one]; simp
  omega

/-- What the word must be. -/
def code (s : State) : Nat := s.stop.toNat + 2 * s.held.toNat + 4 * s.refs + 2 ^ 33 * s.sources

structure Inv (s : State) : Prop where
  word : s.word = code s
  refs : s.refs < 2 ^ 31
  sources : s.sources < 2 ^ 31
  some : s.freed = false → s.sources + s.refs ≠ 0
  held : s.held = true → s.sources + s.refs ≠ 0

theorem inv_init : Inv init := by constructor <;> decide

theorem if_ok {α : Type} {p : Prop} [Decidable p] {x y : α} {e : Exn} (h : (if p then Res.ok x else .throw e) = .ok y) : p ∧ x = y := by
  split at h
  · exact ⟨‹_›, by injection h⟩
  · cases h

theorem inv_step (s s' : State) (o : Op) (h : Inv s) (hs : step s o = .ok s') : Inv s' := by
  obtain ⟨h1, h2, h3, h4, h5⟩ := h
  have b1 := Bool.toNat_le s.stop
  have b2 := Bool.toNat_le s.held
  unfold step at hs
  simp only [code] at h1
  by_cases hf : s.freed = true
  · rw [if_pos hf] at hs
    split at hs <;> cases hs
  · have hf : s.freed = false := by simpa using hf
    have hc := h4 hf
    rw [if_neg (by simp [hf])] at hs
    cases o with
    | ask => obtain ⟨_, rfl⟩ := if_ok hs; exact ⟨h1, h2, h3, h4, h5⟩
    | newToken =>
      obtain ⟨⟨c1, c2⟩, rfl⟩ := if_ok hs
      simp only [limit] at c2
      constructor <;> simp only [code, fetchAdd, tokenInc, hf] <;> omega
    | newSource =>
      obtain ⟨⟨c1, c2⟩, rfl⟩ := if_ok hs
      simp only [limit] at c2
      constructor <;> simp only [code, fetchAdd, sourceInc, hf] <;> omega
    | dropToken =>
      obtain ⟨⟨c1, c2⟩, rfl⟩ := if_ok hs
      simp [lastOne] at c2
      refine ⟨?_, ?_, ?_, ?_, ?_⟩
      · simp only [code, fetchSub, tokenInc]; omega
      · simp only; omega
      · simp only; omega
      · intro e
        simp only [tokenInc, sourceInc, less_false] at e ⊢
        omega
      · intro e
        simp only at e ⊢
        have e := c2 e
        omega
    | dropCallback =>
      obtain ⟨⟨c1, c2⟩, rfl⟩ := if_ok hs
      simp [lastOne] at c2
      refine ⟨?_, ?_, ?_, ?_, ?_⟩
      · simp only [code, fetchSub, tokenInc]; omega
      · simp only; omega
      · simp only; omega
      · intro e
        simp only [tokenInc, sourceInc, less_false] at e ⊢
        omega
      · intro e
        simp only at e ⊢
        have e := c2 e
        omega
    | dropSource =>
      obtain ⟨⟨c1, c2⟩, rfl⟩ := if_ok hs
      simp [lastOne] at c2
      refine ⟨?_, ?_, ?_, ?_, ?_⟩
      · simp only [code, fetchSub, sourceInc]; omega
      · simp only; omega
      · simp only; omega
      · intro e
        simp only [tokenInc, sourceInc, less_false] at e ⊢
        omega
      · intro e
        simp only at e ⊢
        have e := c2 e
        omega
    | lock =>
      obtain ⟨⟨c1, c2⟩, rfl⟩ := if_ok hs
      rw [c2] at h1
      simp at h1
      constructor <;> simp only [code, lockBit] <;> intros <;> try omega
      rw [or_two _ (by omega)]; simp; omega
    | signal =>
      obtain ⟨⟨c1, c2, c3⟩, rfl⟩ := if_ok hs
      rw [c2, c3] at h1
      simp at h1
      constructor <;> simp only [code, lockBit, stopBit] <;> intros <;> try omega
      rw [or_one _ (by omega), or_two _ (by omega)]; simp; omega
    | unlock =>
      obtain ⟨c1, rfl⟩ := if_ok hs
      rw [c1] at h1
      simp at h1
      constructor <;> simp only [code, fetchSub, lockBit] <;> intros <;> simp <;> omega
    | register =>
      obtain ⟨⟨c1, c2⟩, rfl⟩ := if_ok hs
      rw [c1] at h1
      simp only [limit] at c2
      simp at h1
      constructor <;> simp only [code, fetchSub, lockBit, tokenInc] <;> intros <;> simp <;> omega
    | unlink =>
      obtain ⟨⟨c1, c2⟩, rfl⟩ := if_ok hs
      rw [c1] at h1
      simp at h1
      refine ⟨?_, ?_, ?_, ?_, ?_⟩
      · simp only [code, fetchSub, tokenInc, lockBit]; simp; omega
      · show s.refs - 1 < 2 ^ 31; omega
      · exact h3
      · intro e
        simp only [tokenInc, lockBit, less_false] at e
        show s.sources + (s.refs - 1) ≠ 0
        omega
      · intro e; cases e

theorem inv_run (l : List Op) (s s' : State) (h : Inv s) (hr : run s l = .ok s') : Inv s' := by
  induction l generalizing s with
  | nil => cases hr; exact h
  | cons o l ih =>
    obtain ⟨s1, h1, h2⟩ := Res.bind_eq_ok.1 hr
    exact ih s1 (inv_step s s1 o h h1) h2

theorem inv'_step (s s' : State) (o : Op) (h : Inv s) (hs : step s o = .ok s') :
    s'.sources ≠ 0 → s'.freed = false := by
  obtain ⟨h1, h2, h3, h4, h5⟩ := h
  have b1 := Bool.toNat_le s.stop
  have b2 := Bool.toNat_le s.held
  unfold step at hs
  simp only [code] at h1
  by_cases hf : s.freed = true
  · rw [if_pos hf] at hs
    split at hs <;> cases hs
  · have hf : s.freed = false := by simpa using hf
    rw [if_neg (by simp [hf])] at hs
    cases o with
    | dropToken =>
      obtain ⟨⟨c1, c2⟩, rfl⟩ := if_ok hs
      intro e
      simp only at e ⊢
      simp only [tokenInc, sourceInc, less_false]; omega
    | dropCallback =>
      obtain ⟨⟨c1, c2⟩, rfl⟩ := if_ok hs
      intro e
      simp only at e ⊢
      simp only [tokenInc, sourceInc, less_false]; omega
    | dropSource =>
      obtain ⟨⟨c1, c2⟩, rfl⟩ := if_ok hs
      intro e
      simp only at e ⊢
      simp only [tokenInc, sourceInc, less_false]; omega
    | unlink =>
      obtain ⟨⟨c1, c2⟩, rfl⟩ := if_ok hs
      intro e
      simp only at e ⊢
      simp only [tokenInc, lockBit, less_false]; omega
    | _ => obtain ⟨_, rfl⟩ := if_ok hs; intro _; exact hf

/-- When the operation releases a token or a called callback, it is the last reference or a source exists. -/
def careful (s : State) : Op → Bool
  | .dropToken | .dropCallback => s.sources != 0 || s.refs == 1
  | _ => true

/-- Careful all along. -/
def allCareful : State → List Op → Bool
  | _, [] => true
  | s, o :: l => careful s o && match step s o with
    | .ok s' => allCareful s' l
    | _ => true

theorem careful_step (s s' : State) (o : Op) (h : Inv s) (hc : careful s o = true) (hf : s.freed = false)
    (hs : step s o = .ok s') : s'.freed = true → s'.sources = 0 ∧ s'.refs = 0 ∧ s'.held = false := by
  obtain ⟨h1, h2, h3, h4, h5⟩ := h
  have b1 := Bool.toNat_le s.stop
  have b2 := Bool.toNat_le s.held
  unfold step at hs
  simp only [code] at h1
  rw [if_neg (by simp [hf])] at hs
  cases o with
  | dropToken =>
    obtain ⟨⟨c1, c2⟩, rfl⟩ := if_ok hs
    intro e
    simp only [tokenInc, sourceInc, less_true] at e ⊢
    simp [lastOne] at c2
    simp [careful] at hc
    cases hh : s.held
    · simp; omega
    · have := c2 hh; simp [hh] at h1; omega
  | dropCallback =>
    obtain ⟨⟨c1, c2⟩, rfl⟩ := if_ok hs
    intro e
    simp only [tokenInc, sourceInc, less_true] at e ⊢
    simp [lastOne] at c2
    simp [careful] at hc
    cases hh : s.held
    · simp; omega
    · have := c2 hh; simp [hh] at h1; omega
  | dropSource =>
    obtain ⟨⟨c1, c2⟩, rfl⟩ := if_ok hs
    intro e
    simp only [tokenInc, sourceInc, less_true] at e ⊢
    simp [lastOne] at c2
    cases hh : s.held
    · simp; omega
    · have := c2 hh; simp [hh] at h1; omega
  | unlink =>
    obtain ⟨⟨c1, c2⟩, rfl⟩ := if_ok hs
    intro e
    rw [c1] at h1
    simp only [tokenInc, lockBit, less_true, Bool.toNat_true] at e h1 ⊢
    simp; omega
  | _ => obtain ⟨_, rfl⟩ := if_ok hs; intro e; rw [hf] at e; cases e

end Verif.Stop.Count
