import Verif.StopCount.Inv

/-! # C94: the life of the stop state -/

namespace Verif.Stop.Count

/-- **C94.**  While a source exists the state is not deleted. -/
theorem c94_source_keeps (l : List Op) (s : State) (h : run init l = .ok s) (hs : s.sources ≠ 0) : s.freed = false := by
  have : ∀ l s0, Inv s0 → (s0.sources ≠ 0 → s0.freed = false) → run s0 l = .ok s → s.sources ≠ 0 → s.freed = false := by
    intro l
    induction l with
    | nil => intro s0 _ h1 h2; cases h2; exact h1
    | cons o l ih =>
      intro s0 h0 h1 h2
      obtain ⟨s1, h3, h4⟩ := Res.bind_eq_ok.1 h2
      exact ih s1 (inv_step s0 s1 o h0 h3) (inv'_step s0 s1 o h0 h3) h4
  exact this l init inv_init (fun _ => rfl) h hs

/-- **C94.**  Nothing is leaked: when the last source, token and callback are gone, the state is deleted. -/
theorem c94_no_leak (l : List Op) (s : State) (h : run init l = .ok s) (hs : s.sources = 0) (hr : s.refs = 0) : s.freed = true := by
  have h1 := (inv_run l init s inv_init h).some
  cases e : s.freed
  · have := h1 e; omega
  · rfl

/-- **C94.**  The word says what exists: `stop_possible` and `stop_requested` of a token read it. -/
theorem c94_word (l : List Op) (s : State) (h : run init l = .ok s) :
    s.word = (if s.stop then 1 else 0) + (if s.held then 2 else 0) + 4 * s.refs + 2 ^ 33 * s.sources ∧
    (s.word % 2 = 1 ↔ s.stop = true) ∧ (s.word ≥ 2 ^ 33 ↔ s.sources ≠ 0) := by
  obtain ⟨h1, h2, h3, _, _⟩ := inv_run l init s inv_init h
  simp only [code] at h1
  cases e : s.stop <;> cases e' : s.held <;> simp [e, e'] at h1 ⊢ <;> omega

/-- **C94 (partial).**  If no token and no called callback is destroyed while another one exists and no source does, then the state
is never used after its deletion.  What is missing: without that restriction it is (`c94_violated`). -/
theorem c94_no_ub_partial (l : List Op) (hc : allCareful init l = true) : run init l ≠ .ub := by
  have : ∀ l s, Inv s → (s.freed = true → s.sources = 0 ∧ s.refs = 0 ∧ s.held = false) → allCareful s l = true → run s l ≠ .ub := by
    intro l
    induction l with
    | nil => intro s _ _ _ h; cases h
    | cons o l ih =>
      intro s h1 h2 h3
      rw [run]
      cases e : step s o with
      | ok s1 =>
        have hf : s.freed = false := by
          cases hf : s.freed
          · rfl
          · have := h2 hf; simp [step, hf, this] at e
        exact ih s1 (inv_step s s1 o h1 e) (careful_step s s1 o h1 (by simp [allCareful] at h3; exact h3.1) hf e) (by simp [allCareful, e] at h3; exact h3.2)
      | throw x => simp
      | ub =>
        exfalso
        unfold step at e
        split at e
        · rename_i hf; rw [if_pos (h2 hf)] at e; cases e
        · cases o <;> (simp only at e; split at e <;> cases e)
  exact this l init inv_init (fun e => by cases e) hc

/-- **C94 (violated).**  Two tokens outlive the source; the destruction of one of them deletes the state that the other one still
refers to. -/
theorem c94_violated : run init [.newToken, .newToken, .dropSource, .dropToken, .ask] = .ub := by decide +kernel

/-- **C94 (violated).**  So does the destruction of a called callback when a token outlives the source. -/
theorem c94_callback_violated :
    run init [.newToken, .lock, .register, .signal, .unlock, .dropSource, .dropCallback, .ask] = .ub := by decide +kernel

/-- **C94 (violated).**  In general: without a source, the destruction of any token deletes the state. -/
theorem c94_token_deletes_violated (l : List Op) (s s' : State) (h : run init l = .ok s) (hs : s.sources = 0)
    (h' : step s .dropToken = .ok s') : s'.freed = true := by
  obtain ⟨h1, h2, h3, h4, h5⟩ := inv_run l init s inv_init h
  have b1 := Bool.toNat_le s.stop
  have b2 := Bool.toNat_le s.held
  unfold step at h'
  simp only [code] at h1
  split at h'
  · split at h' <;> cases h'
  · obtain ⟨_, rfl⟩ := if_ok h'
    simp only [tokenInc, sourceInc, less_true]
    omega

-- two tokens, one callback and two sources come and go; the state is deleted at the end, not before
example : allCareful init [.newToken, .newSource, .newToken, .lock, .register, .dropSource, .signal, .unlock, .dropCallback, .dropToken,
    .dropSource, .dropToken] = true := by decide +kernel

example : run init [.newToken, .newSource, .newToken, .lock, .register, .dropSource, .signal, .unlock, .dropCallback, .dropToken,
    .dropSource, .dropToken] = .ok ⟨1, true, 0, 0, false, true⟩ := by decide +kernel

end Verif.Stop.Count
