import Verif.Coro.LogInv

namespace Verif.Coro

/-- Nothing is left behind. -/
def Kept (s : State) : Prop :=
  ∀ t fr, s.frames t = some fr → (∃ v ∈ s.vars, v.handle = some t) ∨ fr.owned = false ∧ fr.phase ≠ .final

theorem kept_mono (s s' : State) (h : Kept s)
    (hf : ∀ g fr', s'.frames g = some fr' → ∃ fr, s.frames g = some fr ∧ fr'.owned = fr.owned ∧
      (fr'.phase = .final ↔ fr.phase = .final))
    (hv : ∀ v ∈ s.vars, ∀ g, v.handle = some g → s'.frames g ≠ none → ∃ w ∈ s'.vars, w.handle = some g) : Kept s' := by
  intro t fr' ht
  obtain ⟨fr, h1, h2, h3⟩ := hf t fr' ht
  rcases h t fr h1 with ⟨v, h4, h5⟩ | ⟨h4, h5⟩
  · exact .inl (hv v h4 t h5 (by rw [ht]; simp))
  · exact .inr ⟨h2 ▸ h4, fun e => h5 (h3.1 e)⟩

theorem evo_frames (s s' : State) (he : Evo s s') : ∀ g fr', s'.frames g = some fr' → ∃ fr, s.frames g = some fr ∧
    fr'.owned = fr.owned ∧ (fr'.phase = .final ↔ fr.phase = .final) := by
  intro g fr' hg
  rcases he.frames g with h1 | ⟨h1, _⟩
  · rw [h1] at hg; exact ⟨fr', hg, rfl, Iff.rfl⟩
  · rw [h1] at hg; cases hg

theorem set_frames (s : State) (c : Nat) (fr fr' : Frame) (hc : s.frames c = some fr) (ho : fr'.owned = fr.owned)
    (hp : fr'.phase = .final ↔ fr.phase = .final) : ∀ g f', (setFrame s c (some fr')).frames g = some f' →
    ∃ f, s.frames g = some f ∧ f'.owned = f.owned ∧ (f'.phase = .final ↔ f.phase = .final) := by
  intro g f' hg
  by_cases e : g = c
  · rw [e] at hg ⊢
    simp only [setFrame, if_true] at hg; cases hg
    exact ⟨fr, hc, ho, hp⟩
  · simp only [setFrame, if_neg e] at hg; exact ⟨f', hg, rfl, Iff.rfl⟩

theorem kept_step (s s' : State) (o : Op) (hi : Inv s [] none) (h : Kept s) (hst : Structured s o)
    (hr : NoLateRelease s o)     (hs : step s o = .ok s') : Kept s' := by
  cases o with
  | declare x o =>
    refine kept_mono s s' h (evo_frames s s' (plain_evo s _ s' (by trivial) hs)) ?_
    simp only [step] at hs
    split at hs
    · cases hs
    · cases hs
      intro v hv g hg _
      exact ⟨v, List.mem_cons_of_mem _ hv, hg⟩
  | moveCtor x o y =>
    refine kept_mono s s' h (evo_frames s s' (plain_evo s _ s' (by trivial) hs)) ?_
    simp only [step] at hs
    split at hs
    · cases hs
    · split at hs
      · cases hs
      · rename_i u hl
        obtain ⟨hu, hux⟩ := lookup_mem s y u hl
        cases hs
        intro v hv g hg _
        by_cases e : v.name = y
        · have := name_inj _ hi.names v u hv hu (e.trans hux.symm)
          subst this
          exact ⟨_, List.mem_cons_self, hg⟩
        · exact ⟨v, List.mem_cons_of_mem _ ((mem_setHandle s y none v).2 ⟨v, hv, by rw [if_neg e]⟩), hg⟩
  | moveAssign x y =>
    refine kept_mono s s' h (evo_frames s s' (plain_evo s _ s' (by trivial) hs)) ?_
    simp only [step] at hs
    split at hs
    · cases hs
    · simp only [Res.bind_eq_ok] at hs
      obtain ⟨s1, h1, h2⟩ := hs
      obtain ⟨h3, h4, h4'⟩ := free_left s x s1 hi h1
      split at h2
      · cases h2
      · rename_i u hl
        obtain ⟨hu, huy⟩ := lookup_mem s1 y u hl
        cases h2
        intro v hv g hg hne
        rcases h3 v hv g hg with ⟨w, hw, hwx, hwg⟩ | h5
        · by_cases e : w.name = y
          · rcases free_inv s x hi hst.1 with h6 | h6 | ⟨s2, h6, hi2, _⟩
            · rw [h1] at h6; cases h6
            · rw [h1] at h6; cases h6
            · rw [h1] at h6; cases h6
              have := name_inj _ hi2.names w u hw hu (e.trans huy.symm)
              subst this
              obtain ⟨z, hz, hzx⟩ := h4'
              have exy : x ≠ y := fun exy => hwx (e.trans exy.symm)
              refine ⟨{ z with handle := w.handle }, (mem_setHandle _ x _ _).2 ⟨z, (mem_setHandle s1 y none z).2 ⟨z, hz, ?_⟩, ?_⟩, hwg⟩
              · rw [if_neg (fun ez => exy (hzx.symm.trans ez))]
              · rw [if_pos hzx, if_neg exy]
          · refine ⟨w, (mem_setHandle _ x _ w).2 ⟨w, (mem_setHandle s1 y none w).2 ⟨w, hw, by rw [if_neg e]⟩, by rw [if_neg hwx]⟩, hwg⟩
        · exact absurd h5 hne
  | free x =>
    refine kept_mono s s' h (evo_frames s s' (plain_evo s _ s' (by trivial) hs)) ?_
    obtain ⟨h3, h4, h4'⟩ := free_left s x s' hi hs
    intro v hv g hg hne
    rcases h3 v hv g hg with ⟨w, hw, hwx, hwg⟩ | h5
    · exact ⟨w, hw, hwg⟩
    · exact absurd h5 hne
  | drop x =>
    refine kept_mono s s' h (evo_frames s s' (plain_evo s _ s' (by trivial) hs)) ?_
    simp only [step, Res.bind_eq_ok] at hs
    obtain ⟨s1, h1, h2⟩ := hs
    obtain ⟨h3, h4, h4'⟩ := free_left s x s1 hi h1
    cases h2
    intro v hv g hg hne
    rcases h3 v hv g hg with ⟨w, hw, hwx, hwg⟩ | h5
    · exact ⟨w, List.mem_filter.2 ⟨hw, by simpa using hwx⟩, hwg⟩
    · exact absurd h5 hne
  | start k x o =>
    obtain ⟨h1, h2, h3, h4, h5⟩ := start_spec s k x o s' hs
    intro t fr ht
    by_cases e : t = s.next
    · exact .inl ⟨⟨x, o, some s.next⟩, by rw [h5]; simp, by rw [e]⟩
    · rw [h2 t e] at ht
      rcases h t fr ht with ⟨v, h6, h7⟩ | h6
      · exact .inl ⟨v, by rw [h5]; exact List.mem_cons_of_mem _ h6, h7⟩
      · exact .inr h6
  | release x =>
    obtain ⟨h1, h2, h3⟩ := release_spec s x s' hs
    rcases h3 with rfl | ⟨v, hv, hvx, f, fr, hvf, hfr, _, h4, h5, h6⟩
    · exact h
    · intro t fr' ht
      by_cases e : t = f
      · rw [e, h4] at ht; cases ht
        exact .inr ⟨rfl, fun hp => hr v hv hvx f hvf ⟨_, hfr, hp⟩⟩
      · rw [h5 t e] at ht
        rcases h t fr' ht with ⟨w, h7, h8⟩ | h7
        · refine .inl ⟨w, ?_, h8⟩
          rw [h6]
          refine (mem_setHandle s x none w).2 ⟨w, h7, ?_⟩
          rw [if_neg]
          intro ew
          rw [name_inj _ hi.names w v h7 hv (ew.trans hvx.symm), hvf] at h8
          cases h8; exact e rfl
        · exact .inr h7
  | suspend c =>
    obtain ⟨fr, h1, h2, rfl⟩ := suspend_spec s c s' hs
    refine kept_mono s _ h (set_frames s c fr _ h1 rfl (by simp [h2])) ?_
    intro v hv g hg _; exact ⟨v, hv, hg⟩
  | resume c =>
    obtain ⟨fr, h1, h2, rfl⟩ := resume_spec s c s' hs
    refine kept_mono s _ h (set_frames s c fr _ h1 rfl (by simp [h2])) ?_
    intro v hv g hg _; exact ⟨v, hv, hg⟩
  | await c x =>
    obtain ⟨cr, v, t, tr, hc, hp, hv, hvx, hvt, ht, haw, h1⟩ := await_spec s c x s' hs
    rcases h1 with ⟨h1, h2⟩ | ⟨h1, h2, h3, h4, h5, h6, h7⟩
    · obtain ⟨_, h3, h4⟩ := deliver_spec s c t tr.kind s' h2
      refine kept_mono s s' h ?_ (fun v hv g hg _ => ⟨v, by rw [h3]; exact hv, hg⟩)
      intro g fr' hg
      rcases h4 with ⟨_, h4, _⟩ | ⟨_, fr, r, h5, _, _, h6, h7⟩
      · rw [h4] at hg; exact ⟨fr', hg, rfl, Iff.rfl⟩
      · by_cases e : g = t
        · rw [e] at hg ⊢
          rcases h7 with ⟨_, h7⟩ | ⟨_, h7⟩
          · rw [h7] at hg; cases hg; exact ⟨fr, h5, rfl, Iff.rfl⟩
          · rw [h7] at hg; cases hg; exact ⟨_, h5, rfl, Iff.rfl⟩
        · rw [h6 g e] at hg; exact ⟨fr', hg, rfl, Iff.rfl⟩
    · refine kept_mono s s' h ?_ (fun v hv g hg _ => ⟨v, by rw [h3]; exact hv, hg⟩)
      intro g fr' hg
      by_cases e1 : g = c
      · rw [e1] at hg ⊢
        by_cases e : c = t
        · rw [h7 e] at hg; cases hg
          exact ⟨cr, hc, rfl, by simp [hp]⟩
        · rw [(h6 e).2] at hg; cases hg
          exact ⟨cr, hc, rfl, by simp [hp]⟩
      · by_cases e2 : g = t
        · have e : c ≠ t := fun e => e1 (e2.trans e.symm)
          rw [e2, (h6 e).1] at hg; cases hg
          rw [e2]
          exact ⟨tr, ht, rfl, Iff.rfl⟩
        · rw [h5 g e1 e2] at hg; exact ⟨fr', hg, rfl, Iff.rfl⟩
  | finish c r =>
    rcases finish_cases s c r with ⟨e, he⟩ | ⟨cr, hc, hp, hv, ha⟩
    · rw [he] at hs; cases hs
    obtain ⟨S, h1, h2, h3, h4, h5, h6, h7, h8⟩ := finish_spec s c cr r hi hc hp hv ha
    rw [h1] at hs; cases hs
    intro t fr' ht
    rw [h3]
    by_cases e : t = c
    · rw [e] at ht ⊢
      cases ho : cr.owned with
      | false => rw [h6 ho] at ht; cases ht
      | true =>
        rcases h c cr hc with h9 | ⟨h9, _⟩
        · exact .inl h9
        · rw [ho] at h9; cases h9
    · by_cases ea : cr.awaiting = some t
      · obtain ⟨_, ar, h9, h10, h11⟩ := h5 t ea
        rw [h11] at ht; cases ht
        rcases h t ar h9 with h12 | ⟨h12, _⟩
        · exact .inl h12
        · exact .inr ⟨h12, by simp⟩
      · rw [h4 t e ea] at ht
        exact h t fr' ht

theorem reach_release (s : State) (h : ReachRelease s) : Reach s ∧ Kept s := by
  induction h with
  | init => exact ⟨.init, fun t fr h => by cases h⟩
  | step s s' o _ h1 h2 h3 ih => exact ⟨.step s s' o ih.1 h1 h3, kept_step s s' o (reach_inv s ih.1) ih.2 h1 h2 h3⟩

/-- A finished task that no variable holds stays. -/
theorem stays (s s' : State) (o : Op) (t : Nat) (fr : Frame) (hi : Inv s [] none) (ht : s.frames t = some fr)
    (hp : fr.phase = .final) (ho : fr.owned = false) (hs : step s o = .ok s') :
    ∃ fr', s'.frames t = some fr' ∧ fr'.phase = .final ∧ fr'.owned = false := by
  have hnh : ∀ v ∈ s.vars, v.handle ≠ some t := by
    intro v hv hvt
    obtain ⟨fr', h1, h2⟩ := held_none s hi v hv t hvt
    rw [ht] at h1; cases h1
    rw [ho] at h2; cases h2
  have hevo : Evo s s' → s'.frames t = some fr := by
    intro he
    rcases he.frames t with h1 | ⟨_, v, h1, h2⟩
    · rw [h1]; exact ht
    · exact absurd h2 (hnh v h1)
  cases o with
  | declare x o => exact ⟨fr, hevo (plain_evo s _ s' (by trivial) hs), hp, ho⟩
  | moveCtor x o y => exact ⟨fr, hevo (plain_evo s _ s' (by trivial) hs), hp, ho⟩
  | moveAssign x y => exact ⟨fr, hevo (plain_evo s _ s' (by trivial) hs), hp, ho⟩
  | free x => exact ⟨fr, hevo (plain_evo s _ s' (by trivial) hs), hp, ho⟩
  | drop x => exact ⟨fr, hevo (plain_evo s _ s' (by trivial) hs), hp, ho⟩
  | start k x o =>
    obtain ⟨h1, h2, h3, h4, h5⟩ := start_spec s k x o s' hs
    have := hi.bound t fr ht
    exact ⟨fr, by rw [h2 t (by omega)]; exact ht, hp, ho⟩
  | release x =>
    obtain ⟨h1, h2, h3⟩ := release_spec s x s' hs
    rcases h3 with rfl | ⟨v, hv, hvx, f, fr', hvf, hfr, _, h4, h5, h6⟩
    · exact ⟨fr, ht, hp, ho⟩
    · have e : t ≠ f := by rintro rfl; exact hnh v hv hvf
      exact ⟨fr, by rw [h5 t e]; exact ht, hp, ho⟩
  | suspend c =>
    obtain ⟨cr, h1, h2, rfl⟩ := suspend_spec s c s' hs
    have e : t ≠ c := by rintro rfl; rw [ht] at h1; cases h1; rw [hp] at h2; cases h2
    exact ⟨fr, by simp only [setFrame, if_neg e]; exact ht, hp, ho⟩
  | resume c =>
    obtain ⟨cr, h1, h2, rfl⟩ := resume_spec s c s' hs
    have e : t ≠ c := by rintro rfl; rw [ht] at h1; cases h1; rw [hp] at h2; cases h2
    exact ⟨fr, by simp only [setFrame, if_neg e]; exact ht, hp, ho⟩
  | await c x =>
    obtain ⟨cr, v, u, tr, hc, hpc, hv, hvx, hvt, hu, haw, h1⟩ := await_spec s c x s' hs
    have e : t ≠ u := by rintro rfl; exact hnh v hv hvt
    have e2 : t ≠ c := by rintro rfl; rw [ht] at hc; cases hc; rw [hp] at hpc; cases hpc
    rcases h1 with ⟨h1, h2⟩ | ⟨h1, h2, h3, h4, h5, h6, h7⟩
    · obtain ⟨_, h3, h4⟩ := deliver_spec s c u tr.kind s' h2
      rcases h4 with ⟨_, h4, _⟩ | ⟨_, fr', r, h5, _, _, h6, h7⟩
      · exact ⟨fr, by rw [h4]; exact ht, hp, ho⟩
      · exact ⟨fr, by rw [h6 t e]; exact ht, hp, ho⟩
    · exact ⟨fr, by rw [h5 t e2 e]; exact ht, hp, ho⟩
  | finish c r =>
    rcases finish_cases s c r with ⟨e, he⟩ | ⟨cr, hc, hpc, hv, ha⟩
    · rw [he] at hs; cases hs
    obtain ⟨S, h1, h2, h3, h4, h5, h6, h7, h8⟩ := finish_spec s c cr r hi hc hpc hv ha
    rw [h1] at hs; cases hs
    have e2 : t ≠ c := by rintro rfl; rw [ht] at hc; cases hc; rw [hp] at hpc; cases hpc
    have e3 : cr.awaiting ≠ some t := by
      intro ea
      obtain ⟨_, ar, h9, h10, h11⟩ := h5 t ea
      rw [ht] at h9; cases h9; rw [hp] at h10; cases h10
    exact ⟨fr, by rw [h4 t e2 e3]; exact ht, hp, ho⟩

end Verif.Coro
