import Verif.Coro.Main

namespace Verif.Coro

/-- What destroying frames changes. -/
structure Evo (s s' : State) : Prop where
  next : s'.next = s.next
  frames : ∀ g, s'.frames g = s.frames g ∨ s'.frames g = none ∧ ∃ v ∈ s.vars, v.handle = some g
  log : ∃ ds : List Nat, s'.log = ds.map Event.destroyed ++ s.log

theorem destroy_evo (n : Nat) (s : State) (wl : List Nat) (s' : State) (h : destroy n s wl = .ok s') :
    s'.next = s.next ∧
    (∀ g, s'.frames g = s.frames g ∨ s'.frames g = none ∧ (g ∈ wl ∨ ∃ v ∈ s.vars, v.handle = some g)) ∧
    (∃ ds : List Nat, s'.log = ds.map Event.destroyed ++ s.log) ∧
    (∀ v ∈ s'.vars, v ∈ s.vars) ∧
    (∀ v ∈ s.vars, v ∈ s'.vars ∨ ∀ g, v.handle = some g → s'.frames g = none) ∧
    (∀ g ∈ wl, s'.frames g = none) := by
  induction n generalizing s wl with
  | zero =>
    cases wl with
    | nil =>
      rw [destroy] at h; cases h
      exact ⟨rfl, fun g => .inl rfl, ⟨[], rfl⟩, fun v hv => hv, fun v hv => .inl hv, by simp⟩
    | cons f fs => rw [destroy] at h; cases h
  | succ n ih =>
    cases wl with
    | nil =>
      rw [destroy] at h; cases h
      exact ⟨rfl, fun g => .inl rfl, ⟨[], rfl⟩, fun v hv => hv, fun v hv => .inl hv, by simp⟩
    | cons f fs =>
      rw [destroy] at h
      cases hf : s.frames f with
      | none => rw [hf] at h; cases h
      | some fr =>
        rw [hf] at h
        simp only [] at h
        split at h
        · cases h
        · obtain ⟨h1, h2, ⟨ds, h3⟩, h4, h5, h6⟩ := ih _ _ h
          refine ⟨h1, ?_, ⟨ds ++ [f], by rw [h3]; simp⟩, ?_, ?_, ?_⟩
          · intro g
            by_cases e : g = f
            · subst e
              rcases h2 g with h7 | ⟨h7, _⟩
              · exact .inr ⟨by rw [h7]; simp [setFrame], .inl (by simp)⟩
              · exact .inr ⟨h7, .inl (by simp)⟩
            · rcases h2 g with h7 | ⟨h7, h8⟩
              · refine .inl ?_
                rw [h7]; simp [setFrame, e]
              · refine .inr ⟨h7, ?_⟩
                rcases h8 with h8 | ⟨v, hv, h8⟩
                · rcases List.mem_append.1 h8 with h8 | h8
                  · right
                    obtain ⟨v, hv, h9⟩ := List.mem_filterMap.1 h8
                    exact ⟨v, (List.mem_filter.1 hv).1, h9⟩
                  · exact .inl (by simp [h8])
                · exact .inr ⟨v, (List.mem_filter.1 hv).1, h8⟩
          · intro v hv
            exact (List.mem_filter.1 (h4 v hv)).1
          · intro v hv
            by_cases e : v.owner = some f
            · right
              intro g hg
              refine h6 g (List.mem_append_left _ ?_)
              exact List.mem_filterMap.2 ⟨v, List.mem_filter.2 ⟨hv, by simp [e]⟩, hg⟩
            · exact h5 v (List.mem_filter.2 ⟨hv, by simp [e]⟩)
          · intro g hg
            rcases List.mem_cons.1 hg with rfl | hg
            · rcases h2 g with h7 | ⟨h7, _⟩
              · rw [h7]; simp [setFrame]
              · exact h7
            · exact h6 g (List.mem_append_right _ hg)

theorem free_frames (s : State) (x : Nat) (s' : State) (h : free s x = .ok s') : Evo s s' := by
  unfold free at h
  cases hl : lookup s x with
  | none => rw [hl] at h; cases h
  | some v =>
    obtain ⟨hv, hvx⟩ := lookup_mem s x v hl
    rw [hl] at h
    simp only [] at h
    cases hh : v.handle with
    | none =>
      rw [hh] at h; cases h
      exact ⟨rfl, fun g => .inl rfl, ⟨[], rfl⟩⟩
    | some f =>
      rw [hh] at h
      simp only [Res.bind_eq_ok] at h
      obtain ⟨s1, h1, h2⟩ := h
      obtain ⟨h3, h4, h5, h6, h7, h8⟩ := destroy_evo _ _ _ _ h1
      split at h2
      · cases h2
      · cases h2
        refine ⟨h3, ?_, h5⟩
        intro g
        rcases h4 g with h9 | ⟨h9, h10⟩
        · exact .inl h9
        · refine .inr ⟨h9, ?_⟩
          rcases h10 with h10 | h10
          · simp only [List.mem_singleton] at h10
            exact ⟨v, hv, by rw [hh, h10]⟩
          · exact h10

theorem free_left (s : State) (x : Nat) (s' : State) (hi : Inv s [] none) (h : free s x = .ok s') :
    (∀ v ∈ s.vars, ∀ g, v.handle = some g → (∃ w ∈ s'.vars, w.name ≠ x ∧ w.handle = some g) ∨ s'.frames g = none) ∧
    (∀ v ∈ s'.vars, v.name = x → v.handle = none) ∧ (∃ v ∈ s'.vars, v.name = x) := by
  unfold free at h
  cases hl : lookup s x with
  | none => rw [hl] at h; cases h
  | some v =>
    obtain ⟨hv, hvx⟩ := lookup_mem s x v hl
    rw [hl] at h
    simp only [] at h
    cases hh : v.handle with
    | none =>
      rw [hh] at h; cases h
      refine ⟨?_, ?_, ?_⟩
      · intro w hw g hg
        refine .inl ⟨w, hw, ?_, hg⟩
        intro e
        rw [name_inj _ hi.names w v hw hv (e.trans hvx.symm), hh] at hg
        cases hg
      · intro w hw hwx
        rw [name_inj _ hi.names w v hw hv (hwx.trans hvx.symm)]; exact hh
      · exact ⟨v, hv, hvx⟩
    | some f =>
      rw [hh] at h
      simp only [Res.bind_eq_ok] at h
      obtain ⟨s1, h1, h2⟩ := h
      obtain ⟨h3, h4, h5, h6, h7, h8⟩ := destroy_evo _ _ _ _ h1
      split at h2
      · cases h2
      · rename_i u hu
        cases h2
        refine ⟨?_, ?_, ?_⟩
        · intro w hw g hg
          rcases h7 w hw with h9 | h9
          · by_cases e : w.name = x
            · rw [name_inj _ hi.names w v hw hv (e.trans hvx.symm), hh] at hg
              cases hg
              exact .inr (h8 f (by simp))
            · exact .inl ⟨w, (mem_setHandle s1 x none w).2 ⟨w, h9, by rw [if_neg e]⟩, e, hg⟩
          · exact .inr (h9 g hg)
        · intro w hw hwx
          obtain ⟨w', hw', h9⟩ := (mem_setHandle s1 x none w).1 hw
          by_cases e : w'.name = x
          · rw [if_pos e] at h9; rw [h9]
          · rw [if_neg e] at h9; subst h9; exact absurd hwx e
        · obtain ⟨hu1, hu2⟩ := lookup_mem s1 x u hu
          exact ⟨{ u with handle := none }, (mem_setHandle s1 x none _).2 ⟨u, hu1, by rw [if_pos hu2]⟩, hu2⟩

/-- The operations that only move and destroy. -/
def Plain : Op → Prop
  | .declare _ _ => True
  | .moveCtor _ _ _ => True
  | .moveAssign _ _ => True
  | .free _ => True
  | .drop _ => True
  | _ => False

theorem plain_evo (s : State) (o : Op) (s' : State) (hp : Plain o) (h : step s o = .ok s') : Evo s s' := by
  cases o with
  | declare x o =>
    simp only [step] at h
    split at h
    · cases h
    · cases h; exact ⟨rfl, fun g => .inl rfl, ⟨[], rfl⟩⟩
  | moveCtor x o y =>
    simp only [step] at h
    split at h
    · cases h
    · split at h
      · cases h
      · cases h; exact ⟨rfl, fun g => .inl rfl, ⟨[], rfl⟩⟩
  | moveAssign x y =>
    simp only [step] at h
    split at h
    · cases h
    · simp only [Res.bind_eq_ok] at h
      obtain ⟨s1, h1, h2⟩ := h
      have h3 := free_frames s x s1 h1
      split at h2
      · cases h2
      · cases h2; exact ⟨h3.next, h3.frames, h3.log⟩
  | free x => exact free_frames s x s' h
  | drop x =>
    simp only [step, Res.bind_eq_ok] at h
    obtain ⟨s1, h1, h2⟩ := h
    have h3 := free_frames s x s1 h1
    cases h2
    exact ⟨h3.next, h3.frames, h3.log⟩
  | start k x o => exact hp.elim
  | release x => exact hp.elim
  | await c x => exact hp.elim
  | suspend c => exact hp.elim
  | resume c => exact hp.elim
  | finish c r => exact hp.elim

theorem start_spec (s : State) (k : Kind) (x : Nat) (o : Option Nat) (s' : State) (h : step s (.start k x o) = .ok s') :
    s'.next = s.next + 1 ∧ (∀ g, g ≠ s.next → s'.frames g = s.frames g) ∧
    s'.frames s.next = some ⟨k, .running, none, true, none⟩ ∧ s'.log = s.log ∧ s'.vars = ⟨x, o, some s.next⟩ :: s.vars := by
  simp only [step] at h
  split at h
  · cases h
  · cases h
    exact ⟨rfl, fun g hg => by simp [setFrame, hg], by simp [setFrame], rfl, rfl⟩

theorem release_spec (s : State) (x : Nat) (s' : State) (h : step s (.release x) = .ok s') :
    s'.next = s.next ∧ s'.log = s.log ∧
    (s' = s ∨ ∃ v ∈ s.vars, v.name = x ∧ ∃ f fr, v.handle = some f ∧ s.frames f = some fr ∧ fr.kind = .update ∧
      s'.frames f = some { fr with owned := false } ∧ (∀ g, g ≠ f → s'.frames g = s.frames g) ∧
      s'.vars = (setHandle s x none).vars) := by
  simp only [step] at h
  split at h
  · cases h
  · rename_i v hl
    obtain ⟨hv, hvx⟩ := lookup_mem s x v hl
    split at h
    · cases h; exact ⟨rfl, rfl, .inl rfl⟩
    · rename_i f hf
      split at h
      · cases h
      · rename_i fr hfr
        split at h
        · rename_i hk
          cases h
          refine ⟨rfl, rfl, .inr ⟨v, hv, hvx, f, fr, hf, hfr, hk, ?_, ?_, rfl⟩⟩
          · simp [setHandle, setFrame]
          · intro g hg; simp [setHandle, setFrame, hg]
        · cases h

theorem suspend_spec (s : State) (c : Nat) (s' : State) (h : step s (.suspend c) = .ok s') :
    ∃ fr, s.frames c = some fr ∧ fr.phase = .running ∧ s' = setFrame s c (some { fr with phase := .suspended }) := by
  simp only [step] at h
  split at h
  · cases h
  · rename_i fr hfr
    split at h
    · rename_i hp; cases h; exact ⟨fr, hfr, hp, rfl⟩
    · cases h

theorem resume_spec (s : State) (c : Nat) (s' : State) (h : step s (.resume c) = .ok s') :
    ∃ fr, s.frames c = some fr ∧ fr.phase = .suspended ∧ s' = setFrame s c (some { fr with phase := .running }) := by
  simp only [step] at h
  split at h
  · cases h
  · rename_i fr hfr
    split at h
    · rename_i hp; cases h; exact ⟨fr, hfr, hp, rfl⟩
    · cases h

/-- Reading the result. -/
theorem deliver_spec (s : State) (c t : Nat) (k : Kind) (s' : State) (h : deliver s c t k = .ok s') :
    s'.next = s.next ∧ s'.vars = s.vars ∧
    ((k = .update ∧ s'.frames = s.frames ∧ s'.log = .got c t .unit :: s.log) ∨
     (k = .process ∧ ∃ fr r, s.frames t = some fr ∧ fr.result = some r ∧ s'.log = .got c t r :: s.log ∧
       (∀ g, g ≠ t → s'.frames g = s.frames g) ∧
       ((∃ v, r = .value v) ∧ s'.frames t = some { fr with result := some .moved } ∨
        (∀ v, r ≠ .value v) ∧ s'.frames t = some fr))) := by
  unfold deliver at h
  cases k with
  | update => simp only [] at h; cases h; exact ⟨rfl, rfl, .inl ⟨rfl, rfl, rfl⟩⟩
  | process =>
    simp only [] at h
    split at h
    · cases h
    · rename_i fr hfr
      split at h
      · cases h
      · rename_i v hv
        cases h
        refine ⟨rfl, rfl, .inr ⟨rfl, fr, _, hfr, hv, rfl, ?_, .inl ⟨⟨v, rfl⟩, ?_⟩⟩⟩
        · intro g hg; simp [setFrame, hg]
        · simp [setFrame]
      · rename_i r hne hr
        cases h
        exact ⟨rfl, rfl, .inr ⟨rfl, fr, r, hfr, hr, rfl, fun _ _ => rfl, .inr ⟨fun v e => hne v e, hfr⟩⟩⟩

theorem await_spec (s : State) (c x : Nat) (s' : State) (h : step s (.await c x) = .ok s') :
    ∃ cr v t tr, s.frames c = some cr ∧ cr.phase = .running ∧ v ∈ s.vars ∧ v.name = x ∧ v.handle = some t ∧
      s.frames t = some tr ∧ tr.awaiting = none ∧
      ((tr.phase = .final ∧ deliver s c t tr.kind = .ok s') ∨
       (tr.phase ≠ .final ∧ s'.next = s.next ∧ s'.vars = s.vars ∧ s'.log = s.log ∧
        (∀ g, g ≠ c → g ≠ t → s'.frames g = s.frames g) ∧
        (c ≠ t → s'.frames t = some { tr with awaiting := some c } ∧ s'.frames c = some { cr with phase := .waiting t }) ∧
        (c = t → s'.frames c = some { cr with awaiting := some c, phase := .waiting t }))) := by
  simp only [step] at h
  split at h
  · cases h
  rename_i cr hc
  split at h
  · cases h
  rename_i hp
  have hp : cr.phase = .running := Classical.byContradiction hp
  split at h
  · cases h
  rename_i v hl
  obtain ⟨hv, hvx⟩ := lookup_mem s x v hl
  split at h
  · cases h
  rename_i t ht
  split at h
  · cases h
  rename_i tr htr
  split at h
  · cases h
  rename_i haw
  have haw : tr.awaiting = none := by simpa using haw
  split at h
  · rename_i hfin
    exact ⟨cr, v, t, tr, hc, hp, hv, hvx, ht, htr, haw, .inl ⟨hfin, h⟩⟩
  · rename_i hfin
    refine ⟨cr, v, t, tr, hc, hp, hv, hvx, ht, htr, haw, .inr ⟨hfin, ?_⟩⟩
    by_cases e : c = t
    · subst e
      rw [hc] at htr; cases htr
      simp only [setFrame, if_pos] at h
      cases h
      refine ⟨rfl, rfl, rfl, ?_, fun e => absurd rfl e, ?_⟩
      · intro g h1 _; simp [h1]
      · simp
    · simp only [setFrame, if_neg e, hc] at h
      cases h
      refine ⟨rfl, rfl, rfl, ?_, ?_, fun e' => absurd e' e⟩
      · intro g h1 h2; simp [h1, h2]
      · intro _
        refine ⟨?_, ?_⟩
        · have : t ≠ c := fun h => e h.symm
          simp [this]
        · simp

end Verif.Coro
