import Verif.Coro.Spec

namespace Verif.Coro

/-- The frames held by variables, not counting the variable `ex`. -/
def held (vs : List Var) (ex : Option Nat) : List Nat := (vs.filter (fun v => some v.name != ex)).filterMap (·.handle)

theorem mem_held (vs : List Var) (ex : Option Nat) (f : Nat) :
    f ∈ held vs ex ↔ ∃ v ∈ vs, some v.name ≠ ex ∧ v.handle = some f := by
  simp only [held, List.mem_filterMap, List.mem_filter, bne_iff_ne]
  constructor
  · rintro ⟨v, ⟨h1, h2⟩, h3⟩; exact ⟨v, h1, h2, h3⟩
  · rintro ⟨v, h1, h2, h3⟩; exact ⟨v, ⟨h1, h2⟩, h3⟩

/-- Invariant; `wl` are the frames still to be destroyed, `ex` the variable whose `free` is going on. -/
structure Inv (s : State) (wl : List Nat) (ex : Option Nat) : Prop where
  bound : ∀ f fr, s.frames f = some fr → f < s.next
  names : (s.vars.map (·.name)).Nodup
  nodup : (wl ++ held s.vars ex).Nodup
  alive : ∀ f ∈ wl ++ held s.vars ex, ∃ fr, s.frames f = some fr
  owned : ∀ f fr, f ∈ held s.vars ex → s.frames f = some fr → fr.owned = true
  owners : ∀ v ∈ s.vars, ∀ c, v.owner = some c → ∃ fr, s.frames c = some fr ∧ fr.phase ≠ .final
  awaited : ∀ t tr c, s.frames t = some tr → tr.awaiting = some c → tr.phase ≠ .final →
    (∃ cr, s.frames c = some cr ∧ cr.phase = .waiting t) ∨ t ∈ wl
  waits : ∀ c cr t, s.frames c = some cr → cr.phase = .waiting t →
    (∃ tr, s.frames t = some tr ∧ tr.awaiting = some c ∧ tr.phase ≠ .final) ∧
    ∃ v ∈ s.vars, some v.name ≠ ex ∧ v.owner = some c ∧ v.handle = some t
  results : ∀ f fr, s.frames f = some fr → (fr.phase = .final → fr.result ≠ none)
  process : ∀ f fr, s.frames f = some fr → fr.kind = .process → fr.owned = true
  log : ∀ f, s.log.count (.destroyed f) = if f < s.next ∧ (s.frames f).isNone = true then 1 else 0
  exempt : ∀ x, ex = some x → ∃ v ∈ s.vars, v.name = x ∧
    (v.owner = none ∨ ∃ c fr, v.owner = some c ∧ s.frames c = some fr ∧ fr.phase = .running)

theorem count_destroyed (l : List Event) (e : Event) (f : Nat) (h : ∀ g, e ≠ .destroyed g) :
    (e :: l).count (.destroyed f) = l.count (.destroyed f) := by
  rw [List.count_cons]
  have : (e == Event.destroyed f) = false := by simpa using h f
  simp [this]

theorem name_inj (vs : List Var) (hn : (vs.map (·.name)).Nodup) (v w : Var) (hv : v ∈ vs) (hw : w ∈ vs)
    (e : v.name = w.name) : v = w := by
  induction vs with
  | nil => cases hv
  | cons a m ih =>
    rw [List.map_cons, List.nodup_cons] at hn
    rcases List.mem_cons.1 hv with rfl | hv' <;> rcases List.mem_cons.1 hw with rfl | hw'
    · rfl
    · exact absurd (List.mem_map.2 ⟨w, hw', e.symm⟩) hn.1
    · exact absurd (List.mem_map.2 ⟨v, hv', e⟩) hn.1
    · exact ih hn.2 hv' hw'

theorem lookup_mem (s : State) (x : Nat) (v : Var) (h : lookup s x = some v) : v ∈ s.vars ∧ v.name = x := by
  refine ⟨List.mem_of_find?_eq_some h, ?_⟩
  have := List.find?_some h
  simpa using this

theorem lookup_none (s : State) (x : Nat) (h : lookup s x = none) : ∀ v ∈ s.vars, v.name ≠ x := by
  intro v hv e
  have := List.find?_eq_none.1 h v hv
  simp [e] at this

theorem lookup_of_mem (s : State) (x : Nat) (v : Var) (hv : v ∈ s.vars) (hx : v.name = x) : ∃ w, lookup s x = some w := by
  cases h : lookup s x with
  | none => exact absurd hx (lookup_none s x h v hv)
  | some w => exact ⟨w, rfl⟩

/-- The variables of a coroutine hold what they hold, the others the rest. -/
theorem held_perm (vs : List Var) (f : Nat) (ex : Option Nat) (hex : ∀ v ∈ vs, v.owner = some f → some v.name ≠ ex) :
    ((vs.filter (fun v => v.owner == some f)).filterMap (·.handle) ++ held (vs.filter (fun v => v.owner != some f)) ex).Perm
      (held vs ex) := by
  induction vs with
  | nil => exact List.Perm.nil
  | cons a vs ih =>
    have ih := ih (fun v hv => hex v (List.mem_cons_of_mem _ hv))
    unfold held at ih ⊢
    by_cases ho : a.owner = some f
    · have hx := hex a List.mem_cons_self ho
      have h1 : (a.owner == some f) = true := by simpa using ho
      have h2 : (a.owner != some f) = false := by simp [ho]
      have h3 : (some a.name != ex) = true := by simpa using hx
      simp only [List.filter_cons, h1, h2, h3, if_true, Bool.false_eq_true, if_false]
      cases hh : a.handle with
      | none => simp only [List.filterMap_cons, hh]; exact ih
      | some g => simp only [List.filterMap_cons, hh, List.cons_append]; exact ih.cons g
    · have h1 : (a.owner == some f) = false := by simpa using ho
      have h2 : (a.owner != some f) = true := by simpa using ho
      simp only [List.filter_cons, h1, h2, if_true, Bool.false_eq_true, if_false]
      by_cases hx : some a.name = ex
      · have h3 : (some a.name != ex) = false := by simp [hx]
        simp only [h3, Bool.false_eq_true, if_false]
        exact ih
      · have h3 : (some a.name != ex) = true := by simpa using hx
        simp only [h3, if_true]
        cases hh : a.handle with
        | none => simp only [List.filterMap_cons, hh]; exact ih
        | some g =>
          simp only [List.filterMap_cons, hh]
          exact List.perm_middle.trans (ih.cons g)

/-- One step of `destroy`. -/
theorem destroy_one (s : State) (f : Nat) (fs : List Nat) (ex : Option Nat) (fr : Frame) (h : Inv s (f :: fs) ex)
    (hf : s.frames f = some fr) (hp : fr.phase ≠ .running) :
    Inv { setFrame s f none with vars := s.vars.filter (fun v => v.owner != some f), log := .destroyed f :: s.log }
      (locals s f ++ fs) ex := by
  obtain ⟨hbound, hnames, hnodup, halive, howned, howners, hawaited, hwaits, hresults, hprocess, hlog, hexempt⟩ := h
  have hex : ∀ v ∈ s.vars, v.owner = some f → some v.name ≠ ex := by
    intro v hv ho hx
    obtain ⟨w, hw, hwn, hwo⟩ := hexempt v.name hx.symm
    have hvw := name_inj s.vars hnames w v hw hv hwn
    subst hvw
    rcases hwo with h0 | ⟨c, cr, h1, h2, h3⟩
    · rw [ho] at h0; cases h0
    · rw [ho] at h1; cases h1
      rw [hf] at h2; cases h2
      exact hp h3
  have hperm := held_perm s.vars f ex hex
  have hperm2 : (f :: (locals s f ++ fs ++ held (s.vars.filter (fun v => v.owner != some f)) ex)).Perm
      (f :: fs ++ held s.vars ex) := by
    rw [List.cons_append]
    refine List.Perm.cons f ?_
    refine List.Perm.trans ?_ (hperm.append_left fs)
    rw [← List.append_assoc]
    exact (List.perm_append_comm).append_right _
  have hnd : (f :: (locals s f ++ fs ++ held (s.vars.filter (fun v => v.owner != some f)) ex)).Nodup :=
    hperm2.nodup_iff.2 hnodup
  rw [List.nodup_cons] at hnd
  have hsub : ∀ g, g ∈ held (s.vars.filter (fun v => v.owner != some f)) ex → g ∈ held s.vars ex := by
    intro g hg
    exact hperm.mem_iff.1 (List.mem_append_right _ hg)
  have hne : ∀ g, g ∈ locals s f ++ fs ++ held (s.vars.filter (fun v => v.owner != some f)) ex → g ≠ f := by
    rintro g hg rfl; exact hnd.1 hg
  have hframe : ∀ g fr', (setFrame s f none).frames g = some fr' → g ≠ f ∧ s.frames g = some fr' := by
    intro g fr' hg
    simp only [setFrame] at hg
    split at hg
    · cases hg
    · rename_i hgf; exact ⟨hgf, hg⟩
  have hframe' : ∀ g fr', g ≠ f → s.frames g = some fr' → (setFrame s f none).frames g = some fr' := by
    intro g fr' hgf hg
    simp only [setFrame]
    rw [if_neg hgf]; exact hg
  refine ⟨?_, ?_, hnd.2, ?_, ?_, ?_, ?_, ?_, ?_, ?_, ?_, ?_⟩
  · intro g fr' hg; exact hbound g fr' (hframe g fr' hg).2
  · exact hnames.sublist ((List.filter_sublist).map _)
  · intro g hg
    have h1 := hperm2.mem_iff.1 (List.mem_cons_of_mem f hg)
    obtain ⟨fr', h2⟩ := halive g h1
    exact ⟨fr', hframe' g fr' (hne g hg) h2⟩
  · intro g fr' hg hfr
    exact howned g fr' (hsub g hg) (hframe g fr' hfr).2
  · intro v hv c hc
    have hv' := List.mem_filter.1 hv
    obtain ⟨fr', h1, h2⟩ := howners v hv'.1 c hc
    refine ⟨fr', hframe' c fr' ?_ h1, h2⟩
    rintro rfl
    simp [hc] at hv'
  · intro t tr c ht hc hph
    obtain ⟨h1, h2⟩ := hframe t tr ht
    rcases hawaited t tr c h2 hc hph with ⟨cr, h3, h4⟩ | h3
    · by_cases hcf : c = f
      · subst hcf
        right
        obtain ⟨_, v, hv, _, hvo, hvh⟩ := hwaits c cr t h3 h4
        refine List.mem_append_left _ ?_
        simp only [locals, List.mem_filterMap, List.mem_filter, beq_iff_eq]
        exact ⟨v, ⟨hv, hvo⟩, hvh⟩
      · exact .inl ⟨cr, hframe' c cr hcf h3, h4⟩
    · rcases List.mem_cons.1 h3 with h3 | h3
      · exact absurd h3 h1
      · exact .inr (List.mem_append_right _ h3)
  · intro c cr t hc hph
    obtain ⟨h1, h2⟩ := hframe c cr hc
    obtain ⟨⟨tr, h3, h4, h5⟩, v, hv, hvx, hvo, hvh⟩ := hwaits c cr t h2 hph
    have hvm : v ∈ s.vars.filter (fun v => v.owner != some f) := by
      rw [List.mem_filter]
      refine ⟨hv, ?_⟩
      rw [hvo]
      simp only [bne_iff_ne, ne_eq, Option.some.injEq]
      exact h1
    have htf : t ≠ f := hne t (List.mem_append_right _ ((mem_held _ _ _).2 ⟨v, hvm, hvx, hvh⟩))
    exact ⟨⟨tr, hframe' t tr htf h3, h4, h5⟩, v, hvm, hvx, hvo, hvh⟩
  · intro g fr' hg; exact hresults g fr' (hframe g fr' hg).2
  · intro g fr' hg; exact hprocess g fr' (hframe g fr' hg).2
  · intro g
    show (Event.destroyed f :: s.log).count (.destroyed g) = _
    rw [List.count_cons, hlog g]
    by_cases e : g = f
    · subst e
      have hb := hbound g fr hf
      simp [setFrame, hf, hb]
    · have e' : (Event.destroyed f == Event.destroyed g) = false := by
        simp only [beq_eq_false_iff_ne, ne_eq, Event.destroyed.injEq]
        exact fun h => e h.symm
      simp [setFrame, e, e']
  · intro x hx
    obtain ⟨v, hv, hvn, hvo⟩ := hexempt x hx
    refine ⟨v, ?_, hvn, ?_⟩
    · rw [List.mem_filter]
      refine ⟨hv, ?_⟩
      simp only [bne_iff_ne, ne_eq]
      intro ho
      exact hex v hv ho (by rw [hvn, hx])
    · rcases hvo with h0 | ⟨c, cr, h1, h2, h3⟩
      · exact .inl h0
      · refine .inr ⟨c, cr, h1, hframe' c cr ?_ h2, h3⟩
        rintro rfl
        rw [hf] at h2; cases h2
        exact hp h3

/-- `destroy` keeps the invariant; running coroutines are left alone, nothing is added; there is no other error than
destroying a running coroutine. -/
theorem destroy_inv (n : Nat) (s : State) (wl : List Nat) (ex : Option Nat) (h : Inv s wl ex)
    (hn : ∃ A : List Nat, A.Nodup ∧ A.length ≤ n ∧ ∀ f fr, s.frames f = some fr → f ∈ A) :
    (∃ s', destroy n s wl = .ok s' ∧ Inv s' [] ex ∧ s'.next = s.next ∧
      (∀ f fr, s'.frames f = some fr → s.frames f = some fr) ∧
      (∀ f fr, s.frames f = some fr → fr.phase = .running → s'.frames f = some fr) ∧
      (∀ v, v ∈ s'.vars ↔ v ∈ s.vars ∧ ∀ c, v.owner = some c → s'.frames c ≠ none) ∧
      (∀ f ∈ wl, s'.frames f = none)) ∨
    destroy n s wl = .throw (.user 1) := by
  induction n generalizing s wl with
  | zero =>
    cases wl with
    | nil =>
      refine .inl ⟨s, rfl, h, rfl, fun _ _ h => h, fun _ _ h _ => h, ?_, by simp⟩
      intro v
      refine ⟨fun hv => ⟨hv, ?_⟩, fun hv => hv.1⟩
      intro c hc
      obtain ⟨fr, h1, _⟩ := h.owners v hv c hc
      rw [h1]; simp
    | cons f fs =>
      obtain ⟨A, _, h2, h3⟩ := hn
      obtain ⟨fr, hf⟩ := h.alive f (by simp)
      have := h3 f fr hf
      cases A with
      | nil => cases this
      | cons => simp at h2
  | succ n ih =>
    cases wl with
    | nil =>
      refine .inl ⟨s, rfl, h, rfl, fun _ _ h => h, fun _ _ h _ => h, ?_, by simp⟩
      intro v
      refine ⟨fun hv => ⟨hv, ?_⟩, fun hv => hv.1⟩
      intro c hc
      obtain ⟨fr, h1, _⟩ := h.owners v hv c hc
      rw [h1]; simp
    | cons f fs =>
      obtain ⟨fr, hf⟩ := h.alive f (by simp)
      simp only [destroy, hf]
      by_cases hp : fr.phase = .running
      · right; rw [if_pos hp]
      · rw [if_neg hp]
        have h1 := destroy_one s f fs ex fr h hf hp
        obtain ⟨A, hA, hl, hall⟩ := hn
        have hfa := hall f fr hf
        have hA' : ∃ A : List Nat, A.Nodup ∧ A.length ≤ n ∧ ∀ g fr',
            ({ setFrame s f none with vars := s.vars.filter (fun v => v.owner != some f), log := .destroyed f :: s.log } :
              State).frames g = some fr' → g ∈ A := by
          refine ⟨A.erase f, hA.erase f, ?_, ?_⟩
          · have h2 := List.length_erase_of_mem hfa; omega
          · intro g fr' hg
            simp only [setFrame] at hg
            split at hg
            · cases hg
            · rename_i hgf; exact (List.mem_erase_of_ne hgf).2 (hall g fr' hg)
        rcases ih _ _ h1 hA' with ⟨s', hs', hi', hn', hsub, hrun, hvars, hwl⟩ | hs'
        · left
          have hsub' : ∀ g fr', s'.frames g = some fr' → g ≠ f ∧ s.frames g = some fr' := by
            intro g fr' hg
            have := hsub g fr' hg
            simp only [setFrame] at this
            split at this
            · cases this
            · rename_i hgf; exact ⟨hgf, this⟩
          refine ⟨s', hs', hi', hn', fun g fr' hg => (hsub' g fr' hg).2, ?_, ?_, ?_⟩
          · intro g fr' hg hr
            refine hrun g fr' ?_ hr
            simp only [setFrame]
            rw [if_neg]
            · exact hg
            · rintro rfl
              rw [hf] at hg; cases hg
              exact hp hr
          · intro v
            rw [hvars]
            show v ∈ s.vars.filter (fun v => v.owner != some f) ∧ _ ↔ _
            rw [List.mem_filter]
            constructor
            · rintro ⟨⟨h2, _⟩, h3⟩; exact ⟨h2, h3⟩
            · rintro ⟨h2, h3⟩
              refine ⟨⟨h2, ?_⟩, h3⟩
              simp only [bne_iff_ne, ne_eq]
              intro ho
              have := h3 f ho
              cases hg : s'.frames f with
              | none => exact this hg
              | some fr' => exact (hsub' f fr' hg).1 rfl
          · intro g hg
            cases hgf : s'.frames g with
            | none => rfl
            | some fr' =>
              obtain ⟨h2, _⟩ := hsub' g fr' hgf
              rcases List.mem_cons.1 hg with h3 | h3
              · exact absurd h3 h2
              · rw [hwl g (List.mem_append_right _ h3)] at hgf; cases hgf
        · exact .inr hs'

end Verif.Coro
