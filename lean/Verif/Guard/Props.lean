import Verif.Guard.Lemmas

/-! # Scope guards (C46) and owning pointers (C90) -/

namespace Verif.Guard

/-- C46, C90, the specification: every item handed to an owner is owned, was discharged or was given up, once for every
time it was handed over. -/
theorem c46_ideal_exactly_once (ops : List Op) (s : Ideal) (a : Nat) : (s.run ops).total a = s.total a + created a ops := by
  induction ops generalizing s with
  | nil => simp [Ideal.run, created]
  | cons op ops ih =>
    show Ideal.total ((s.step op).run ops) a = _
    rw [ih]
    cases op with
    | create g b e =>
      cases e
      · simp [Ideal.step, created]
      · simp only [Ideal.step, if_true, total_take, created, and_true]; omega
    | release g => simp only [Ideal.step, total_giveUp, created]
    | moveCtor g h => simp only [Ideal.step, total_pass, created]
    | moveAssign g h =>
      by_cases e : g = h
      · simp [Ideal.step, created, e]
      · simp only [Ideal.step, if_neg e, total_pass, total_discharge, created]
    | destroy g => simp only [Ideal.step, total_discharge, created]

theorem c90_ideal_exactly_once (ops : List POp) (s : Ideal) (a : Nat) :
    (s.prun ops).total a = s.total a + pcreated a ops := by
  induction ops generalizing s with
  | nil => simp [Ideal.prun, pcreated]
  | cons op ops ih =>
    show Ideal.total ((s.pstep op).prun ops) a = _
    rw [ih]
    cases op with
    | make u p => simp only [Ideal.pstep, total_take, pcreated]; omega
    | reset u p => simp only [Ideal.pstep, total_take, total_discharge, pcreated]; omega
    | moveAssign u w =>
      by_cases e : u = w
      · simp [Ideal.pstep, pcreated, e]
      · simp only [Ideal.pstep, if_neg e, total_pass, total_discharge, pcreated]
    | moveCtor u w => simp only [Ideal.pstep, total_pass, pcreated]
    | clear u => simp only [Ideal.pstep, total_discharge, pcreated]
    | release u => simp only [Ideal.pstep, total_giveUp, pcreated]
    | destroy u => simp only [Ideal.pstep, total_discharge, pcreated]

/-! ## C46: scope guards -/

theorem careful_sim (k : Kind) (ops : List Op) {N : List Nat} {s : State} {i : Ideal} (h : Sim N s i) (hw : WF N ops)
    (hc : Careful i ops) : ∃ N' s', run k s ops = .ok s' ∧ Sim N' s' (i.run ops) := by
  induction ops generalizing N s i with
  | nil => exact ⟨N, s, rfl, h⟩
  | cons op ops ih =>
    have go : ∀ {N' : List Nat}, WF N' ops → Careful (i.step op) ops →
        (∃ s', step k s op = .ok s' ∧ Sim N' s' (i.step op)) →
        ∃ N' s', run k s (op :: ops) = .ok s' ∧ Sim N' s' (i.run (op :: ops)) := by
      rintro N' hw hc ⟨s', h1, h2⟩
      obtain ⟨N'', s'', h3, h4⟩ := ih h2 hw hc
      exact ⟨N'', s'', by rw [run, h1]; exact h3, h4⟩
    cases op with
    | create g a e => exact go hw.2 hc (sim_create h k hw.1 a e)
    | release g => exact go hw.2 hc (sim_release h k hw.1)
    | moveCtor g w =>
      obtain ⟨⟨a, ha⟩, hc⟩ := hc
      exact go hw.2.2 hc (sim_moveCtor h k hw.1 ha)
    | moveAssign g w => exact absurd hc id
    | destroy g => exact go hw.2 hc (sim_destroy h k hw.1)

/-- C46, partial: in every program that creates guards, engaged or not, releases them, moves engaged guards to new ones and
destroys guards, the actions run are exactly the ones, and in the order, that the specification says.  What is missing:
moves of guards that are not engaged, and move assignments; there the property does not hold (see below). -/
theorem c46_refines_partial (k : Kind) (ops : List Op) (hw : WF [] ops) (hc : Careful Ideal.init ops) :
    ∃ s, run k State.init ops = .ok s ∧ s.log = (Ideal.init.run ops).done := by
  obtain ⟨_, s, h1, h2⟩ := careful_sim k ops sim_init hw hc
  exact ⟨s, h1, h2.log⟩

/-- C46, partial: ... therefore, when all the guards are gone, an action has run exactly once for every engaged guard
created with it, unless the guard responsible for it was released. -/
theorem c46_exactly_once_partial (k : Kind) (ops : List Op) (hw : WF [] ops) (hc : Careful Ideal.init ops) (s : State)
    (hr : run k State.init ops = .ok s) (hgone : ∀ g, s.guards g = none) (a : Nat) :
    s.log.count a + (Ideal.init.run ops).freed.count a = created a ops := by
  obtain ⟨_, s', h1, h2⟩ := careful_sim k ops sim_init hw hc
  rw [hr] at h1; cases h1
  have h0 := c46_ideal_exactly_once ops Ideal.init a
  have hown : (Ideal.init.run ops).own = [] := by
    cases e : (Ideal.init.run ops).own with
    | nil => rfl
    | cons x l =>
      have := (h2.own x.1 x.2).1 (e ▸ List.mem_cons_self)
      rw [hgone] at this; cases this
  have hi : Ideal.init.total a = 0 := by simp [Ideal.total, Ideal.init]
  simp only [Ideal.total, hown, ← h2.log] at h0
  rw [show (Ideal.init.own.map (·.2)).count a + Ideal.init.done.count a + Ideal.init.freed.count a = 0 from hi] at h0
  simpa using h0

/-- A program: a guard passed on twice runs its action once, a released guard runs nothing, a guard made not engaged too. -/
def sample : List Op :=
  [.create 0 10 true, .create 1 11 true, .moveCtor 2 0, .release 1, .create 3 12 false, .moveCtor 4 2, .destroy 4,
    .destroy 3, .destroy 2, .destroy 1, .destroy 0]

example : WF [] sample ∧ Careful Ideal.init sample := by
  refine ⟨by simp [sample, WF], ?_⟩
  simp only [sample, Careful, Ideal.step, Ideal.init, Ideal.take, Ideal.pass, Ideal.giveUp, others, items]
  exact ⟨⟨10, by decide⟩, ⟨10, by decide⟩, trivial⟩

example : ∃ s, run .lambda State.init sample = .ok s ∧ s.log = [10] := ⟨_, rfl, rfl⟩
example : (Ideal.init.run sample).freed = [11] ∧ created 10 sample = 1 := ⟨rfl, rfl⟩

/-- C46 is violated: a guard that was released, or made not engaged, is engaged again by a move; its action runs. -/
theorem c46_move_released_violated (k : Kind) {N : List Nat} {s : State} {i : Ideal} (h : Sim N s i) {g w a : Nat}
    (hg : s.guards g = none) (hw : s.guards w = some ⟨some a, false⟩) :
    ∃ s', run k s [.moveCtor g w, .destroy g, .destroy w] = .ok s' ∧ s'.log = a :: s.log ∧
      (i.run [.moveCtor g w, .destroy g, .destroy w]).done = s.log := by
  have hgw : g ≠ w := by rintro rfl; rw [hg] at hw; cases hw
  have hwg : w ≠ g := fun e => hgw e.symm
  have hni : ∀ b, (w, b) ∉ i.own := fun b hb => by rw [h.own, hw] at hb; cases hb
  have hng : ∀ b, (g, b) ∉ i.own := h.fresh hg
  refine ⟨_, by simp only [run, step, hg, hw, Res.ok_bind, set_same, set_other _ _ hwg, if_true, Bool.false_eq_true, if_false];
                rfl, rfl, ?_⟩
  have h1 : ∀ b, (g, b) ∉ (i.pass g w).own := by
    intro b hb
    rcases (mem_pass hng).1 hb with ⟨_, h2⟩ | ⟨_, h2, _⟩
    · exact hni b h2
    · exact h2 rfl
  have h2 : ∀ b, (w, b) ∉ others (i.pass g w).own g := by
    intro b hb
    rcases (mem_pass hng).1 (mem_others.1 hb).1 with ⟨h3, _⟩ | ⟨h3, _, _⟩
    · exact hwg h3
    · exact h3 rfl
  show items (others (i.pass g w).own g) w ++ (items (i.pass g w).own g ++ i.done) = s.log
  rw [items_none h1, items_none h2, h.log]; rfl

example : ∃ s, run .lambda State.init [.create 0 10 true, .release 0, .moveCtor 1 0, .destroy 1, .destroy 0] = .ok s ∧
    s.log = [10] := ⟨_, rfl, rfl⟩

/-- C46 is violated: every move assignment from an engaged guard loses an action: the one of the target if it is engaged,
and otherwise the one that is moved; a guard assigned to itself loses its own. -/
theorem c46_move_assign_violated (k : Kind) {N : List Nat} {s : State} {i : Ideal} (h : Sim N s i) {g w a : Nat}
    (hg : g ∈ N) (hw : (w, a) ∈ i.own) (ops : List Op)
    (hops : ops = if g = w then [.moveAssign g w, .destroy g] else [.moveAssign g w, .destroy g, .destroy w]) :
    ∃ s', run k s ops = .ok s' ∧ s'.log.length + 1 = (i.run ops).done.length := by
  have hw' := (h.own w a).1 hw
  subst hops
  by_cases e : g = w
  · subst e
    rw [if_pos rfl]
    refine ⟨_, by simp only [run, step, hw', Res.ok_bind, if_true, set_same, Bool.false_eq_true, if_false]; rfl, ?_⟩
    have : i.run [.moveAssign g g, .destroy g] = i.discharge g := by simp [Ideal.run, Ideal.step]
    rw [this]
    show s.log.length + 1 = (items i.own g ++ i.done).length
    rw [items_one h.distinct hw, h.log]; rfl
  · have e' : w ≠ g := fun e'' => e e''.symm
    obtain ⟨⟨f, en⟩, hx⟩ := Option.ne_none_iff_exists'.1 ((h.names g).1 hg)
    have hgo : ∀ b, (g, b) ∉ others i.own g := fun b hb => (mem_others.1 hb).2 rfl
    have hgo' : ∀ b, (g, b) ∉ (i.discharge g).own := hgo
    have h1 : (g, a) ∈ ((i.discharge g).pass g w).own :=
      (mem_pass hgo').2 (.inl ⟨rfl, mem_others.2 ⟨hw, e'⟩⟩)
    have h2 : ∀ b, (w, b) ∉ others ((i.discharge g).pass g w).own g := by
      intro b hb
      rcases (mem_pass hgo').1 (mem_others.1 hb).1 with ⟨h3, _⟩ | ⟨h3, _, _⟩
      · exact e' h3
      · exact h3 rfl
    have hd : Distinct ((i.discharge g).pass g w).own := distinct_pass (distinct_others h.distinct g) hgo'
    have hideal : (i.run [.moveAssign g w, .destroy g, .destroy w]).done = a :: (items i.own g ++ i.done) := by
      show (Ideal.step (Ideal.step (i.step (.moveAssign g w)) (.destroy g)) (.destroy w)).done = _
      rw [show i.step (.moveAssign g w) = (i.discharge g).pass g w by simp only [Ideal.step, if_neg e]]
      show items (others ((i.discharge g).pass g w).own g) w ++ (items ((i.discharge g).pass g w).own g ++
        (items i.own g ++ i.done)) = _
      rw [items_none h2, items_one hd h1]; rfl
    rw [if_neg e, hideal]
    cases en with
    | true =>
      cases f with
      | none => exact absurd hx (h.callable g)
      | some b =>
        refine ⟨_, by simp only [run, step, hw', hx, Res.ok_bind, if_neg e, set_same, set_other _ _ e, set_other _ _ e',
                        if_true, Bool.false_eq_true, if_false]; rfl, ?_⟩
        rw [items_one h.distinct ((h.own g b).2 hx), h.log]; rfl
    | false =>
      refine ⟨_, by simp only [run, step, hw', hx, Res.ok_bind, if_neg e, set_same, set_other _ _ e, set_other _ _ e',
                      Bool.false_eq_true, if_false]; rfl, ?_⟩
      rw [items_none (fun b hb => by rw [h.own, hx] at hb; cases hb), h.log]; rfl

/-- The action of the target never runs. -/
example : ∃ s, run .function State.init
    [.create 0 10 true, .create 1 11 true, .moveAssign 0 1, .destroy 1, .destroy 0] = .ok s ∧ s.log = [11] := ⟨_, rfl, rfl⟩

/-- Moved to a released guard, the action never runs. -/
example : ∃ s, run .function State.init
    [.create 0 10 true, .release 0, .create 1 11 true, .moveAssign 0 1, .destroy 1, .destroy 0] = .ok s ∧ s.log = [] :=
  ⟨_, rfl, rfl⟩

/-- A `virtual_guard` moved twice calls an empty function in its destructor: `std::terminate`. -/
theorem c46_moved_twice_violated :
    run .function State.init [.create 0 10 true, .moveCtor 1 0, .moveCtor 2 0, .destroy 2] = .throw .general := rfl

/-- So it is with every `virtual_guard`, whatever happened before: the second object that is made from it terminates the program when it is destroyed, also if the guard was released. -/
theorem c46_every_guard_violated (s : State) (h g g' : Nat) (x : Guard) (hh : s.guards h = some x) (hg : s.guards g = none) (hg' : s.guards g' = none) (hne : g ≠ g') :
    run .function s [.moveCtor g h, .moveCtor g' h, .destroy g'] = .throw .general := by
  have e1 : h ≠ g := fun e => by rw [e, hg] at hh; cases hh
  have e2 : h ≠ g' := fun e => by rw [e, hg'] at hh; cases hh
  have e3 : g' ≠ g := fun e => hne e.symm
  have e4 : g' ≠ h := fun e => e2 e.symm
  simp only [run, step, hh, hg, hg', Res.ok_bind, set_same, set_other _ _ e1, set_other _ _ e3, set_other _ _ e4, Kind.movedFrom, if_true, Res.throw_bind]

/-! ## C90: `awl::unique_ptr` -/

theorem psim_run (ops : List POp) {N used : List Nat} {s : Ptrs} {i : Ideal} (h : PSim N s i)
    (hu : ∀ p, p ∈ s.alive ∨ p ∈ s.deleted → p ∈ used) (hw : PWF N used ops) (hn : NoSelf ops) :
    ∃ N' s', prun s ops = .ok s' ∧ PSim N' s' (i.prun ops) := by
  induction ops generalizing N used s i with
  | nil => exact ⟨N, s, rfl, h⟩
  | cons op ops ih =>
    have go : ∀ {N' used' : List Nat} {s' : Ptrs}, PWF N' used' ops → (∀ p, p ∈ s'.alive ∨ p ∈ s'.deleted → p ∈ used') →
        pstep s op = .ok s' → PSim N' s' (i.pstep op) →
        ∃ N' s', prun s (op :: ops) = .ok s' ∧ PSim N' s' (i.prun (op :: ops)) := by
      intro N' used' s' hw hu h1 h2
      obtain ⟨N'', s'', h3, h4⟩ := ih h2 hu hw (fun u hm => hn u (List.mem_cons_of_mem _ hm))
      exact ⟨N'', s'', by rw [prun, h1]; exact h3, h4⟩
    have hdel : ∀ {s s' : Ptrs} {x : Option Nat}, del s x = .ok s' → ∀ p, p ∈ s'.alive ∨ p ∈ s'.deleted →
        p ∈ s.alive ∨ p ∈ s.deleted := by
      intro s s' x hd p hp
      cases x with
      | none => cases hd; exact hp
      | some q =>
        simp only [del] at hd
        split at hd
        · rename_i hq
          cases hd
          rcases hp with hp | hp
          · exact .inl (List.mem_of_mem_erase hp)
          · rcases List.mem_cons.1 hp with rfl | hp
            · exact .inl hq
            · exact .inr hp
        · cases hd
    have hget : ∀ {u : Nat}, u ∈ N → ∃ x, s.ptrs u = some x := fun hm => Option.ne_none_iff_exists'.1 ((h.names _).1 hm)
    have habs : ∀ {u : Nat}, u ∉ N → s.ptrs u = none := by
      intro u hm
      cases e : s.ptrs u with
      | none => rfl
      | some x => exact absurd ((h.names u).2 (by rw [e]; simp)) hm
    have hnew : ∀ {p : Nat}, p ∉ used → p ∉ s.alive ∧ p ∉ s.deleted :=
      fun hp => ⟨fun hm => hp (hu _ (.inl hm)), fun hm => hp (hu _ (.inr hm))⟩
    have hgo : ∀ {u : Nat}, ∀ b, (u, b) ∉ (i.discharge u).own := fun b hb => (mem_others.1 hb).2 rfl
    cases op with
    | make u p =>
      obtain ⟨h1, h2, h3⟩ := hw
      have hp := hnew h2
      refine go h3 ?_ (by simp only [pstep, habs h1]; rw [if_neg (by rintro (h | h); exact hp.1 h; exact hp.2 h)])
        (psim_take h (h.fresh (habs h1)) hp.1 hp.2 (fun y => List.mem_cons))
      rintro q (hq | hq)
      · rcases List.mem_cons.1 hq with rfl | hq
        · exact List.mem_cons_self
        · exact List.mem_cons_of_mem _ (hu q (.inl hq))
      · exact List.mem_cons_of_mem _ (hu q (.inr hq))
    | moveCtor u w =>
      obtain ⟨h1, h2, h3⟩ := hw
      obtain ⟨y, hy⟩ := hget h2
      exact go h3 (s' := { s with ptrs := set (set s.ptrs u (some y)) w (some none) }) hu (by simp only [pstep, habs h1, hy])
        (psim_pass h (h.fresh (habs h1)) hy (fun e => h1 (e ▸ h2)) (fun y => List.mem_cons))
    | moveAssign u w =>
      obtain ⟨h1, h2, h3⟩ := hw
      have huw : u ≠ w := by rintro rfl; exact hn u List.mem_cons_self
      obtain ⟨x, hx⟩ := hget h1
      obtain ⟨y, hy⟩ := hget h2
      obtain ⟨s', hd, hpt, hs⟩ := psim_del h hx
      have hy' : (set s.ptrs u (some none)) w = some y := by rw [set_other _ _ (fun e => huw e.symm)]; exact hy
      have h4 := psim_pass (N' := N) hs hgo hy' huw (fun z => ⟨.inr, fun h => h.elim (fun e => e ▸ h1) id⟩)
      have h5 : set (set (set s.ptrs u (some none)) u (some y)) w (some none) =
          set (set s'.ptrs u (some y)) w (some none) := by
        rw [hpt]; funext z; simp only [set]; split
        · rfl
        · split <;> rfl
      refine go h3 (fun p hp => hu p (hdel hd p hp)) (s' := { s' with ptrs := set (set s'.ptrs u (some y)) w (some none) })
        (by simp only [pstep, hx, hy, hd, Res.ok_bind]) ?_
      simp only [Ideal.pstep, if_neg huw]
      rw [← h5]
      exact h4
    | reset u p =>
      obtain ⟨h1, h2, h3⟩ := hw
      have hp := hnew h2
      obtain ⟨x, hx⟩ := hget h1
      -- first the deletion, then the new object
      obtain ⟨s', hd, hpt, hs⟩ := psim_del h hx
      have hp' : p ∉ s'.alive ∧ p ∉ s'.deleted :=
        ⟨fun hm => (hdel hd p (.inl hm)).elim hp.1 hp.2, fun hm => (hdel hd p (.inr hm)).elim hp.1 hp.2⟩
      have hd' : del { s with alive := p :: s.alive } x = .ok { s' with alive := p :: s'.alive } := by
        cases x with
        | none => cases hd; rfl
        | some q =>
          simp only [del] at hd ⊢
          split at hd
          · rename_i hq
            cases hd
            have hqp : p ≠ q := fun e => hp.1 (e ▸ hq)
            rw [if_pos (List.mem_cons_of_mem _ hq)]
            have : (p == q) = false := by simpa using hqp
            simp only [List.erase_cons, this, Bool.false_eq_true, if_false]
          · cases hd
      have h4 := psim_take (N' := N) hs (p := p) hgo hp'.1 hp'.2 (fun z => ⟨.inr, fun h => h.elim (fun e => e ▸ h1) id⟩)
      have h5 : set (set s.ptrs u (some none)) u (some (some p)) = set s'.ptrs u (some (some p)) := by
        rw [hpt]; funext z; simp only [set]; split <;> rfl
      refine go h3 ?_ (s' := ⟨set s'.ptrs u (some (some p)), p :: s'.alive, s'.deleted⟩)
        (by simp only [pstep, hx]; rw [if_neg (by rintro (h | h); exact hp.1 h; exact hp.2 h)]; rw [hd']; rfl) ?_
      · rintro q (hq | hq)
        · rcases List.mem_cons.1 hq with rfl | hq
          · exact List.mem_cons_self
          · exact List.mem_cons_of_mem _ (hu q (hdel hd q (.inl hq)))
        · exact List.mem_cons_of_mem _ (hu q (hdel hd q (.inr hq)))
      · rw [← h5]; exact h4
    | clear u =>
      obtain ⟨h1, h3⟩ := hw
      obtain ⟨x, hx⟩ := hget h1
      obtain ⟨s', hd, hpt, hs⟩ := psim_del h hx
      exact go h3 (fun p hp => hu p (hdel hd p hp)) (s' := { s' with ptrs := set s.ptrs u (some none) })
        (by simp only [pstep, hx, hd, Res.ok_bind, hpt]) hs
    | release u =>
      obtain ⟨h1, h3⟩ := hw
      obtain ⟨x, hx⟩ := hget h1
      exact go h3 (s' := { s with ptrs := set s.ptrs u (some none) }) hu (by simp only [pstep, hx]) (psim_release h h1)
    | destroy u =>
      obtain ⟨h1, h3⟩ := hw
      obtain ⟨x, hx⟩ := hget h1
      obtain ⟨s', hd, hpt, hs⟩ := psim_del h hx
      have h4 := psim_gone hs (u := u) hgo
      have h5 : set (set s.ptrs u (some none)) u none = set s'.ptrs u none := by
        rw [hpt]; funext z; simp only [set]; split <;> rfl
      refine go h3 (fun p hp => hu p (hdel hd p hp)) (s' := { s' with ptrs := set s'.ptrs u none })
        (by simp only [pstep, hx, hd, Res.ok_bind]) ?_
      rw [← h5]; exact h4

/-- C90, partial: in every program that does not assign a pointer to itself, no object is deleted twice, the objects deleted
are exactly those the specification says, in that order, and every pointer points to what it owns, or is null.  What is
missing: assignment of a pointer to itself, see below. -/
theorem c90_refines_partial (ops : List POp) (hw : PWF [] [] ops) (hn : NoSelf ops) :
    ∃ s, prun Ptrs.init ops = .ok s ∧ s.deleted = (Ideal.init.prun ops).done ∧
      ∀ u p, s.ptrs u = some (some p) ↔ (u, p) ∈ (Ideal.init.prun ops).own := by
  obtain ⟨_, s, h1, h2⟩ := psim_run ops psim_init (fun p hp => by simp [Ptrs.init] at hp) hw hn
  exact ⟨s, h1, h2.deleted, fun u p => (h2.own u p).symm⟩

/-- C90, partial: ... when all the pointers are gone, every object was deleted exactly once, or was released and is alive. -/
theorem c90_exactly_once_partial (ops : List POp) (hw : PWF [] [] ops) (hn : NoSelf ops) (s : Ptrs)
    (hr : prun Ptrs.init ops = .ok s) (hgone : ∀ u, s.ptrs u = none) (p : Nat) :
    s.deleted.count p + s.alive.count p = pcreated p ops ∧ pcreated p ops ≤ 1 ∧
      s.alive.count p = (Ideal.init.prun ops).freed.count p := by
  obtain ⟨_, s', h1, h2⟩ := psim_run ops psim_init (fun p hp => by simp [Ptrs.init] at hp) hw hn
  rw [hr] at h1; cases h1
  have h0 := c90_ideal_exactly_once ops Ideal.init p
  have hown : (Ideal.init.prun ops).own = [] := by
    cases e : (Ideal.init.prun ops).own with
    | nil => rfl
    | cons x l =>
      have := (h2.own x.1 x.2).1 (e ▸ List.mem_cons_self)
      rw [hgone] at this; cases this
  have hi : Ideal.init.total p = 0 := by simp [Ideal.total, Ideal.init]
  have ha := h2.alive p
  have ho := h2.once p
  rw [h0] at ho
  simp only [Ideal.total, hown, ← h2.deleted, List.map_nil, List.count_nil] at h0 ha hi ho
  omega

def psample : List POp :=
  [.make 0 10, .make 1 11, .moveAssign 0 1, .reset 1 12, .moveCtor 2 0, .release 2, .clear 1, .destroy 2, .destroy 1,
    .destroy 0]

example : PWF [] [] psample ∧ NoSelf psample := by
  refine ⟨by simp [psample, PWF], ?_⟩
  intro u hu
  simp only [psample, List.mem_cons, reduceCtorEq, POp.moveAssign.injEq, List.not_mem_nil, or_false, false_or] at hu
  omega

example : ∃ s, prun Ptrs.init psample = .ok s ∧ s.deleted = [12, 10] ∧ s.alive = [11] := ⟨_, rfl, rfl, rfl⟩

/-- C90 is violated: a pointer assigned to itself deletes its object and is null, for every object. -/
theorem c90_self_move_violated (u p : Nat) :
    ∃ s, prun Ptrs.init [.make u p, .moveAssign u u] = .ok s ∧ s.deleted = [p] ∧ s.ptrs u = some none ∧
      (Ideal.init.prun [.make u p, .moveAssign u u]).own = [(u, p)] := by
  refine ⟨⟨set (set (set Ptrs.init.ptrs u (some (some p))) u (some (some p))) u (some none), [], [p]⟩, ?_, rfl, set_same _ _ _, ?_⟩
  · simp [prun, pstep, Ptrs.init, set_same, del]
  · simp [Ideal.prun, Ideal.pstep, Ideal.take, Ideal.init]

/-- C90 is violated after every history, for every pointer that has an object: assigned to itself it deletes the object and is null, though the pointer should have it still; the other pointers are as they were. -/
theorem c90_every_self_move_violated (ops : List POp) (hw : PWF [] [] ops) (hn : NoSelf ops) (s : Ptrs) (hr : prun Ptrs.init ops = .ok s) {u p : Nat} (hu : s.ptrs u = some (some p)) :
    ∃ s', pstep s (.moveAssign u u) = .ok s' ∧ s'.deleted = p :: s.deleted ∧ s'.ptrs u = some none ∧ (∀ w, w ≠ u → s'.ptrs w = s.ptrs w) ∧ p ∉ s'.alive ∧
      (u, p) ∈ (Ideal.init.prun (ops ++ [.moveAssign u u])).own ∧ p ∉ (Ideal.init.prun (ops ++ [.moveAssign u u])).done := by
  obtain ⟨_, s1, h1, h2⟩ := psim_run ops psim_init (fun p hp => by simp [Ptrs.init] at hp) hw hn
  rw [hr] at h1; cases h1
  have ho := (h2.own u p).2 hu
  have hc : 0 < ((Ideal.init.prun ops).own.map (·.2)).count p := List.count_pos_iff.2 (List.mem_map.2 ⟨_, ho, rfl⟩)
  have ha := h2.alive p
  have h1 := h2.once p
  simp only [Ideal.total] at h1
  have hal : p ∈ s.alive := List.count_pos_iff.1 (by omega)
  have hi : Ideal.init.prun (ops ++ [.moveAssign u u]) = Ideal.init.prun ops := by simp [Ideal.prun, Ideal.pstep]
  refine ⟨⟨set (set s.ptrs u (some (some p))) u (some none), s.alive.erase p, p :: s.deleted⟩, by simp [pstep, hu, del, hal], rfl, set_same _ _ _, fun w hw => ?_, ?_, by rw [hi]; exact ho, ?_⟩
  · show set (set s.ptrs u (some (some p))) u (some none) w = _
    simp [set, hw]
  · intro hm
    have := List.count_pos_iff.2 hm
    rw [List.count_erase_self] at this
    omega
  · rw [hi]
    intro hm
    have := List.count_pos_iff.2 hm
    omega

example : ∃ s s', prun Ptrs.init [.make 0 10, .make 1 11, .moveAssign 0 1, .reset 1 12] = .ok s ∧ s.ptrs 0 = some (some 11) ∧ pstep s (.moveAssign 0 0) = .ok s' ∧ s'.deleted = [11, 10] ∧
    s'.ptrs 1 = some (some 12) := ⟨_, _, rfl, rfl, rfl, rfl, rfl⟩

end Verif.Guard
