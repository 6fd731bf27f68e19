import Verif.ObjectPool.Spec

/-! # Object pools (C53) -/

namespace Verif.ObjectPool

/-- What always holds. -/
structure Inv (N : List Nat) (s : State) : Prop where
  names : s.vars.map (·.1) = N
  nodup : N.Nodup
  /-- every object is in exactly one place -/
  once : ∀ p, s.used.count p + s.free.count p + s.deleted.count p = if p < s.next then 1 else 0
  /-- the used objects are those pointed to -/
  inUse : ∀ p, p ∈ s.used ↔ InUse s p
  /-- as long as there are pointers, there is the pool -/
  pool : (∃ v p, (v, p) ∈ s.vars) → s.pool = true
  /-- when the pool is gone there are no free objects -/
  dead : s.pool = false → s.free = []

theorem get_some {N : List Nat} {s : State} (h : Inv N s) {v p : Nat} : s.get v = some p ↔ (v, p) ∈ s.vars := by
  have hn := h.nodup
  rw [← h.names] at hn
  obtain ⟨_, _, _, _, _, vars⟩ := s
  simp only [State.get] at *
  clear h
  induction vars with
  | nil => simp
  | cons x vars ih =>
    obtain ⟨x1, x2⟩ := x
    simp only [List.map_cons, List.nodup_cons] at hn
    by_cases e : x1 = v
    · subst e
      simp only [List.find?_cons, beq_self_eq_true, Option.map_some, Option.some.injEq, List.mem_cons, Prod.mk.injEq, true_and]
      constructor
      · intro h; exact .inl h.symm
      · rintro (h | h)
        · exact h.symm
        · exact absurd (List.mem_map.2 ⟨_, h, rfl⟩) hn.1
    · have e' : (x1 == v) = false := by simpa using e
      simp only [List.find?_cons, e', List.mem_cons, Prod.mk.injEq, ih hn.2]
      constructor
      · intro h; exact .inr h
      · rintro (⟨h, _⟩ | h)
        · exact absurd h.symm e
        · exact h

theorem get_none {s : State} {v : Nat} : s.get v = none ↔ v ∉ s.vars.map (·.1) := by
  simp only [State.get, Option.map_eq_none_iff, List.find?_eq_none, List.mem_map, beq_iff_eq]
  constructor
  · rintro h ⟨x, hx, e⟩; exact h x hx e
  · intro h x hx e; exact h ⟨x, hx, e⟩

theorem inv_init : Inv [] State.init :=
  ⟨rfl, List.nodup_nil, fun p => by simp [State.init], fun p => by simp [State.init, InUse], fun _ => rfl, fun h => by cases h⟩

theorem get_of_mem {N : List Nat} {s : State} (h : Inv N s) {v : Nat} (hv : v ∈ N) : ∃ p, s.get v = some p := by
  cases e : s.get v with
  | some p => exact ⟨p, rfl⟩
  | none => rw [get_none, h.names] at e; exact absurd hv e

/-- The object a call of `make` hands out. -/
theorem make_spec {N : List Nat} {s : State} (h : Inv N s) {v : Nat} (hv : v ∉ N) (hpool : s.pool = true) :
    Inv (v :: N) (make s v) ∧ ∃ p, (make s v).get v = some p ∧ ¬ InUse s p ∧ p ∉ s.deleted := by
  have hput : ∀ p free next, (make s v = { s with free := free, next := next, used := s.used ++ [p], vars := (v, p) :: s.vars }) →
      s.used.count p = 0 → s.deleted.count p = 0 →
      (∀ q, (s.used ++ [p]).count q + free.count q + s.deleted.count q = if q < next then 1 else 0) →
      Inv (v :: N) (make s v) ∧ ∃ p, (make s v).get v = some p ∧ ¬ InUse s p ∧ p ∉ s.deleted := by
    intro p free next e h1 h2 h3
    have hp : ¬ InUse s p := by rw [← h.inUse]; exact List.count_eq_zero.1 h1
    have hi : Inv (v :: N) (make s v) := by
      rw [e]
      refine ⟨by simp [h.names], List.nodup_cons.2 ⟨hv, h.nodup⟩, h3, ?_, fun _ => hpool, fun h' => absurd (hpool.symm.trans h') (by decide)⟩
      intro q
      rw [List.mem_append, List.mem_singleton, h.inUse]
      simp only [InUse, List.mem_cons, Prod.mk.injEq]
      constructor
      · rintro (⟨w, hw⟩ | rfl)
        · exact ⟨w, .inr hw⟩
        · exact ⟨v, .inl ⟨rfl, rfl⟩⟩
      · rintro ⟨w, ⟨rfl, rfl⟩ | hw⟩
        · exact .inr rfl
        · exact .inl ⟨w, hw⟩
    refine ⟨hi, p, ?_, hp, List.count_eq_zero.1 h2⟩
    rw [get_some hi, e]
    exact List.mem_cons_self
  cases hf : s.free with
  | nil =>
    have h0 := h.once s.next
    rw [if_neg (Nat.lt_irrefl _)] at h0
    refine hput s.next [] (s.next + 1) (by simp [make, hf]) (by omega) (by omega) ?_
    intro q
    have hq := h.once q
    rw [List.count_append, List.count_singleton]
    rw [hf] at hq
    by_cases e : s.next = q
    · subst e
      rw [if_pos (Nat.lt_succ_self _)]
      simp at hq ⊢; omega
    · have e' : (s.next == q) = false := by simpa using e
      have hn : (if q < s.next + 1 then 1 else 0) = (if q < s.next then 1 else 0) := by
        by_cases hq' : q < s.next
        · rw [if_pos hq', if_pos (show q < s.next + 1 by omega)]
        · rw [if_neg hq', if_neg (show ¬ q < s.next + 1 by omega)]
      rw [e', hn, ← hq]
      simp
  | cons p free =>
    have h0 := h.once p
    rw [hf, List.count_cons_self] at h0
    have h1 : s.used.count p = 0 ∧ s.deleted.count p = 0 := by
      split at h0 <;> omega
    refine hput p free s.next (by simp [make, hf]) h1.1 h1.2 ?_
    intro q
    have hq := h.once q
    rw [hf, List.count_cons] at hq
    rw [List.count_append, List.count_singleton]
    omega

theorem step_inv {N : List Nat} {s : State} (h : Inv N s) (op : Op) (ops : List Op) (hw : WF N s.pool (op :: ops)) :
    ∃ N' s', step s op = .ok s' ∧ Inv N' s' ∧ WF N' s'.pool ops := by
  cases op with
  | make v =>
    obtain ⟨h1, h2, h3⟩ := hw
    have hg : s.get v = none := by rw [get_none, h.names]; exact h1
    refine ⟨v :: N, make s v, by simp [step, hg, h2], (make_spec h h1 h2).1, ?_⟩
    have : (make s v).pool = s.pool := by unfold make; split <;> rfl
    rw [this]; exact h3
  | share v w =>
    obtain ⟨h1, h2, h3⟩ := hw
    have hg : s.get v = none := by rw [get_none, h.names]; exact h1
    obtain ⟨p, hp⟩ := get_of_mem h h2
    have hp' := (get_some h).1 hp
    refine ⟨v :: N, { s with vars := (v, p) :: s.vars }, by simp [step, hg, hp], ?_, h3⟩
    refine ⟨by simp [h.names], List.nodup_cons.2 ⟨h1, h.nodup⟩, h.once, ?_, fun _ => h.pool ⟨w, p, hp'⟩, h.dead⟩
    intro q
    rw [h.inUse]
    simp only [InUse, List.mem_cons, Prod.mk.injEq]
    constructor
    · rintro ⟨x, hx⟩; exact ⟨x, .inr hx⟩
    · rintro ⟨x, ⟨rfl, rfl⟩ | hx⟩
      · exact ⟨w, hp'⟩
      · exact ⟨x, hx⟩
  | drop v =>
    obtain ⟨h1, h3⟩ := hw
    obtain ⟨p, hp⟩ := get_of_mem h h1
    have hp' := (get_some h).1 hp
    have hnames : (s.vars.filter (·.1 != v)).map (·.1) = N.filter (· != v) := by
      rw [← h.names, List.filter_map]; rfl
    have hmem : ∀ x q, (x, q) ∈ s.vars.filter (·.1 != v) ↔ (x, q) ∈ s.vars ∧ x ≠ v := by
      intro x q; simp [List.mem_filter]
    -- the only variable with this name
    have honly : ∀ q, (v, q) ∈ s.vars → q = p := by
      intro q hq
      have := (get_some h).2 hq
      rw [hp] at this; exact (Option.some.inj this).symm
    by_cases ha : (s.vars.filter (·.1 != v)).any (·.2 == p) = true
    · refine ⟨N.filter (· != v), { s with vars := s.vars.filter (·.1 != v) }, by simp only [step, hp]; rw [if_pos ha], ?_, h3⟩
      refine ⟨hnames, h.nodup.sublist List.filter_sublist, h.once, ?_, fun _ => h.pool ⟨v, p, hp'⟩, h.dead⟩
      intro q
      rw [h.inUse]
      obtain ⟨y, hy, hyp⟩ := List.any_eq_true.1 ha
      simp only [InUse, hmem]
      constructor
      · rintro ⟨x, hx⟩
        by_cases e : x = v
        · subst e
          have := honly q hx
          subst this
          obtain ⟨y1, y2⟩ := y
          have hyp : y2 = q := by simpa using hyp
          subst hyp
          exact ⟨y1, (hmem _ _).1 hy⟩
        · exact ⟨x, hx, e⟩
      · rintro ⟨x, hx, _⟩; exact ⟨x, hx⟩
    · have hnone : ∀ x, (x, p) ∈ s.vars → x = v := by
        intro x hx
        cases Nat.decEq x v with
        | isTrue e => exact e
        | isFalse e => exact absurd (List.any_eq_true.2 ⟨(x, p), (hmem x p).2 ⟨hx, e⟩, by simp⟩) ha
      have hpu : p ∈ s.used := (h.inUse p).2 ⟨v, hp'⟩
      refine ⟨N.filter (· != v), { s with vars := s.vars.filter (·.1 != v), used := s.used.erase p, free := s.free ++ [p] }, ?_, ?_, ?_⟩
      · simp only [step, hp]
        rw [if_neg ha]
        simp only [finalize]
        rw [if_pos]
        -- the pool exists as long as there are pointers
        exact h.pool ⟨v, p, hp'⟩
      · refine ⟨hnames, h.nodup.sublist List.filter_sublist, ?_, ?_, fun _ => h.pool ⟨v, p, hp'⟩,
          fun h' => absurd ((h.pool ⟨v, p, hp'⟩).symm.trans h') (by decide)⟩
        · intro q
          have hq := h.once q
          rw [List.count_append, List.count_singleton]
          by_cases e : p = q
          · subst e
            have : 0 < s.used.count p := List.count_pos_iff.2 hpu
            rw [List.count_erase_self]
            simp; omega
          · have e' : (p == q) = false := by simpa using e
            rw [List.count_erase_of_ne (fun e'' => e e''.symm), e']
            simp; omega
        · intro q
          have hc : s.used.count p ≤ 1 := by have := h.once p; split at this <;> omega
          simp only [InUse, hmem]
          by_cases e : q = p
          · subst e
            constructor
            · intro hm
              have h1 := List.count_pos_iff.2 hm
              rw [List.count_erase_self] at h1
              omega
            · rintro ⟨x, hx, hx'⟩; exact absurd (hnone x hx) hx'
          · rw [List.mem_erase_of_ne e, h.inUse]
            constructor
            · rintro ⟨x, hx⟩
              exact ⟨x, hx, fun e' => e (honly q (e' ▸ hx))⟩
            · rintro ⟨x, hx, _⟩; exact ⟨x, hx⟩
      · exact h3
  | clear =>
    obtain ⟨h1, h3⟩ := hw
    refine ⟨N, clear s, by simp [step, h1], ⟨h.names, h.nodup, ?_, h.inUse, h.pool, fun _ => rfl⟩, h3⟩
    intro p
    have := h.once p
    show s.used.count p + ([] : List Nat).count p + (s.deleted ++ s.free).count p = if p < s.next then 1 else 0
    rw [List.count_append, List.count_nil, ← this]; omega
  | destroy =>
    obtain ⟨h1, h2, h3⟩ := hw
    refine ⟨N, { clear s with pool := false }, by simp [step, h1], ⟨h.names, h.nodup, ?_, h.inUse, ?_, fun _ => rfl⟩, h3⟩
    rotate_left
    · rintro ⟨v, p, hm⟩
      have : v ∈ N := by rw [← h.names]; exact List.mem_map.2 ⟨_, hm, rfl⟩
      rw [h2] at this; cases this
    intro p
    have := h.once p
    show s.used.count p + ([] : List Nat).count p + (s.deleted ++ s.free).count p = if p < s.next then 1 else 0
    rw [List.count_append, List.count_nil, ← this]; omega

theorem run_inv (ops : List Op) {N : List Nat} {s : State} (h : Inv N s) (hw : WF N s.pool ops) :
    ∃ N' s', run s ops = .ok s' ∧ Inv N' s' := by
  induction ops generalizing N s with
  | nil => exact ⟨N, s, rfl, h⟩
  | cons op ops ih =>
    obtain ⟨N', s', h1, h2, h3⟩ := step_inv h op ops hw
    obtain ⟨N'', s'', h4, h5⟩ := ih h2 h3
    exact ⟨N'', s'', by simp only [run, h1, Res.ok_bind, h4], h5⟩

/-- C53: in every program that destroys the pool after the pointers, no operation is undefined, and at every moment every
object that is pointed to exists: it has not been deleted and is not in the free list. -/
theorem c53_valid_partial (ops : List Op) (hw : WF [] true ops) :
    ∃ s, run State.init ops = .ok s ∧ ∀ v p, s.get v = some p → p ∉ s.deleted ∧ p ∉ s.free ∧ p < s.next := by
  obtain ⟨N, s, h1, h2⟩ := run_inv ops inv_init hw
  refine ⟨s, h1, ?_⟩
  intro v p hp
  have hu : p ∈ s.used := (h2.inUse p).2 ⟨v, (get_some h2).1 hp⟩
  have h3 := List.count_pos_iff.2 hu
  have h4 := h2.once p
  split at h4
  · exact ⟨List.count_eq_zero.1 (by omega), List.count_eq_zero.1 (by omega), by assumption⟩
  · omega

theorem run_append (a b : List Op) (s : State) : run s (a ++ b) = run s a >>= fun s => run s b := by
  induction a generalizing s with
  | nil => rfl
  | cons op a ih =>
    simp only [List.cons_append, run]
    cases step s op with
    | ok s' => simp only [Res.ok_bind]; exact ih s'
    | throw e => rfl
    | ub => rfl

/-- C53: `make` never hands out an object that is pointed to, or that has been deleted. -/
theorem c53_exclusive (ops : List Op) (v : Nat) (hw : WF [] true (ops ++ [.make v])) :
    ∃ s s' p, run State.init ops = .ok s ∧ step s (.make v) = .ok s' ∧ s'.get v = some p ∧
      (∀ w, s.get w ≠ some p) ∧ p ∉ s.deleted := by
  have key : ∀ (ops : List Op) (N : List Nat) (s : State), Inv N s → WF N s.pool (ops ++ [.make v]) →
      ∃ s1 s' p, run s ops = .ok s1 ∧ step s1 (.make v) = .ok s' ∧ s'.get v = some p ∧
        (∀ w, s1.get w ≠ some p) ∧ p ∉ s1.deleted := by
    intro ops
    induction ops with
    | nil =>
      intro N s h hw
      obtain ⟨h1, h2, _⟩ := hw
      obtain ⟨_, p, h3, h4, h5⟩ := make_spec h h1 h2
      have hg : s.get v = none := by rw [get_none, h.names]; exact h1
      exact ⟨s, make s v, p, rfl, by simp [step, hg, h2], h3, fun w hw' => h4 ⟨w, (get_some h).1 hw'⟩, h5⟩
    | cons op ops ih =>
      intro N s h hw
      obtain ⟨N', s', h1, h2, h3⟩ := step_inv h op (ops ++ [Op.make v]) (by simpa using hw)
      obtain ⟨s1, s2, p, h4, h5⟩ := ih N' s' h2 h3
      exact ⟨s1, s2, p, by simp only [run, h1, Res.ok_bind, h4], h5⟩
  exact key ops [] State.init inv_init hw

/-- C53: the object returns to the pool exactly when the last pointer to it goes away. -/
theorem c53_returned (ops : List Op) (hw : WF [] true ops) (s : State) (hr : run State.init ops = .ok s)
    (v p : Nat) (hp : s.get v = some p) :
    ∃ s', step s (.drop v) = .ok s' ∧
      ((∃ w, w ≠ v ∧ s.get w = some p) → s'.free = s.free) ∧
      ((¬ ∃ w, w ≠ v ∧ s.get w = some p) → s'.free = s.free ++ [p]) ∧ s'.deleted = s.deleted := by
  obtain ⟨N, s1, h1, h⟩ := run_inv ops inv_init hw
  rw [hr] at h1; cases h1
  have hp' := (get_some h).1 hp
  by_cases ha : (s.vars.filter (·.1 != v)).any (·.2 == p) = true
  · refine ⟨{ s with vars := s.vars.filter (·.1 != v) }, by simp only [step, hp]; rw [if_pos ha], fun _ => rfl, ?_, rfl⟩
    obtain ⟨⟨w, q⟩, hw, hq⟩ := List.any_eq_true.1 ha
    have hq : q = p := by simpa using hq
    subst hq
    have hw := List.mem_filter.1 hw
    exact fun hn => absurd ⟨w, by simpa using hw.2, (get_some h).2 hw.1⟩ hn
  · refine ⟨{ s with vars := s.vars.filter (·.1 != v), used := s.used.erase p, free := s.free ++ [p] }, ?_, ?_, fun _ => rfl, rfl⟩
    · simp only [step, hp]
      rw [if_neg ha]
      simp only [finalize]
      rw [if_pos (h.pool ⟨v, p, hp'⟩)]
    · rintro ⟨w, hw, hw'⟩
      refine absurd ?_ ha
      exact (List.any_eq_true.2 ⟨(w, p), List.mem_filter.2 ⟨(get_some h).1 hw', by simpa using hw⟩, by simp⟩)

/-- C53, partial: when the pointers are gone, and the pool after them, every object ever created has been deleted, once.
What is missing: the pool destroyed first, see below. -/
theorem c53_no_leak_partial (ops : List Op) (hw : WF [] true ops) (s : State) (hr : run State.init ops = .ok s)
    (hv : s.pool = false) : ∀ p, s.deleted.count p = if p < s.next then 1 else 0 := by
  obtain ⟨N, s1, h1, h2⟩ := run_inv ops inv_init hw
  rw [hr] at h1; cases h1
  intro p
  have h3 := h2.once p
  have h4 : s.used.count p = 0 := by
    rw [List.count_eq_zero, h2.inUse]
    rintro ⟨v, hm⟩
    exact absurd ((h2.pool ⟨v, p, hm⟩).symm.trans hv) (by decide)
  rw [h4, h2.dead hv, List.count_nil] at h3
  rw [← h3]; omega

def sample : List Op :=
  [.make 0, .make 1, .share 2 0, .drop 0, .make 3, .drop 2, .make 4, .drop 1, .clear, .drop 3, .drop 4, .destroy]

example : WF [] true sample := by simp [sample, WF]
example : ∃ s, run State.init sample = .ok s ∧ s.next = 3 ∧ s.deleted = [1, 2, 0] ∧ s.pool = false := ⟨_, rfl, rfl, rfl, rfl⟩

/-- C53 is violated when the pool is destroyed while objects are in use: the last pointer to such an object uses the pool
that is gone. -/
theorem c53_pool_first_violated (ops : List Op) (hw : WF [] true ops) (s : State) (hr : run State.init ops = .ok s)
    (v p : Nat) (hp : s.get v = some p)
    (hl : ∀ w, s.get w = some p → w = v) : run s [.destroy, .drop v] = .ub := by
  obtain ⟨N, s1, h1, h⟩ := run_inv ops inv_init hw
  rw [hr] at h1; cases h1
  have hpool : s.pool = true := h.pool ⟨v, p, (get_some h).1 hp⟩
  have hg : ({ clear s with pool := false } : State).get v = some p := hp
  simp only [run, step, hpool, if_true, Res.ok_bind, hg]
  have ha : ¬ (s.vars.filter (·.1 != v)).any (·.2 == p) = true := by
    intro ha
    obtain ⟨⟨w, q⟩, hw, hq⟩ := List.any_eq_true.1 ha
    have hq : q = p := by simpa using hq
    subst hq
    have hw := List.mem_filter.1 hw
    exact absurd (hl w ((get_some h).2 hw.1)) (by simpa using hw.2)
  rw [if_neg (show ¬ ((clear s).vars.filter (·.1 != v)).any (·.2 == p) = true from ha)]
  rfl

example : run State.init [.make 0, .destroy, .drop 0] = .ub := rfl

end Verif.ObjectPool
