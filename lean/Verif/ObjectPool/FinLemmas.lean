import Verif.ObjectPool.FinModel

namespace Verif.ObjectPool.Fin

structure Inv (s : State) : Prop where
  once : ∀ p, s.used.count p + s.free.count p + s.deleted.count p + s.stack.count (.del p) = if p < s.next then 1 else 0
  inUse : ∀ p, p ∈ s.used ↔ ∃ x ∈ s.vars, x.obj = p
  names : (s.vars.map (·.name)).Nodup
  turns : ∀ p, s.log.count (.taken p) = s.log.count (.finalize p) + s.used.count p

theorem inv_init : Inv State.init := by
  constructor <;> simp [State.init]

theorem find_var {s : State} {v : Nat} {x : Var} (h : s.vars.find? (·.name == v) = some x) : x ∈ s.vars ∧ x.name = v :=
  ⟨List.mem_of_find?_eq_some h, by simpa using List.find?_some h⟩

theorem names_inj {l : List Var} (h : (l.map (·.name)).Nodup) {x y : Var} (hx : x ∈ l) (hy : y ∈ l) (e : x.name = y.name) : x = y := by
  induction l with
  | nil => cases hx
  | cons a l ih =>
    simp only [List.map_cons, List.nodup_cons, List.mem_map, not_exists, not_and] at h
    rcases List.mem_cons.1 hx with e1 | hx' <;> rcases List.mem_cons.1 hy with e2 | hy'
    · rw [e1, e2]
    · exact absurd (e1 ▸ e.symm) (h.1 y hy')
    · exact absurd (e2 ▸ e) (h.1 x hx')
    · exact ih h.2 hx' hy'

/-- Taking an object: it was free or is new; nothing else changes. -/
theorem take_spec (s : State) (h : Inv s) : ∃ p s', take s = (p, s') ∧ s'.used = s.used ∧ s'.deleted = s.deleted ∧ s'.vars = s.vars ∧ s'.stack = s.stack
    ∧ s'.log = .taken p :: s.log ∧ s.used.count p = 0 ∧ p ∉ s.deleted ∧ (.del p) ∉ s.stack ∧ s.next ≤ s'.next
    ∧ (∀ q, s'.free.count q + (if q = p then 1 else 0) + (if q < s.next then 1 else 0) = s.free.count q + (if q < s'.next then 1 else 0))
    ∧ (s.free = p :: s'.free ∨ (s.free = [] ∧ s'.free = [] ∧ p = s.next)) := by
  have ho := h.once
  simp only [take]
  split
  · rename_i p fr hf
    have hp := ho p
    rw [hf, List.count_cons_self] at hp
    have : p < s.next := by
      by_cases e : p < s.next
      · exact e
      · rw [if_neg e] at hp; omega
    rw [if_pos this] at hp
    refine ⟨p, _, rfl, rfl, rfl, rfl, rfl, rfl, by omega, List.count_eq_zero.1 (by omega), List.count_eq_zero.1 (by omega), Nat.le_refl _, fun q => ?_, .inl hf⟩
    simp only [hf, List.count_cons, beq_iff_eq]
    by_cases e : q = p
    · subst e; simp
    · have e' : ¬ p = q := fun x => e x.symm
      simp [e, e']
  · rename_i hf
    have hp := ho s.next
    rw [if_neg (Nat.lt_irrefl _)] at hp
    refine ⟨s.next, _, rfl, rfl, rfl, rfl, rfl, rfl, by omega, List.count_eq_zero.1 (by omega), List.count_eq_zero.1 (by omega), Nat.le_succ _, fun q => ?_, .inr ⟨hf, hf, rfl⟩⟩
    simp only [hf, List.count_nil]
    by_cases e : q = s.next
    · subst e; simp
    · by_cases e2 : q < s.next
      · simp [e, e2, Nat.lt_succ_of_lt e2]
      · have : ¬ q < s.next + 1 := by omega
        simp [e, e2, this]

theorem ite_one (c : Prop) [Decidable c] : (if c then 1 else 0) ≤ 1 := by split <;> omega

/-- Returning an object that no pointer points to. -/
theorem deleter_inv (s : State) (p : Nat) (ho : ∀ q, s.used.count q + s.free.count q + s.deleted.count q + s.stack.count (.del q) = if q < s.next then 1 else 0)
    (hm : p ∈ s.used) (hu : ∀ q, q ∈ s.used ↔ (∃ x ∈ s.vars, x.obj = q) ∨ q = p) (hx : ¬ ∃ x ∈ s.vars, x.obj = p) (hn : (s.vars.map (·.name)).Nodup)
    (ht : ∀ q, s.log.count (.taken q) = s.log.count (.finalize q) + s.used.count q) : Inv (deleter s p) := by
  have hc : s.used.count p = 1 := by
    have h1 := ho p
    have h2 := List.count_pos_iff.2 hm
    have h3 := ite_one (p < s.next)
    omega
  constructor
  · intro q
    have := ho q
    show _ = if q < s.next then 1 else 0
    rw [← this]
    simp only [deleter, List.count_append, List.count_erase, List.count_cons, List.count_nil]
    by_cases e : q = p
    · subst e; simp; omega
    · have e' : ¬ p = q := fun x => e x.symm
      simp [e']
  · intro q
    simp only [deleter]
    by_cases e : q = p
    · subst e
      constructor
      · intro hq
        have := List.count_pos_iff.2 hq
        rw [List.count_erase_self, hc] at this; omega
      · intro hq; exact absurd hq hx
    · rw [List.mem_erase_of_ne e, hu q]; simp [e]
  · exact hn
  · intro q
    have := ht q
    simp only [deleter, List.count_cons, List.count_erase]
    by_cases e : q = p
    · subst e; simp; omega
    · have e' : ¬ p = q := fun x => e x.symm
      simp [e']; omega

theorem step_inv (s s' : State) (a : Act) (h : Inv s) (hs : step s a = some s') : Inv s' := by
  have ho := h.once
  have hu := h.inUse
  have hn := h.names
  have ht := h.turns
  cases a with
  | make v o =>
    simp only [step] at hs
    split at hs
    · rename_i hc
      obtain ⟨p, s1, e1, e2, e3, e4, e5, e6, k1, k2, k3, k4, k5, k6⟩ := take_spec s h
      rw [e1] at hs; simp only [Option.some.injEq] at hs; subst hs
      have hnext : p < s1.next := by
        have := k5 p
        simp only [if_true] at this
        by_cases e : p < s1.next
        · exact e
        · rw [if_neg e] at this
          have h3 := ho p
          split at this
          · omega
          · rename_i e0; rw [if_neg e0] at h3; omega
      constructor
      · intro q
        have h1 := ho q
        have h2 := k5 q
        simp only [e2, e3, e5, List.count_append, List.count_cons, List.count_nil]
        by_cases e : q = p
        · subst e; simp at h2 ⊢; simp only [hnext, if_true] at h2 ⊢
          have := List.count_eq_zero.2 k2; have := List.count_eq_zero.2 k3; split at h1 <;> simp_all <;> omega
        · have e' : ¬ p = q := fun x => e x.symm
          simp [e'] ; simp [e] at h2; omega
      · intro q
        simp only [e2, e4, List.mem_append, List.mem_cons, List.not_mem_nil, or_false, exists_eq_or_imp, hu q]
        constructor
        · rintro (x | x)
          · exact .inr x
          · exact .inl x.symm
        · rintro (x | x)
          · exact .inr x.symm
          · exact .inl x
      · simp only [e4, List.map_cons, List.nodup_cons]; exact ⟨hc.2, hn⟩
      · intro q
        have := ht q
        simp only [e6, e2, List.count_cons, List.count_append, List.count_nil]
        by_cases e : q = p
        · subst e; simp; omega
        · have e' : ¬ p = q := fun x => e x.symm
          simp [e']; omega
    · cases hs
  | makeFail =>
    simp only [step] at hs
    split at hs
    · rename_i hc
      obtain ⟨p, s1, e1, e2, e3, e4, e5, e6, k1, k2, k3, k4, k5, k6⟩ := take_spec s h
      rw [e1] at hs; simp only [Option.some.injEq] at hs; subst hs
      have hnext : p < s1.next := by
        have := k5 p
        simp only [if_true] at this
        by_cases e : p < s1.next
        · exact e
        · rw [if_neg e] at this
          have h3 := ho p
          split at this
          · omega
          · rename_i e0; rw [if_neg e0] at h3; omega
      apply deleter_inv
      · intro q
        have h1 := ho q
        have h2 := k5 q
        simp only [e2, e3, e5, List.count_append, List.count_cons, List.count_nil]
        by_cases e : q = p
        · subst e; simp at h2 ⊢; simp only [hnext, if_true] at h2 ⊢
          have := List.count_eq_zero.2 k2; have := List.count_eq_zero.2 k3; split at h1 <;> simp_all <;> omega
        · have e' : ¬ p = q := fun x => e x.symm
          simp [e'] ; simp [e] at h2; omega
      · simp
      · intro q
        simp only [e2, e4, List.mem_append, List.mem_singleton, hu q]
      · intro hx
        have := (hu p).2 (by simpa only [e4] using hx)
        have := List.count_pos_iff.2 this; omega
      · simp only [e4]; exact hn
      · intro q
        have := ht q
        simp only [e6, e2, List.count_cons, List.count_append, List.count_nil]
        by_cases e : q = p
        · subst e; simp; omega
        · have e' : ¬ p = q := fun x => e x.symm
          simp [e']; omega
    · cases hs
  | share v o w =>
    simp only [step] at hs
    split at hs
    · rename_i hc
      split at hs
      · rename_i x hx
        simp only [Option.some.injEq] at hs; subst hs
        refine ⟨ho, fun q => ?_, ?_, ht⟩
        · rw [hu q]
          simp only [List.mem_cons, exists_eq_or_imp]
          constructor
          · exact fun y => .inr y
          · rintro (y | y)
            · exact ⟨x, (find_var hx).1, y⟩
            · exact y
        · simp only [List.map_cons, List.nodup_cons]; exact ⟨hc.2, hn⟩
      · cases hs
    · cases hs
  | drop v =>
    simp only [step] at hs
    split at hs
    · split at hs
      · cases hs
      · rename_i x hx
        obtain ⟨hx1, hx2⟩ := find_var hx
        have hn' : ((s.vars.filter (·.name != v)).map (·.name)).Nodup := hn.sublist (List.filter_sublist.map _)
        have hmem : ∀ y, y ∈ s.vars.filter (·.name != v) ↔ y ∈ s.vars ∧ y ≠ x := by
          intro y
          simp only [List.mem_filter, bne_iff_ne, ne_eq]
          constructor
          · rintro ⟨a, b⟩; exact ⟨a, fun e => b (e ▸ hx2)⟩
          · rintro ⟨a, b⟩; exact ⟨a, fun e => b (names_inj hn a hx1 (e.trans hx2.symm))⟩
        split at hs
        · rename_i ha
          simp only [Option.some.injEq] at hs; subst hs
          refine ⟨ho, fun q => ?_, hn', ht⟩
          rw [hu q]
          obtain ⟨y, hy1, hy2⟩ := List.any_eq_true.1 ha
          simp only [beq_iff_eq] at hy2
          constructor
          · rintro ⟨z, hz1, hz2⟩
            by_cases e : z = x
            · subst e; exact ⟨y, hy1, hy2.trans hz2⟩
            · exact ⟨z, (hmem z).2 ⟨hz1, e⟩, hz2⟩
          · rintro ⟨z, hz1, hz2⟩; exact ⟨z, ((hmem z).1 hz1).1, hz2⟩
        · rename_i ha
          simp only [Option.some.injEq] at hs; subst hs
          have hno : ¬ ∃ y ∈ s.vars.filter (·.name != v), y.obj = x.obj := by
            rintro ⟨y, hy1, hy2⟩
            exact ha (List.any_eq_true.2 ⟨y, hy1, by simpa using hy2⟩)
          apply deleter_inv
          · exact ho
          · exact (hu x.obj).2 ⟨x, hx1, rfl⟩
          · intro q
            simp only [hu q]
            constructor
            · rintro ⟨z, hz1, hz2⟩
              by_cases e : z = x
              · subst e; exact .inr hz2.symm
              · exact .inl ⟨z, (hmem z).2 ⟨hz1, e⟩, hz2⟩
            · rintro (⟨z, hz1, hz2⟩ | e)
              · exact ⟨z, ((hmem z).1 hz1).1, hz2⟩
              · exact ⟨x, hx1, e.symm⟩
          · exact hno
          · exact hn'
          · exact ht
    · cases hs
  | clear =>
    simp only [step] at hs
    split at hs
    · simp only [Option.some.injEq] at hs; subst hs
      exact ⟨fun q => by simpa using ho q, hu, hn, ht⟩
    · cases hs
  | ret =>
    simp only [step] at hs
    split at hs
    · cases hs
    · rename_i q st hst
      simp only [Option.some.injEq] at hs; subst hs
      exact ⟨fun q => by have := ho q; simpa [hst] using this, hu, hn, ht⟩
    · rename_i q st hst
      split at hs
      · cases hs
      · simp only [Option.some.injEq] at hs; subst hs
        refine ⟨fun r => ?_, hu, hn, ht⟩
        have := ho r
        rw [hst] at this
        simp only [List.count_cons] at this ⊢
        by_cases e : q = r
        · subst e; simp at this ⊢; omega
        · simp [e] at this ⊢; omega
    · rename_i st hst
      split at hs
      · simp only [Option.some.injEq] at hs; subst hs
        exact ⟨fun q => by have := ho q; simpa [hst] using this, hu, hn, ht⟩
      · rename_i q fr hf
        simp only [Option.some.injEq] at hs; subst hs
        refine ⟨fun r => ?_, hu, hn, ht⟩
        have := ho r
        rw [hst, hf] at this
        simp only [List.count_cons] at this ⊢
        by_cases e : q = r
        · subst e; simp at this ⊢; omega
        · simp [e] at this ⊢; omega

theorem run_inv (l : List Act) : ∀ s s', Inv s → run s l = some s' → Inv s' := by
  induction l with
  | nil => intro s s' h hs; cases hs; exact h
  | cons a l ih =>
    intro s s' h hs
    simp only [run, Option.bind_eq_some_iff] at hs
    obtain ⟨s1, h1, h2⟩ := hs
    exact ih s1 s' (step_inv s s1 a h h1) h2

end Verif.ObjectPool.Fin
