import Verif.ObjectPool.FinLemmas

/-! # C139: pooled objects whose `Finalize` and destructors use the pool -/

namespace Verif.ObjectPool.Fin

/-! ### Specification -/

/-- No act of the history takes objects from the pool or clears it while a `Finalize` runs. -/
def Spec.Calm : State → List Act → Prop
  | _, [] => True
  | s, a :: l => ((∃ p, Frame.fin p ∈ s.stack) → (∀ v o, a ≠ .make v o) ∧ a ≠ .makeFail ∧ a ≠ .clear) ∧ ∀ s', step s a = some s' → Spec.Calm s' l

/-! ### Every history -/

/-- C139: whatever `Finalize` and the destructors do with the pool: every object that was ever made is in exactly one place: in use, free, being destroyed, or destroyed (once);
the objects in use are exactly the ones some pointer points to, so no pointer points to an object that is free or destroyed. -/
theorem c139_places (l : List Act) (s : State) (h : run State.init l = some s) :
    (∀ p, p < s.next → s.used.count p + s.free.count p + s.deleted.count p + s.stack.count (.del p) = 1)
    ∧ (∀ p, s.next ≤ p → p ∉ s.used ∧ p ∉ s.free ∧ p ∉ s.deleted ∧ .del p ∉ s.stack)
    ∧ (∀ p, p ∈ s.used ↔ ∃ x ∈ s.vars, x.obj = p) := by
  have hi := run_inv l _ s inv_init h
  refine ⟨fun p hp => by have := hi.once p; rw [if_pos hp] at this; exact this, fun p hp => ?_, hi.inUse⟩
  have := hi.once p
  rw [if_neg (by omega)] at this
  exact ⟨List.count_eq_zero.1 (by omega), List.count_eq_zero.1 (by omega), List.count_eq_zero.1 (by omega), List.count_eq_zero.1 (by omega)⟩

/-- C139: `Finalize` of an object is called once for every time the object was taken and returned: never twice without a `make` between, and it was called for every object that is not in use. -/
theorem c139_turns (l : List Act) (s : State) (h : run State.init l = some s) (p : Nat) :
    s.log.count (.taken p) = s.log.count (.finalize p) + (if p ∈ s.used then 1 else 0) := by
  have hi := run_inv l _ s inv_init h
  have ht := hi.turns p
  have ho := hi.once p
  split
  · rename_i hm
    have := List.count_pos_iff.2 hm
    have := ite_one (p < s.next)
    omega
  · rename_i hm
    rw [List.count_eq_zero.2 hm] at ht; exact ht

/-- C139: the object that `make` hands out was not in use and is in use then, by the new pointer only; objects that are being destroyed or are destroyed are not handed out. -/
theorem c139_make (l : List Act) (s s' : State) (h : run State.init l = some s) (v : Nat) (o : Option Nat) (hs : step s (.make v o) = some s') :
    ∃ p, s'.vars = ⟨v, o, p⟩ :: s.vars ∧ (∀ x ∈ s.vars, x.obj ≠ p) ∧ p ∉ s.deleted ∧ .del p ∉ s.stack ∧ p ∈ s'.used := by
  have hi := run_inv l _ s inv_init h
  obtain ⟨p, s1, e1, e2, e3, e4, e5, e6, k1, k2, k3, k4, k5, k6⟩ := take_spec s hi
  simp only [step] at hs
  split at hs
  · rw [e1] at hs; simp only [Option.some.injEq] at hs; subst hs
    refine ⟨p, by simp only [e4], fun x hx e => ?_, k2, k3, by simp⟩
    have := List.count_pos_iff.2 ((hi.inUse p).2 ⟨x, hx, e⟩)
    omega
  · cases hs

/-- C139: `make` that fails for want of memory changes no pointer and no object in use, and calls `Finalize` of the object it had taken, which is free then. -/
theorem c139_make_fails (l : List Act) (s s' : State) (h : run State.init l = some s) (hs : step s .makeFail = some s') :
    ∃ p, s'.vars = s.vars ∧ (∀ q, q ∈ s'.used ↔ q ∈ s.used) ∧ s'.deleted = s.deleted ∧ p ∉ s.used ∧ p ∈ s'.free ∧ s'.stack = .fin p :: s.stack
      ∧ s'.log = .finalize p :: .taken p :: s.log := by
  have hi := run_inv l _ s inv_init h
  have hi' := step_inv s s' .makeFail hi hs
  obtain ⟨p, s1, e1, e2, e3, e4, e5, e6, k1, k2, k3, k4, k5, k6⟩ := take_spec s hi
  simp only [step] at hs
  split at hs
  · rw [e1] at hs; simp only [Option.some.injEq] at hs
    have hv : s'.vars = s.vars := by rw [← hs]; simp only [deleter, e4]
    refine ⟨p, hv, fun q => by rw [hi'.inUse, hi.inUse, hv], by rw [← hs]; simp only [deleter, e3], List.count_eq_zero.1 k1, ?_, ?_, ?_⟩
    · rw [← hs]; simp [deleter]
    · rw [← hs]; simp only [deleter, e5]
    · rw [← hs]; simp only [deleter, e6]
  · cases hs

/-- C139: dropping a pointer that is not the last one to its object calls nothing; dropping the last one returns the object to the pool and calls its `Finalize`, once. -/
theorem c139_drop (l : List Act) (s s' : State) (h : run State.init l = some s) (v : Nat) (hs : step s (.drop v) = some s') :
    ∃ x ∈ s.vars, x.name = v ∧ (∀ y, y ∈ s'.vars ↔ y ∈ s.vars ∧ y ≠ x)
      ∧ ((∃ y ∈ s.vars, y ≠ x ∧ y.obj = x.obj) → s'.stack = s.stack ∧ s'.free = s.free ∧ s'.used = s.used ∧ s'.log = s.log)
      ∧ ((∀ y ∈ s.vars, y ≠ x → y.obj ≠ x.obj) → s'.stack = .fin x.obj :: s.stack ∧ s'.free = s.free ++ [x.obj] ∧ x.obj ∉ s'.used ∧ s'.log = .finalize x.obj :: s.log) := by
  have hi := run_inv l _ s inv_init h
  have hi' := step_inv s s' _ hi hs
  simp only [step] at hs
  split at hs
  · split at hs
    · cases hs
    · rename_i x hx
      obtain ⟨hx1, hx2⟩ := find_var hx
      have hmem : ∀ y, y ∈ s.vars.filter (·.name != v) ↔ y ∈ s.vars ∧ y ≠ x := by
        intro y
        simp only [List.mem_filter, bne_iff_ne, ne_eq]
        constructor
        · rintro ⟨a, b⟩; exact ⟨a, fun e => b (e ▸ hx2)⟩
        · rintro ⟨a, b⟩; exact ⟨a, fun e => b (names_inj hi.names a hx1 (e.trans hx2.symm))⟩
      split at hs
      · rename_i ha
        simp only [Option.some.injEq] at hs; subst hs
        obtain ⟨y, hy1, hy2⟩ := List.any_eq_true.1 ha
        simp only [beq_iff_eq] at hy2
        refine ⟨x, hx1, hx2, hmem, fun _ => ⟨rfl, rfl, rfl, rfl⟩, fun hno => ?_⟩
        exact absurd hy2 (hno y ((hmem y).1 hy1).1 ((hmem y).1 hy1).2)
      · rename_i ha
        simp only [Option.some.injEq] at hs
        have hv : s'.vars = s.vars.filter (·.name != v) := by rw [← hs]; rfl
        refine ⟨x, hx1, hx2, by rw [hv]; exact hmem, fun ⟨y, hy1, hy2, hy3⟩ => ?_, fun hno => ⟨by rw [← hs]; rfl, by rw [← hs]; rfl, fun hu => ?_, by rw [← hs]; rfl⟩⟩
        · exact absurd (List.any_eq_true.2 ⟨y, (hmem y).2 ⟨hy1, hy2⟩, by simpa using hy3⟩) ha
        · obtain ⟨y, hy1, hy2⟩ := (hi'.inUse _).1 hu
          rw [hv] at hy1
          exact hno y ((hmem y).1 hy1).1 ((hmem y).1 hy1).2 hy2
  · cases hs

/-- While the loop of `clear` is on the stack, a step leaves it there or ends it with no object free. -/
theorem clearing_step {s s' : State} {a st : List Frame} {x : Act} (hst : s.stack = a ++ .clearing :: st) (hs : step s x = some s') :
    (∃ b, s'.stack = b ++ .clearing :: st) ∨ (s'.stack = st ∧ s'.free = []) := by
  have htake : (take s).2.stack = s.stack := by simp only [take]; split <;> rfl
  cases x with
  | make v o =>
    simp only [step] at hs
    split at hs <;> simp at hs
    subst hs
    exact .inl ⟨a, by simp [htake, hst]⟩
  | makeFail =>
    simp only [step] at hs
    split at hs <;> simp at hs
    subst hs
    exact .inl ⟨.fin (take s).1 :: a, by simp [deleter, htake, hst]⟩
  | share v o w =>
    simp only [step] at hs
    split at hs <;> try (simp at hs; done)
    split at hs <;> simp at hs
    subst hs
    exact .inl ⟨a, hst⟩
  | drop v =>
    simp only [step] at hs
    split at hs <;> try (simp at hs; done)
    split at hs <;> try (simp at hs; done)
    next y _ =>
    split at hs <;> simp at hs <;> subst hs
    · exact .inl ⟨a, hst⟩
    · exact .inl ⟨.fin y.obj :: a, by simp [deleter, hst]⟩
  | clear =>
    simp only [step] at hs
    split at hs <;> simp at hs
    subst hs
    exact .inl ⟨.clearing :: a, by simp [hst]⟩
  | ret =>
    simp only [step] at hs
    cases a with
    | nil =>
      simp only [List.nil_append] at hst
      simp only [hst] at hs
      split at hs <;> simp at hs <;> subst hs
      · next hf => exact .inr ⟨rfl, hf⟩
      · next p fr _ => exact .inl ⟨[.del p], by simp⟩
    | cons f a =>
      simp only [List.cons_append] at hst
      cases f with
      | fin p => simp [hst] at hs; subst hs; exact .inl ⟨a, rfl⟩
      | del p =>
        simp only [hst] at hs
        split at hs <;> simp at hs
        subst hs
        exact .inl ⟨a, rfl⟩
      | clearing =>
        simp only [hst] at hs
        split at hs <;> simp at hs <;> subst hs
        · exact .inl ⟨a, rfl⟩
        · next p fr _ => exact .inl ⟨.del p :: .clearing :: a, by simp⟩

theorem clearing_run {st : List Frame} : ∀ (l : List Act) (s s' : State) (a : List Frame), s.stack = a ++ .clearing :: st → run s l = some s' →
    (∃ b, s'.stack = b ++ .clearing :: st) ∨ ∃ l₁ l₂ s₁, l = l₁ ++ l₂ ∧ run s l₁ = some s₁ ∧ s₁.stack = st ∧ s₁.free = []
  | [], s, s', a, hst, h => by simp only [run, Option.some.injEq] at h; subst h; exact .inl ⟨a, hst⟩
  | x :: l, s, s', a, hst, h => by
    simp only [run] at h
    obtain ⟨s₁, e, h⟩ := Option.bind_eq_some_iff.1 h
    rcases clearing_step hst e with ⟨b, hb⟩ | hb
    · rcases clearing_run l s₁ s' b hb h with h' | ⟨l₁, l₂, s₂, e1, e2, h'⟩
      · exact .inl h'
      · exact .inr ⟨x :: l₁, l₂, s₂, by simp [e1], by simp only [run, e, Option.bind_some, e2], h'⟩
    · exact .inr ⟨[x], l, s₁, rfl, by simp only [run, e, Option.bind_some], hb⟩

/-- C139: `clear` runs until no object is free, those included that the destructors gave back while it ran: whatever happens after it was called, it still runs, or
there was the moment of its end, when no object was free. -/
theorem c139_clear (s s₀ s' : State) (l : List Act) (h0 : step s .clear = some s₀) (h : run s₀ l = some s') :
    (∃ b, s'.stack = b ++ .clearing :: s.stack) ∨ ∃ l₁ l₂ s₁, l = l₁ ++ l₂ ∧ run s₀ l₁ = some s₁ ∧ s₁.stack = s.stack ∧ s₁.free = [] := by
  simp only [step] at h0
  split at h0 <;> simp at h0
  subst h0
  exact clearing_run l _ s' [] rfl h

/-- C139: when nothing runs, no pointer is left and no object is free (as after `clear`), every object that was ever made has been destroyed exactly once, and `Finalize` was called each time
it had been taken. -/
theorem c139_all_destroyed (l : List Act) (s : State) (h : run State.init l = some s) (h1 : s.stack = []) (h2 : s.vars = []) (h3 : s.free = []) :
    ∀ p, p < s.next → s.deleted.count p = 1 ∧ s.log.count (.finalize p) = s.log.count (.taken p) := by
  intro p hp
  have hi := run_inv l _ s inv_init h
  have hu : p ∉ s.used := fun hx => by
    obtain ⟨x, hx, _⟩ := (hi.inUse p).1 hx
    rw [h2] at hx; cases hx
  have ho := hi.once p
  have ht := hi.turns p
  rw [if_pos hp, h1, h3, List.count_eq_zero.2 hu] at ho
  rw [List.count_eq_zero.2 hu] at ht
  exact ⟨by simpa using ho, by omega⟩

/-! ### Histories in which `Finalize` takes nothing and does not clear -/

structure CalmInv (s : State) : Prop where
  inv : Inv s
  finFree : ∀ p, .fin p ∈ s.stack → p ∈ s.free
  finOnce : ∀ p, s.stack.count (.fin p) ≤ 1
  below : ∀ a b, s.stack = a ++ .clearing :: b → ∀ p, Frame.fin p ∉ b

theorem calm_init : CalmInv State.init := ⟨inv_init, by simp [State.init], by simp [State.init], by simp [State.init]⟩

theorem below_cons {f : Frame} {st : List Frame} (hf : f = .clearing → ∀ p, Frame.fin p ∉ st) (h : ∀ a b, st = a ++ .clearing :: b → ∀ p, Frame.fin p ∉ b) :
    ∀ a b, f :: st = a ++ .clearing :: b → ∀ p, Frame.fin p ∉ b := by
  intro a b e p
  cases a with
  | nil => simp only [List.nil_append, List.cons.injEq] at e; rw [← e.2]; exact hf e.1 p
  | cons x a => simp only [List.cons_append, List.cons.injEq] at e; exact h a b e.2 p

theorem below_tail {f : Frame} {st : List Frame} (h : ∀ a b, f :: st = a ++ .clearing :: b → ∀ p, Frame.fin p ∉ b) : ∀ a b, st = a ++ .clearing :: b → ∀ p, Frame.fin p ∉ b :=
  fun a b e => h (f :: a) b (by rw [e]; rfl)

theorem fin_count_cons {p q : Nat} {st : List Frame} (h : ∀ r, st.count (.fin r) ≤ 1) (hn : .fin p ∉ st) : (Frame.fin p :: st).count (.fin q) ≤ 1 := by
  rw [List.count_cons]
  by_cases e : p = q
  · subst e; rw [List.count_eq_zero.2 hn]; simp
  · have := h q; simp [e]; exact this

theorem step_calm (s s' : State) (a : Act) (h : CalmInv s) (hc : (∃ p, Frame.fin p ∈ s.stack) → (∀ v o, a ≠ .make v o) ∧ a ≠ .makeFail ∧ a ≠ .clear)
    (hs : step s a = some s') : CalmInv s' := by
  have hi' := step_inv s s' a h.inv hs
  have no (p : Nat) (hp : Frame.fin p ∈ s.stack) : (∀ v o, a ≠ .make v o) ∧ a ≠ .makeFail ∧ a ≠ .clear := hc ⟨p, hp⟩
  cases a with
  | make v o =>
    have hn : ∀ p, Frame.fin p ∉ s.stack := fun p hp => (no p hp).1 v o rfl
    obtain ⟨p, s1, e1, e2, e3, e4, e5, e6, k1, k2, k3, k4, k5, k6⟩ := take_spec s h.inv
    simp only [step] at hs
    split at hs
    · rw [e1] at hs; simp only [Option.some.injEq] at hs
      have hst : s'.stack = s.stack := by rw [← hs]; exact e5
      exact ⟨hi', fun q hq => absurd (hst ▸ hq) (hn q), by rw [hst]; exact h.finOnce, by rw [hst]; exact h.below⟩
    · cases hs
  | makeFail =>
    have hn : ∀ p, Frame.fin p ∉ s.stack := fun p hp => (no p hp).2.1 rfl
    obtain ⟨p, s1, e1, e2, e3, e4, e5, e6, k1, k2, k3, k4, k5, k6⟩ := take_spec s h.inv
    simp only [step] at hs
    split at hs
    · rw [e1] at hs; simp only [Option.some.injEq] at hs
      have hst : s'.stack = .fin p :: s.stack := by rw [← hs]; simp only [deleter, e5]
      refine ⟨hi', fun q hq => ?_, fun q => by rw [hst]; exact fin_count_cons h.finOnce (hn p), by rw [hst]; exact below_cons (by intro e; cases e) h.below⟩
      rw [hst] at hq
      rcases List.mem_cons.1 hq with e | hq
      · cases e; rw [← hs]; simp [deleter]
      · exact absurd hq (hn q)
    · cases hs
  | share v o w =>
    simp only [step] at hs
    split at hs
    · split at hs
      · simp only [Option.some.injEq] at hs; subst hs
        exact ⟨hi', h.finFree, h.finOnce, h.below⟩
      · cases hs
    · cases hs
  | drop v =>
    simp only [step] at hs
    split at hs
    · split at hs
      · cases hs
      · rename_i x hx
        split at hs
        · simp only [Option.some.injEq] at hs; subst hs
          exact ⟨hi', h.finFree, h.finOnce, h.below⟩
        · simp only [Option.some.injEq] at hs
          have hst : s'.stack = .fin x.obj :: s.stack := by rw [← hs]; rfl
          have hfr : s'.free = s.free ++ [x.obj] := by rw [← hs]; rfl
          have hn : Frame.fin x.obj ∉ s.stack := fun hm => by
            have h1 := List.count_pos_iff.2 (h.finFree _ hm)
            have h2 := List.count_pos_iff.2 ((h.inv.inUse x.obj).2 ⟨x, (find_var hx).1, rfl⟩)
            have h3 := h.inv.once x.obj
            have h4 := ite_one (x.obj < s.next)
            omega
          refine ⟨hi', fun q hq => ?_, fun q => by rw [hst]; exact fin_count_cons h.finOnce hn, by rw [hst]; exact below_cons (by intro e; cases e) h.below⟩
          rw [hst] at hq
          rw [hfr]
          rcases List.mem_cons.1 hq with e | hq
          · cases e; simp
          · exact List.mem_append_left _ (h.finFree q hq)
    · cases hs
  | clear =>
    have hn : ∀ p, Frame.fin p ∉ s.stack := fun p hp => (no p hp).2.2 rfl
    simp only [step] at hs
    split at hs
    · simp only [Option.some.injEq] at hs; subst hs
      refine ⟨hi', fun q hq => ?_, fun q => ?_, below_cons (fun _ => hn) h.below⟩
      · rcases List.mem_cons.1 hq with e | hq
        · cases e
        · exact absurd hq (hn q)
      · simpa using h.finOnce q
    · cases hs
  | ret =>
    simp only [step] at hs
    have hf := h.finFree
    have ho := h.finOnce
    have hb := h.below
    split at hs
    · cases hs
    · rename_i q st hst
      simp only [Option.some.injEq] at hs; subst hs
      rw [hst] at hf ho hb
      exact ⟨hi', fun p hp => hf p (List.mem_cons_of_mem _ hp), fun p => Nat.le_trans (List.count_le_count_cons) (ho p), below_tail hb⟩
    · rename_i q st hst
      split at hs
      · cases hs
      · simp only [Option.some.injEq] at hs; subst hs
        rw [hst] at hf ho hb
        exact ⟨hi', fun p hp => hf p (List.mem_cons_of_mem _ hp), fun p => Nat.le_trans (List.count_le_count_cons) (ho p), below_tail hb⟩
    · rename_i st hst
      rw [hst] at hf ho hb
      have hn := hb [] st rfl
      split at hs
      · simp only [Option.some.injEq] at hs; subst hs
        exact ⟨hi', fun p hp => absurd hp (hn p), fun p => Nat.le_trans (List.count_le_count_cons) (ho p), below_tail hb⟩
      · simp only [Option.some.injEq] at hs; subst hs
        refine ⟨hi', fun p hp => ?_, fun p => ?_, below_cons (by intro e; cases e) hb⟩
        · simp only [List.mem_cons, reduceCtorEq, false_or] at hp
          exact absurd hp (hn p)
        · simpa using ho p

theorem run_calm (l : List Act) : ∀ s s', CalmInv s → Spec.Calm s l → run s l = some s' → CalmInv s' := by
  induction l with
  | nil => intro s s' h _ hs; cases hs; exact h
  | cons a l ih =>
    intro s s' h hc hs
    simp only [run, Option.bind_eq_some_iff] at hs
    obtain ⟨s1, h1, h2⟩ := hs
    exact ih s1 s' (step_calm s s1 a h hc.1 h1) (hc.2 s1 h1) h2

/-- C139, when no object is taken and the pool is not cleared while a `Finalize` runs (pointers may be copied and dropped in it, and destructors may do everything): while `Finalize` of an object
runs the object is free: no pointer points to it, it is neither destroyed nor being destroyed, and its `Finalize` does not run a second time inside.
Missing: without the condition it is false, see `c139_taken_violated` and `c139_destroyed_violated`. -/
theorem c139_finalize_partial (l : List Act) (s : State) (hc : Spec.Calm State.init l) (h : run State.init l = some s) (p : Nat) (hp : .fin p ∈ s.stack) :
    p ∈ s.free ∧ (∀ x ∈ s.vars, x.obj ≠ p) ∧ p ∉ s.deleted ∧ .del p ∉ s.stack ∧ s.stack.count (.fin p) = 1 := by
  have hi := run_calm l _ s calm_init hc h
  have h1 := List.count_pos_iff.2 (hi.finFree p hp)
  have h2 := hi.inv.once p
  have h3 := ite_one (p < s.next)
  refine ⟨hi.finFree p hp, fun x hx e => ?_, List.count_eq_zero.1 (by omega), List.count_eq_zero.1 (by omega), ?_⟩
  · have := List.count_pos_iff.2 ((hi.inv.inUse p).2 ⟨x, hx, e⟩)
    omega
  · have := List.count_pos_iff.2 hp
    have := hi.finOnce p
    omega

/-! ### The limits -/

/-- C139 is violated by a `Finalize` that takes an object: in every history, if no object is free when the last pointer to an object is dropped, the first object that its `Finalize` makes is the object
itself, which is in use again while its `Finalize` is still running. -/
theorem c139_taken_violated (s s1 : State) (v w : Nat) (o : Option Nat) (h1 : step s (.drop v) = some s1) (p : Nat) (hf : s.free = [])
    (hst : s1.stack = .fin p :: s.stack) (hw : w ∉ s1.vars.map (·.name)) :
    ∃ s2, step s1 (.make w o) = some s2 ∧ s2.vars = ⟨w, o, p⟩ :: s1.vars ∧ .fin p ∈ s2.stack := by
  have hfr : s1.free = [p] := by
    simp only [step] at h1
    split at h1
    · split at h1
      · cases h1
      · rename_i x hx
        split at h1
        · simp only [Option.some.injEq] at h1; subst h1
          have := congrArg List.length hst
          simp at this
        · simp only [Option.some.injEq] at h1; subst h1
          simp only [deleter, List.cons.injEq, Frame.fin.injEq] at hst ⊢
          rw [hf, hst.1]; rfl
    · cases h1
  have hu : userCode s1.stack = true := by rw [hst]; rfl
  refine ⟨{ s1 with free := [], log := .taken p :: s1.log, used := s1.used ++ [p], vars := ⟨w, o, p⟩ :: s1.vars }, ?_, rfl, ?_⟩
  · simp only [step]
    rw [if_pos ⟨hu, hw⟩]
    simp only [take, hfr]
  · simp only [hst]; exact List.mem_cons_self

/-- C139 is violated by a `Finalize` that clears the pool: the object is destroyed while its `Finalize` is still running. -/
theorem c139_destroyed_violated : ∃ s, run State.init [.make 0 none, .drop 0, .clear, .ret, .ret] = some s ∧ 0 ∈ s.deleted ∧ .fin 0 ∈ s.stack := ⟨_, rfl, by decide, by decide⟩

/-- C139 is violated by a `Finalize` that takes and drops: `Finalize` of the object runs inside of its own `Finalize`. -/
theorem c139_nested_violated : ∃ s, run State.init [.make 0 none, .drop 0, .make 1 none, .drop 1] = some s ∧ s.stack = [.fin 0, .fin 0] := ⟨_, rfl, rfl⟩

/-! ### Examples -/

/-- Object 0 has a member that points to object 1: the pointer is dropped by `Finalize` of 0, both are free then, and `clear` destroys both. -/
def story : List Act := [.make 0 none, .make 1 (some 0), .drop 0, .drop 1, .ret, .ret, .clear, .ret, .ret, .ret, .ret, .ret]

example : (run State.init (story.take 4)).map (·.stack) = some [.fin 1, .fin 0] := rfl
example : run State.init story = some ⟨[], [], 2, [1, 0], [], [], [.finalize 1, .finalize 0, .taken 1, .taken 0]⟩ := rfl
/-- The member is dropped by the destructor while `clear` runs: it is returned to the pool, and destroyed by the same loop. -/
example : run State.init [.make 0 none, .make 1 (some 0), .drop 0, .ret, .clear, .ret, .drop 1, .ret, .ret, .ret, .ret, .ret] =
    some ⟨[], [], 2, [1, 0], [], [], [.finalize 1, .finalize 0, .taken 1, .taken 0]⟩ := rfl
example : Spec.Calm State.init [.make 0 none, .makeFail, .ret, .drop 0, .ret, .clear] := by simp [Spec.Calm, State.init, step, take, userCode, deleter]
example : (run State.init [.make 0 none, .makeFail]).map (fun s => (s.free, s.used, s.stack)) = some ([1], [0], [.fin 1]) := rfl

end Verif.ObjectPool.Fin
