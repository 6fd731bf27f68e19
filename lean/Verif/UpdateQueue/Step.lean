import Verif.UpdateQueue.Lemmas

/-! # Every step keeps the invariant -/

namespace Verif.UpdateQueue

attribute [local simp] List.countP_cons List.filterMap_cons

variable {U : Type}

/-- All the items are possible for the abstract queue, and what is applied is what comes next. -/
def Accepts (a : Abs U) : List (Item U) → Abs U → Prop
  | [], b => a = b
  | x :: xs, b => absOK a x ∧ ∃ a', absStep a x = some a' ∧ Accepts a' xs b

theorem Accepts.append {xs ys : List (Item U)} : ∀ {a b c : Abs U}, Accepts a xs b → Accepts b ys c →
    Accepts a (xs ++ ys) c := by
  induction xs with
  | nil => intro a b c h1 h2; cases h1; exact h2
  | cons x xs ih =>
    intro a b c h1 h2
    obtain ⟨q1, a', q2, q3⟩ := h1
    exact ⟨q1, a', q2, ih q3 h2⟩

theorem Accepts.split {xs ys : List (Item U)} : ∀ {a c : Abs U}, Accepts a (xs ++ ys) c →
    ∃ b, Accepts a xs b ∧ Accepts b ys c := by
  induction xs with
  | nil => intro a c h; exact ⟨a, rfl, h⟩
  | cons x xs ih =>
    intro a c h
    obtain ⟨q1, a', q2, q3⟩ := h
    obtain ⟨b, r1, r2⟩ := ih q3
    exact ⟨b, ⟨q1, a', q2, r1⟩, r2⟩

variable {s : Sys U} {W : List (Nat × U)} {B : Option (List U)} {X : List Nat}

theorem released_func (h : Released s) {f : Nat → Option U} (hf : ∀ m ∈ s.rendering, f m = s.func m) :
    Released { s with func := f } := by
  simp only [Released] at h ⊢
  split at h
  · intro j m hj hm
    rw [hf m (List.mem_of_getElem? hm)]; exact h j m hj hm
  · intro j m hj hm
    rw [hf m (List.mem_of_getElem? hm)]; exact h j m hj hm
  · trivial

theorem inflight_unlock (h : Inv s W B X) {t : Nat} {f : Frame U} {fs : List (Frame U)} {s1 : Sys U}
    (ho : s.owner = some t) (hst : s.stack t = f :: fs) (hf : f.holds = true)
    (hc : (s.depth = 1 ∧ s1 = { s with owner := none, depth := 0 }) ∨
      (1 < s.depth ∧ s1 = { s with depth := s.depth - 1 })) :
    inflight (s1.setStack t fs) = fs.filterMap Frame.msg := by
  rcases hc with ⟨hd, rfl⟩ | ⟨_, rfl⟩
  · have h1 := h.lock t
    rw [if_pos ho, hd] at h1
    simp only [held, hst, List.countP_cons, hf, if_true] at h1
    rw [msgs_nil_of_held (fs := fs) (by omega)]
    rfl
  · simp [inflight, Sys.setStack, ho]

theorem Inv.stepFrame (h : Inv s W B X) {t : Nat} {throws : Bool} {f : Frame U} {fs : List (Frame U)}
    (hst : s.stack t = f :: fs) : stepFrame s t throws f fs ≠ .ub ∧
    ∀ s' items, stepFrame s t throws f fs = .ok s' items → ∃ W' B' X', Accepts (W, B) items (W', B') ∧ (X' = X ∨ ∃ t, Item.pushThrew t ∈ items) ∧ Inv s' W' B' X' := by
  have hcp := h.shape t f fs hst
  have hnl := copies_no_link hcp
  have huser : t = 0 → s.phase.user = true := by
    rintro rfl; exact h.user0 (by rw [hst]; simp)
  have hu0 : ∀ (s1 : Sys U) (gs : List (Frame U)), s1.phase = s.phase → (∀ k, s1.stack k = s.stack k) →
      (s1.setStack t gs).stack 0 ≠ [] → (s1.setStack t gs).phase.user = true := by
    intro s1 gs hp hs hne
    show s1.phase.user = true
    rw [hp]
    by_cases ht : t = 0
    · exact huser ht
    · apply h.user0
      simpa [Sys.setStack, Ne.symm ht, hs] using hne
  have hheldt : held s t = (f :: fs).countP Frame.holds + (if t = 0 ∧ s.phase.holds then 1 else 0) := by
    simp only [held, hst]
  have hlinkO : ∀ t' m u, t' ≠ t → Frame.pushLink m u ∈ s.stack t' → s.func m = some u :=
    fun t' m u _ hm => h.link t' m u hm
  cases f with
  | pushLock u =>
    simp only [UpdateQueue.stepFrame]
    cases hl : s.lock t with
    | none => simp
    | some s1 =>
      refine ⟨by simp, ?_⟩
      intro s' items he
      cases he
      obtain ⟨q1, q2, q3, q4, q5⟩ := h.locked hl
      have hl2 := lock_lock h hl (s2 := s1.setStack t (.pushTake u :: fs)) rfl rfl
        (by rw [q3, held_setStack]; simp [hheldt, Frame.holds]; omega)
        (by intro t' hne; rw [q3, held_setStack, if_neg hne]; rfl)
      refine ⟨W, B, X, rfl, Or.inl rfl, hl2.1, hl2.2, ?_, ?_, ?_, ?_, ?_, ?_, ?_⟩
      · have hi : inflight (s1.setStack t (.pushTake u :: fs)) = inflight s := by
          rw [← q4]
          simp only [inflight, Sys.setStack, q1, if_true]
          rw [q3]; simp [hst, Frame.msg]
        intro m
        rw [hi]
        have := h.msgs m
        rw [q3]; exact this
      · rw [q3]; exact h.pend
      · rw [q3]; exact shape_set h.shape (by rintro f gs he; cases he; exact hcp)
      · rw [q3]; exact link_set (s := { s with owner := s1.owner, depth := s1.depth }) hlinkO (by
          intro m u' hm
          simp only [List.mem_cons, reduceCtorEq, false_or] at hm
          exact absurd hm (hnl m u'))
      · rw [q3]; exact hu0 _ _ rfl (fun _ => rfl)
      · rw [q3]; exact h.batch
      · rw [q3]; exact h.released
  | pushTake u =>
    have ho : s.owner = some t := h.owner_of_frame (f := .pushTake u) (by rw [hst]; simp) rfl
    have hinf : inflight s = fs.filterMap Frame.msg := by simp [inflight, ho, hst, Frame.msg]
    simp only [UpdateQueue.stepFrame]
    cases hfree : s.free with
    | nil =>
      cases throws with
      | true =>
        obtain ⟨s1, k1, k2⟩ := unlock_some h ho
        rw [if_pos rfl, k1]
        refine ⟨by simp, ?_⟩
        intro s' items he
        cases he
        have hs1 : s1.stack = s.stack ∧ s1.phase = s.phase ∧ s1.pending = s.pending ∧ s1.free = s.free ∧
            s1.rendering = s.rendering ∧ s1.func = s.func ∧ s1.next = s.next := by
          rcases k2 with ⟨_, rfl⟩ | ⟨_, rfl⟩ <;> exact ⟨rfl, rfl, rfl, rfl, rfl, rfl, rfl⟩
        obtain ⟨e1, e2, e3, e4, e5, e6, e7⟩ := hs1
        have hl2 := unlock_lock h ho k2 (s2 := s1.setStack t fs) rfl rfl
          (by rw [held_setStack, if_pos rfl, hheldt, e2]; simp [Frame.holds]; omega)
          (by intro t' hne; rw [held_setStack, if_neg hne]; simp [held, e1, e2])
        refine ⟨W, B, X, ⟨trivial, _, rfl, rfl⟩, Or.inl rfl, hl2.1, hl2.2, ?_, ?_, ?_, ?_, ?_, ?_, ?_⟩
        · intro m'
          have h1 := h.msgs m'
          rw [hinf] at h1
          rw [inflight_unlock h ho hst rfl k2]
          show s1.pending.count m' + s1.free.count m' + s1.rendering.count m' + _ + _ = if m' < s1.next then 1 else 0
          rw [e3, e4, e5]; simp only [e7]
          omega
        · show s1.pending.map s1.func = _
          rw [e3, e6]; exact h.pend
        · exact shape_set (by rw [e1]; exact h.shape) (copies_shape hcp)
        · show ∀ t' m u, _ → s1.func m = some u
          rw [e6]
          exact link_set (by rw [e1]; exact hlinkO) (fun m u hm => absurd hm (hnl m u))
        · exact hu0 _ _ e2 (fun k => by rw [e1])
        · show BatchOK (s1.setStack t fs) B
          have := h.batch
          simp only [BatchOK, Sys.setStack] at this ⊢
          rw [e2, e5, e6]; exact this
        · have := h.released
          simp only [Released, Sys.setStack] at this ⊢
          rw [e2, e5, e6]; exact this
      | false =>
        simp only [Bool.false_eq_true, if_false]
        refine ⟨by simp, ?_⟩
        intro s' items he
        cases he
        refine ⟨W, B, X, rfl, Or.inl rfl, ?_, h.pos, ?_, h.pend, ?_, ?_, hu0 _ _ rfl (fun _ => rfl), h.batch, h.released⟩
        · intro t'
          have := h.lock t'
          rw [held_setStack]
          show _ = if s.owner = some t' then s.depth else 0
          rw [← this]
          split
          · next he => subst he; rw [hheldt]; simp [Frame.holds]
          · rfl
        · intro m
          have h1 := h.msgs m
          have : inflight (({ s with free := [], next := s.next + 1 } : Sys U).setStack t (.pushCopy s.next u :: fs)) =
              s.next :: fs.filterMap Frame.msg := by
            simp [inflight, Sys.setStack, ho, Frame.msg]
          rw [this]
          rw [hinf, hfree] at h1
          simp only [List.count_nil] at h1
          simp only [Sys.setStack, List.count_cons, List.count_nil, beq_iff_eq]
          by_cases e : s.next = m
          · subst e; simp at h1 ⊢; omega
          · rw [if_neg e]
            by_cases hlt : m < s.next
            · rw [if_pos hlt] at h1; rw [if_pos (by omega)]; omega
            · rw [if_neg hlt] at h1; rw [if_neg (by omega)]; omega
        · exact shape_set h.shape (by rintro f gs he; cases he; exact hcp)
        · exact link_set hlinkO (by
            intro m u' hm
            simp only [List.mem_cons, reduceCtorEq, false_or] at hm
            exact absurd hm (hnl m u'))
    | cons m free =>
      refine ⟨by simp, ?_⟩
      intro s' items he
      cases he
      refine ⟨W, B, X, rfl, Or.inl rfl, ?_, h.pos, ?_, h.pend, ?_, ?_, hu0 _ _ rfl (fun _ => rfl), h.batch, h.released⟩
      · intro t'
        have := h.lock t'
        rw [held_setStack]
        show _ = if s.owner = some t' then s.depth else 0
        rw [← this]
        split
        · next he => subst he; rw [hheldt]; simp [Frame.holds]
        · rfl
      · intro m'
        have h1 := h.msgs m'
        have : inflight (({ s with free := free } : Sys U).setStack t (.pushCopy m u :: fs)) =
            m :: fs.filterMap Frame.msg := by
          simp [inflight, Sys.setStack, ho, Frame.msg]
        rw [this]
        rw [hinf, hfree] at h1
        simp only [Sys.setStack, List.count_cons, beq_iff_eq] at h1 ⊢
        omega
      · exact shape_set h.shape (by rintro f gs he; cases he; exact hcp)
      · exact link_set hlinkO (by
          intro m u' hm
          simp only [List.mem_cons, reduceCtorEq, false_or] at hm
          exact absurd hm (hnl m u'))
  | pushCopy m u =>
    have hmem : Frame.pushCopy m u ∈ s.stack t := by rw [hst]; simp
    have ho : s.owner = some t := h.owner_of_frame hmem rfl
    have hinf : inflight s = m :: fs.filterMap Frame.msg := by simp [inflight, ho, hst, Frame.msg]
    obtain ⟨f1, f2, f3, f4⟩ := h.fresh hmem rfl
    simp only [UpdateQueue.stepFrame]
    cases throws with
    | true =>
      obtain ⟨s1, k1, k2⟩ := unlock_some h ho
      rw [if_pos rfl, k1]
      refine ⟨by simp, ?_⟩
      intro s' items he
      cases he
      have hs1 : s1.stack = s.stack ∧ s1.phase = s.phase ∧ s1.pending = s.pending ∧ s1.free = s.free ∧
          s1.rendering = s.rendering ∧ s1.func = s.func ∧ s1.next = s.next := by
        rcases k2 with ⟨_, rfl⟩ | ⟨_, rfl⟩ <;> exact ⟨rfl, rfl, rfl, rfl, rfl, rfl, rfl⟩
      obtain ⟨e1, e2, e3, e4, e5, e6, e7⟩ := hs1
      have hl2 := unlock_lock h ho k2 (s2 := s1.setStack t fs) rfl rfl
        (by rw [held_setStack, if_pos rfl, hheldt, e2]; simp [Frame.holds]; omega)
        (by intro t' hne; rw [held_setStack, if_neg hne]; simp [held, e1, e2])
      refine ⟨W, B, m :: X, ⟨trivial, _, rfl, rfl⟩, Or.inr ⟨t, by simp⟩, hl2.1, hl2.2, ?_, ?_, ?_, ?_, ?_, ?_, ?_⟩
      · intro m'
        have h1 := h.msgs m'
        rw [hinf, List.count_cons] at h1
        rw [inflight_unlock h ho hst rfl k2, List.count_cons]
        show s1.pending.count m' + s1.free.count m' + s1.rendering.count m' + _ + _ = if m' < s1.next then 1 else 0
        rw [e3, e4, e5]; simp only [e7]
        omega
      · show s1.pending.map s1.func = _
        rw [e3, e6]; exact h.pend
      · exact shape_set (by rw [e1]; exact h.shape) (copies_shape hcp)
      · show ∀ t' m u, _ → s1.func m = some u
        rw [e6]
        exact link_set (by rw [e1]; exact hlinkO) (fun m u hm => absurd hm (hnl m u))
      · exact hu0 _ _ e2 (fun k => by rw [e1])
      · show BatchOK (s1.setStack t fs) B
        have := h.batch
        simp only [BatchOK, Sys.setStack] at this ⊢
        rw [e2, e5, e6]; exact this
      · have := h.released
        simp only [Released, Sys.setStack] at this ⊢
        rw [e2, e5, e6]; exact this
    | false =>
      simp only [Bool.false_eq_true, if_false]
      refine ⟨by simp, ?_⟩
      intro s' items he
      cases he
      refine ⟨W, B, X, rfl, Or.inl rfl, ?_, h.pos, ?_, ?_, ?_, ?_, hu0 _ _ rfl (fun _ => rfl), ?_, ?_⟩
      · intro t'
        have := h.lock t'
        rw [held_setStack]
        show _ = if s.owner = some t' then s.depth else 0
        rw [← this]
        split
        · next he => subst he; rw [hheldt]; simp [Frame.holds]
        · rfl
      · intro m'
        have h1 := h.msgs m'
        rw [hinf] at h1
        simpa [inflight, Sys.setStack, ho, Frame.msg] using h1
      · show s.pending.map (fun k => if k = m then some u else s.func k) = _
        rw [← h.pend]
        apply List.map_congr_left
        intro k hk
        rw [if_neg]; rintro rfl; exact f1 hk
      · exact shape_set h.shape (by rintro f gs he; cases he; exact hcp)
      · refine link_set (s := s) ?_ ?_
        · intro t' m' u' hne hm'
          have ho' := h.owner_of_frame hm' rfl
          rw [ho] at ho'
          exact absurd (Option.some.inj ho').symm hne
        · intro m' u' hm'
          simp only [List.mem_cons, Frame.pushLink.injEq] at hm'
          rcases hm' with ⟨rfl, rfl⟩ | hm'
          · exact if_pos rfl
          · exact absurd hm' (hnl m' u')
      · refine batchOK_func (s := s.setStack t _) h.batch ?_
        intro k hk
        exact if_neg (by rintro rfl; exact f3 hk)
      · refine released_func (s := s.setStack t _) h.released ?_
        intro k hk
        exact if_neg (by rintro rfl; exact f3 hk)
  | pushLink m u =>
    have hmem : Frame.pushLink m u ∈ s.stack t := by rw [hst]; simp
    have ho : s.owner = some t := h.owner_of_frame hmem rfl
    have hinf : inflight s = m :: fs.filterMap Frame.msg := by simp [inflight, ho, hst, Frame.msg]
    simp only [UpdateQueue.stepFrame]
    refine ⟨by simp, ?_⟩
    intro s' items he
    cases he
    refine ⟨W ++ [(t, u)], B, X, ⟨trivial, _, rfl, rfl⟩, Or.inl rfl, ?_, h.pos, ?_, ?_, ?_, ?_, hu0 _ _ rfl (fun _ => rfl), h.batch, h.released⟩
    · intro t'
      have := h.lock t'
      rw [held_setStack]
      show _ = if s.owner = some t' then s.depth else 0
      rw [← this]
      split
      · next he => subst he; rw [hheldt]; simp [Frame.holds]
      · rfl
    · intro m'
      have h1 := h.msgs m'
      have : inflight (({ s with pending := s.pending ++ [m] } : Sys U).setStack t (.unlock (some u) :: fs)) =
          fs.filterMap Frame.msg := by
        simp [inflight, Sys.setStack, ho, Frame.msg]
      rw [this]
      rw [hinf] at h1
      simp only [Sys.setStack, List.count_append, List.count_cons, List.count_nil] at h1 ⊢
      omega
    · show (s.pending ++ [m]).map s.func = _
      rw [List.map_append, List.map_append, h.pend]
      simp [h.link t m u hmem]
    · exact shape_set h.shape (by rintro f gs he; cases he; exact hcp)
    · exact link_set hlinkO (by
        intro m u' hm
        simp only [List.mem_cons, reduceCtorEq, false_or] at hm
        exact absurd hm (hnl m u'))
  | clearLock =>
    simp only [UpdateQueue.stepFrame]
    cases hl : s.lock t with
    | none => simp
    | some s1 =>
      refine ⟨by simp, ?_⟩
      intro s' items he
      cases he
      obtain ⟨q1, q2, q3, q4, q5⟩ := h.locked hl
      have hl2 := lock_lock h hl (s2 := s1.setStack t (.clearSplice :: fs)) rfl rfl
        (by rw [q3, held_setStack]; simp [hheldt, Frame.holds]; omega)
        (by intro t' hne; rw [q3, held_setStack, if_neg hne]; rfl)
      refine ⟨W, B, X, rfl, Or.inl rfl, hl2.1, hl2.2, ?_, ?_, ?_, ?_, ?_, ?_, ?_⟩
      · have hi : inflight (s1.setStack t (.clearSplice :: fs)) = inflight s := by
          rw [← q4]
          simp only [inflight, Sys.setStack, q1, if_true]
          rw [q3]; simp [hst, Frame.msg]
        intro m
        rw [hi]
        have := h.msgs m
        rw [q3]; exact this
      · rw [q3]; exact h.pend
      · rw [q3]; exact shape_set h.shape (by rintro f gs he; cases he; exact hcp)
      · rw [q3]; exact link_set (s := { s with owner := s1.owner, depth := s1.depth }) hlinkO (by
          intro m u' hm
          simp only [List.mem_cons, reduceCtorEq, false_or] at hm
          exact absurd hm (hnl m u'))
      · rw [q3]; exact hu0 _ _ rfl (fun _ => rfl)
      · rw [q3]; exact h.batch
      · rw [q3]; exact h.released
  | clearSplice =>
    have ho : s.owner = some t := h.owner_of_frame (f := .clearSplice) (by rw [hst]; simp) rfl
    have hinf : inflight s = fs.filterMap Frame.msg := by simp [inflight, ho, hst, Frame.msg]
    simp only [UpdateQueue.stepFrame]
    refine ⟨by simp, ?_⟩
    intro s' items he
    cases he
    refine ⟨[], B, X, ⟨trivial, _, rfl, rfl⟩, Or.inl rfl, ?_, h.pos, ?_, rfl, ?_, ?_, hu0 _ _ rfl (fun _ => rfl), h.batch, h.released⟩
    · intro t'
      have := h.lock t'
      rw [held_setStack]
      show _ = if s.owner = some t' then s.depth else 0
      rw [← this]
      split
      · next he => subst he; rw [hheldt]; simp [Frame.holds]
      · rfl
    · intro m'
      have h1 := h.msgs m'
      have : inflight (({ s with free := s.free ++ s.pending, pending := [] } : Sys U).setStack t (.unlock none :: fs)) =
          fs.filterMap Frame.msg := by
        simp [inflight, Sys.setStack, ho, Frame.msg]
      rw [this]
      rw [hinf] at h1
      simp only [Sys.setStack, List.count_append, List.count_nil] at h1 ⊢
      omega
    · exact shape_set h.shape (by rintro f gs he; cases he; exact hcp)
    · exact link_set hlinkO (by
        intro m u' hm
        simp only [List.mem_cons, reduceCtorEq, false_or] at hm
        exact absurd hm (hnl m u'))
  | unlock u =>
    have ho : s.owner = some t := h.owner_of_frame (f := .unlock u) (by rw [hst]; simp) rfl
    have hinf : inflight s = fs.filterMap Frame.msg := by simp [inflight, ho, hst, Frame.msg]
    simp only [UpdateQueue.stepFrame]
    obtain ⟨s1, k1, k2⟩ := unlock_some h ho
    rw [k1]
    refine ⟨by simp, ?_⟩
    intro s' items he
    cases he
    have hs1 : s1.stack = s.stack ∧ s1.phase = s.phase ∧ s1.pending = s.pending ∧ s1.free = s.free ∧
        s1.rendering = s.rendering ∧ s1.func = s.func ∧ s1.next = s.next := by
      rcases k2 with ⟨_, rfl⟩ | ⟨_, rfl⟩ <;> exact ⟨rfl, rfl, rfl, rfl, rfl, rfl, rfl⟩
    obtain ⟨e1, e2, e3, e4, e5, e6, e7⟩ := hs1
    have hl2 := unlock_lock h ho k2 (s2 := s1.setStack t fs) rfl rfl
      (by rw [held_setStack, if_pos rfl, hheldt, e2]; simp [Frame.holds]; omega)
      (by intro t' hne; rw [held_setStack, if_neg hne]; simp [held, e1, e2])
    refine ⟨W, B, X, ?_, Or.inl rfl, hl2.1, hl2.2, ?_, ?_, ?_, ?_, ?_, ?_, ?_⟩
    · cases u with
      | none => rfl
      | some u => exact ⟨trivial, _, rfl, rfl⟩
    · intro m'
      have h1 := h.msgs m'
      rw [hinf] at h1
      rw [inflight_unlock h ho hst rfl k2]
      show s1.pending.count m' + s1.free.count m' + s1.rendering.count m' + _ + _ = if m' < s1.next then 1 else 0
      rw [e3, e4, e5]; simp only [e7]
      exact h1
    · show s1.pending.map s1.func = _
      rw [e3, e6]; exact h.pend
    · exact shape_set (by rw [e1]; exact h.shape) (copies_shape hcp)
    · show ∀ t' m u, _ → s1.func m = some u
      rw [e6]
      exact link_set (by rw [e1]; exact hlinkO) (fun m u hm => absurd hm (hnl m u))
    · exact hu0 _ _ e2 (fun k => by rw [e1])
    · show BatchOK (s1.setStack t fs) B
      have := h.batch
      simp only [BatchOK, Sys.setStack] at this ⊢
      rw [e2, e5, e6]; exact this
    · have := h.released
      simp only [Released, Sys.setStack] at this ⊢
      rw [e2, e5, e6]; exact this

/-- A step of the phase that neither locks nor unlocks. -/
theorem held_phase (s s' : Sys U) (h1 : s'.stack = s.stack) (h2 : s'.phase.holds = s.phase.holds) (t : Nat) :
    held s' t = held s t := by simp [held, h1, h2]

theorem Inv.stepPhase (h : Inv s W B X) {throws : Bool} (hst : s.stack 0 = []) : stepPhase s throws ≠ .ub ∧
    ∀ s' items, stepPhase s throws = .ok s' items → ∃ W' B' X', Accepts (W, B) items (W', B') ∧ (X' = X ∨ ∃ t, Item.pushThrew t ∈ items) ∧ Inv s' W' B' X' := by
  have hb := h.batch
  have hu0 : ∀ s' : Sys U, s'.stack = s.stack → s'.stack 0 ≠ [] → s'.phase.user = true := by
    intro s' h1 h2; rw [h1] at h2; exact absurd hst h2
  have hheld : held s 0 = if s.phase.holds then 1 else 0 := by simp [held, hst]
  simp only [UpdateQueue.stepPhase]
  cases hp : s.phase with
  | idle => simp
  | prepLock =>
    simp only [BatchOK, hp] at hb
    cases hl : s.lock 0 with
    | none => simp
    | some s1 =>
      refine ⟨by simp, ?_⟩
      intro s' items he
      cases he
      obtain ⟨q1, q2, q3, q4, q5⟩ := h.locked hl
      have hl2 := lock_lock h hl (s2 := { s1 with phase := .prepMove }) rfl rfl
        (by rw [q3, hheld]; simp [held, hst, Phase.holds, hp])
        (by intro t' hne; rw [q3]; simp [held, hne])
      have h4 : inflight { s1 with phase := Phase.prepMove } = inflight s := q4
      rw [q3] at h4 ⊢ hl2
      exact ⟨W, B, X, rfl, Or.inl rfl, hl2.1, hl2.2, fun m => by rw [h4]; exact h.msgs m, h.pend, h.shape, h.link, hu0 _ rfl, hb, trivial⟩
  | prepMove =>
    simp only [BatchOK, hp] at hb
    refine ⟨by simp, ?_⟩
    intro s' items he
    cases he
    obtain ⟨hb1, hb2⟩ := hb
    subst hb2
    refine ⟨[], some (W.map Prod.snd), X, ⟨trivial, _, rfl, rfl⟩, Or.inl rfl, ?_, h.pos, ?_, rfl, h.shape, h.link, hu0 _ rfl, ?_, trivial⟩
    · intro t; exact (held_phase s _ (by rfl) (by rw [hp]; rfl) t).trans (h.lock t)
    · intro m
      have := h.msgs m
      simp only [hb1, List.count_nil, Nat.add_zero] at this
      simp only [List.count_nil, Nat.zero_add]
      simp only [inflight] at this ⊢
      omega
    · refine ⟨_, rfl, ?_⟩
      show s.pending.map s.func = _
      rw [h.pend]; simp
  | prepUnlock =>
    simp only [BatchOK, hp] at hb
    have ho : s.owner = some 0 := h.owner_of_phase (by rw [hp]; rfl)
    obtain ⟨s1, k1, k2⟩ := unlock_some h ho
    simp only [k1]
    refine ⟨by simp, ?_⟩
    intro s' items he
    cases he
    have hs1 : s1.stack = s.stack ∧ s1.phase = s.phase ∧ s1.pending = s.pending ∧ s1.free = s.free ∧
        s1.rendering = s.rendering ∧ s1.func = s.func ∧ s1.next = s.next := by
      rcases k2 with ⟨_, rfl⟩ | ⟨_, rfl⟩ <;> exact ⟨rfl, rfl, rfl, rfl, rfl, rfl, rfl⟩
    obtain ⟨e1, e2, e3, e4, e5, e6, e7⟩ := hs1
    have hl2 := unlock_lock h ho k2 (s2 := { s1 with phase := .at_ 0 }) rfl rfl
      (by rw [hheld]; simp [held, e1, hst, Phase.holds, hp])
      (by intro t' hne; simp [held, hne, e1])
    refine ⟨W, B, X, rfl, Or.inl rfl, hl2.1, hl2.2, ?_, ?_, ?_, ?_, hu0 _ e1, ?_, trivial⟩
    · intro m
      have h1 := h.msgs m
      have : (inflight { s1 with phase := Phase.at_ 0 }).count m = (inflight s).count m := by
        rcases k2 with ⟨_, rfl⟩ | ⟨_, rfl⟩
        · simp [inflight, ho, hst]
        · simp [inflight, ho]
      show s1.pending.count m + s1.free.count m + s1.rendering.count m + _ + _ = if m < s1.next then 1 else 0
      simp only [e3, e4, e5, e7] at this ⊢
      omega
    · show s1.pending.map s1.func = _
      rw [e3, e6]; exact h.pend
    · show ∀ t f fs, s1.stack t = f :: fs → _
      rw [e1]; exact h.shape
    · show ∀ t m u, Frame.pushLink m u ∈ s1.stack t → s1.func m = some u
      rw [e1, e6]; exact h.link
    · show ∃ L, B = some L ∧ (s1.rendering.drop 0).map s1.func = L.map some
      rw [e5, e6]; simpa using hb
  | at_ i =>
    simp only [BatchOK, hp] at hb
    obtain ⟨L, hb1, hb2⟩ := hb
    subst hb1
    simp only
    cases hm : s.rendering[i]? with
    | none =>
      refine ⟨by simp, ?_⟩
      intro s' items he
      cases he
      refine ⟨W, some L, X, rfl, Or.inl rfl, ?_, h.pos, h.msgs, h.pend, h.shape, h.link, hu0 _ rfl, ⟨L, rfl, ?_⟩, trivial⟩
      · intro t; exact (held_phase s _ (by rfl) (by rw [hp]; rfl) t).trans (h.lock t)
      · intro _
        rw [List.getElem?_eq_none_iff] at hm
        rw [List.drop_eq_nil_iff.2 hm] at hb2
        simpa using hb2.symm
    | some m =>
      obtain ⟨hi, hget⟩ := List.getElem?_eq_some_iff.1 hm
      rw [List.drop_eq_getElem_cons hi, hget] at hb2
      cases L with
      | nil => simp at hb2
      | cons u L =>
        simp only [List.map_cons, List.cons.injEq] at hb2
        simp only [hb2.1]
        refine ⟨by simp, ?_⟩
        intro s' items he
        cases he
        refine ⟨W, some L, X, ⟨⟨L, rfl⟩, _, rfl, rfl⟩, Or.inl rfl, ?_, h.pos, h.msgs, h.pend, h.shape, h.link, hu0 _ rfl,
          ⟨hi, L, rfl, hb2.2⟩, trivial⟩
        intro t; exact (held_phase s _ (by rfl) (by rw [hp]; rfl) t).trans (h.lock t)
  | in_ i =>
    simp only [BatchOK, hp] at hb
    obtain ⟨hi, L, hb1, hb2⟩ := hb
    cases throws with
    | true =>
      simp only [if_true]
      refine ⟨by simp, ?_⟩
      intro s' items he
      cases he
      refine ⟨W, B, X, ⟨trivial, _, rfl, rfl⟩, Or.inl rfl, ?_, h.pos, h.msgs, h.pend, h.shape, h.link, hu0 _ rfl, ⟨L, hb1, by simp⟩, trivial⟩
      intro t; exact (held_phase s _ (by rfl) (by rw [hp]; rfl) t).trans (h.lock t)
    | false =>
      simp only [Bool.false_eq_true, if_false]
      refine ⟨by simp, ?_⟩
      intro s' items he
      cases he
      refine ⟨W, B, X, rfl, Or.inl rfl, ?_, h.pos, h.msgs, h.pend, h.shape, h.link, hu0 _ rfl, ⟨L, hb1, hb2⟩, trivial⟩
      intro t; exact (held_phase s _ (by rfl) (by rw [hp]; rfl) t).trans (h.lock t)
  | freeLock e =>
    simp only [BatchOK, hp] at hb
    simp only
    cases hl : s.lock 0 with
    | none => simp
    | some s1 =>
      refine ⟨by simp, ?_⟩
      intro s' items he
      cases he
      obtain ⟨q1, q2, q3, q4, q5⟩ := h.locked hl
      have hl2 := lock_lock h hl (s2 := { s1 with phase := .freeAt 0 e }) rfl rfl
        (by rw [q3, hheld]; simp [held, hst, Phase.holds, hp])
        (by intro t' hne; rw [q3]; simp [held, hne])
      have h4 : inflight { s1 with phase := Phase.freeAt 0 e } = inflight s := q4
      rw [q3] at h4 ⊢ hl2
      exact ⟨W, B, X, rfl, Or.inl rfl, hl2.1, hl2.2, fun m => by rw [h4]; exact h.msgs m, h.pend, h.shape, h.link, hu0 _ rfl, hb, fun j m hj => absurd hj (Nat.not_lt_zero j)⟩
  | freeAt i e =>
    simp only [BatchOK, hp] at hb
    have ho : s.owner = some 0 := h.owner_of_phase (by rw [hp]; rfl)
    simp only
    cases hm : s.rendering[i]? with
    | none =>
      refine ⟨by simp, ?_⟩
      intro s' items he
      cases he
      obtain ⟨L, hb1, hb2⟩ := hb
      subst hb1
      refine ⟨W, none, X, ⟨trivial, (W, none), ?_, rfl⟩, Or.inl rfl, ?_, h.pos, ?_, h.pend, h.shape, h.link, hu0 _ rfl, ⟨rfl, rfl⟩, trivial⟩
      · cases e with
        | true => rfl
        | false => rw [hb2 rfl]; rfl
      · intro t; exact (held_phase s _ (by rfl) (by rw [hp]; rfl) t).trans (h.lock t)
      · intro m
        have := h.msgs m
        simp only [List.count_append, List.count_nil, inflight] at this ⊢
        omega
    | some m =>
      refine ⟨by simp, ?_⟩
      intro s' items he
      cases he
      have hmr : m ∈ s.rendering := List.mem_of_getElem? hm
      have hrel := h.released
      simp only [Released, hp] at hrel
      refine ⟨W, B, X, rfl, Or.inl rfl, ?_, h.pos, h.msgs, ?_, h.shape, ?_, hu0 _ rfl, hb, ?_⟩
      · intro t; exact (held_phase s _ (by rfl) (by rw [hp]; rfl) t).trans (h.lock t)
      · show s.pending.map (fun k => if k = m then none else s.func k) = _
        rw [← h.pend]
        apply List.map_congr_left
        intro k hk
        rw [if_neg]; rintro rfl; exact (h.disjoint.1 hmr).1 hk
      · intro t m' u' hm'
        have := (h.fresh hm' rfl).2.2.1
        show (if m' = m then none else s.func m') = some u'
        rw [if_neg (by rintro rfl; exact this hmr)]
        exact h.link t m' u' hm'
      · intro j k hj hk
        show (if k = m then none else s.func k) = none
        split
        · rfl
        · next hne =>
          refine hrel j k ?_ hk
          rcases Nat.lt_or_eq_of_le hj with h1 | rfl
          · exact h1
          · have hk' : s.rendering[j]? = some k := hk
            rw [hm] at hk'; cases hk'; exact absurd rfl hne
  | freeIn i e =>
    simp only [BatchOK, hp] at hb
    cases throws with
    | true => simp
    | false =>
      simp only [Bool.false_eq_true, if_false]
      refine ⟨by simp, ?_⟩
      intro s' items he
      cases he
      have hrel := h.released
      simp only [Released, hp] at hrel
      refine ⟨W, B, X, rfl, Or.inl rfl, ?_, h.pos, h.msgs, h.pend, h.shape, h.link, hu0 _ rfl, hb,
        fun j m hj hm => hrel j m (Nat.le_of_lt_succ hj) hm⟩
      intro t; exact (held_phase s _ (by rfl) (by rw [hp]; rfl) t).trans (h.lock t)
  | freeUnlock e =>
    simp only [BatchOK, hp] at hb
    have ho : s.owner = some 0 := h.owner_of_phase (by rw [hp]; rfl)
    obtain ⟨s1, k1, k2⟩ := unlock_some h ho
    simp only [k1]
    refine ⟨by simp, ?_⟩
    intro s' items he
    cases he
    have hs1 : s1.stack = s.stack ∧ s1.phase = s.phase ∧ s1.pending = s.pending ∧ s1.free = s.free ∧
        s1.rendering = s.rendering ∧ s1.func = s.func ∧ s1.next = s.next := by
      rcases k2 with ⟨_, rfl⟩ | ⟨_, rfl⟩ <;> exact ⟨rfl, rfl, rfl, rfl, rfl, rfl, rfl⟩
    obtain ⟨e1, e2, e3, e4, e5, e6, e7⟩ := hs1
    have hl2 := unlock_lock h ho k2 (s2 := { s1 with phase := .idle }) rfl rfl
      (by rw [hheld]; simp [held, e1, hst, Phase.holds, hp])
      (by intro t' hne; simp [held, hne, e1])
    refine ⟨W, B, X, rfl, Or.inl rfl, hl2.1, hl2.2, ?_, ?_, ?_, ?_, hu0 _ e1, ?_, trivial⟩
    · intro m
      have h1 := h.msgs m
      have : (inflight { s1 with phase := Phase.idle }).count m = (inflight s).count m := by
        rcases k2 with ⟨_, rfl⟩ | ⟨_, rfl⟩
        · simp [inflight, ho, hst]
        · simp [inflight, ho]
      show s1.pending.count m + s1.free.count m + s1.rendering.count m + _ + _ = if m < s1.next then 1 else 0
      simp only [e3, e4, e5, e7] at this ⊢
      omega
    · show s1.pending.map s1.func = _
      rw [e3, e6]; exact h.pend
    · show ∀ t f fs, s1.stack t = f :: fs → _
      rw [e1]; exact h.shape
    · show ∀ t m u, Frame.pushLink m u ∈ s1.stack t → s1.func m = some u
      rw [e1, e6]; exact h.link
    · show s1.rendering = [] ∧ B = none
      rw [e5]; exact hb

theorem Inv.call (h : Inv s W B X) {t : Nat} {f : Frame U} (hu : s.user t = true) (hf : f.holds = false) :
    Inv (s.setStack t (f :: s.stack t)) W B X := by
  have hmsg : f.msg = none := by cases f <;> simp_all [Frame.holds, Frame.msg]
  have hlink : ∀ m u, f ≠ .pushLink m u := by rintro m u rfl; cases hf
  refine ⟨?_, h.pos, ?_, h.pend, ?_, ?_, ?_, h.batch, h.released⟩
  · intro t'
    have := h.lock t'
    rw [held_setStack]
    show _ = if s.owner = some t' then s.depth else 0
    rw [← this]
    split
    · next he => subst he; simp [held, hf]
    · rfl
  · intro m
    have := h.msgs m
    have hi : inflight (s.setStack t (f :: s.stack t)) = inflight s := by
      simp only [inflight, Sys.setStack]
      cases s.owner with
      | none => rfl
      | some t' =>
        simp only
        split
        · next he => subst he; simp [hmsg]
        · rfl
    rw [hi]; exact this
  · refine shape_set h.shape ?_
    intro f' gs he
    cases he
    cases hs : s.stack t with
    | nil => simp
    | cons g gs =>
      intro x hx
      rcases List.mem_cons.1 hx with rfl | hx
      · simp only [Sys.user, hs] at hu
        split at hu
        · next he => cases he
        · next he => cases he; exact ⟨_, _, rfl⟩
        · cases hu
      · exact h.shape t g gs hs x hx
  · refine link_set (fun t' m u _ hm => h.link t' m u hm) ?_
    intro m u hm
    rcases List.mem_cons.1 hm with he | hm
    · exact absurd he.symm (hlink m u)
    · exact h.link t m u hm
  · intro hne
    by_cases ht : t = 0
    · subst ht
      cases hs : s.stack 0 with
      | nil =>
        show s.phase.user = true
        simpa [Sys.user, hs] using hu
      | cons g gs => exact h.user0 (by rw [hs]; simp)
    · exact h.user0 (by simpa [Sys.setStack, Ne.symm ht] using hne)

theorem Inv.step (h : Inv s W B X) (a : Act U) : step s a ≠ .ub ∧
    ∀ s' items, step s a = .ok s' items → ∃ W' B' X', Accepts (W, B) items (W', B') ∧ (X' = X ∨ ∃ t, Item.pushThrew t ∈ items) ∧ Inv s' W' B' X' := by
  cases a with
  | callPush t u =>
    simp only [UpdateQueue.step]
    cases hu : s.user t with
    | false => simp
    | true =>
      refine ⟨by simp, ?_⟩
      intro s' items he
      cases he
      exact ⟨W, B, X, rfl, Or.inl rfl, h.call hu rfl⟩
  | callClear t =>
    simp only [UpdateQueue.step]
    cases hu : s.user t with
    | false => simp
    | true =>
      refine ⟨by simp, ?_⟩
      intro s' items he
      cases he
      exact ⟨W, B, X, rfl, Or.inl rfl, h.call hu rfl⟩
  | callApply =>
    simp only [UpdateQueue.step]
    split
    · next hp hs =>
      refine ⟨by simp, ?_⟩
      intro s' items he
      cases he
      have hb := h.batch
      simp only [BatchOK, hp] at hb
      refine ⟨W, B, X, rfl, Or.inl rfl, ?_, h.pos, h.msgs, h.pend, h.shape, h.link, ?_, hb, trivial⟩
      · intro t; exact (held_phase s _ (by rfl) (by rw [hp]; rfl) t).trans (h.lock t)
      · intro hne; exact absurd hs hne
    · simp
  | run t throws =>
    simp only [UpdateQueue.step]
    cases hs : s.stack t with
    | cons f fs => exact h.stepFrame hs
    | nil =>
      simp only
      split
      · next ht => subst ht; exact h.stepPhase hs
      · simp

theorem Exec.inv {items : List (Item U)} (h : Exec s items) : ∃ W B X, Accepts ([], none) items (W, B) ∧
    (X = [] ∨ ∃ t, Item.pushThrew t ∈ items) ∧ Inv s W B X := by
  induction h with
  | init => exact ⟨[], none, [], rfl, Or.inl rfl, Inv.init⟩
  | step a _ hs ih =>
    obtain ⟨W, B, X, h1, hx, h2⟩ := ih
    obtain ⟨W', B', X', h3, hx', h4⟩ := (h2.step a).2 _ _ hs
    refine ⟨W', B', X', h1.append h3, ?_, h4⟩
    rcases hx' with rfl | ⟨t, ht⟩
    · rcases hx with rfl | ⟨t, ht⟩
      · exact Or.inl rfl
      · exact Or.inr ⟨t, by simp [ht]⟩
    · exact Or.inr ⟨t, by simp [ht]⟩

end Verif.UpdateQueue
