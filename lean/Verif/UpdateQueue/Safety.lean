import Verif.UpdateQueue.Trace

/-! # Races, deadlock, termination, what the queue keeps alive -/

namespace Verif.UpdateQueue

attribute [local simp] List.countP_cons List.filterMap_cons

variable {U : Type} {s : Sys U} {W : List (Nat × U)} {B : Option (List U)} {X : List Nat}

/-- Who may access what. -/
def Owns (s : Sys U) (t : Nat) : Loc → Prop
  | .pending => s.owner = some t
  | .free => s.owner = some t
  | .rendering => t = 0
  | .func m => (s.owner = some t ∧ m ∈ inflight s) ∨ (t = 0 ∧ m ∈ s.rendering)

theorem funcAt_mem {i : Nat} {w w' : Bool} {l : Loc} (h : (l, w) ∈ funcAt s i w') : ∃ m ∈ s.rendering, l = .func m := by
  simp only [funcAt] at h
  split at h
  · next m hm => simp at h; exact ⟨m, List.mem_of_getElem? hm, h.1⟩
  · cases h

theorem Inv.owns (h : Inv s W B X) {t : Nat} {l : Loc} {w : Bool} (hu : (l, w) ∈ uses s t) : Owns s t l := by
  simp only [uses, List.mem_append] at hu
  rcases hu with (hu | hu) | hu
  · cases hst : s.stack t with
    | nil => simp [hst] at hu
    | cons f fs =>
      rw [hst] at hu
      have ho : f.holds = true → s.owner = some t := fun hf => h.owner_of_frame (f := f) (by rw [hst]; simp) hf
      cases f <;> simp [Frame.next] at hu
      · obtain ⟨rfl, _⟩ := hu; exact ho rfl
      · obtain ⟨rfl, _⟩ := hu; exact ho rfl
      · rcases hu with ⟨rfl, _⟩ | ⟨rfl, _⟩ <;> exact ho rfl
  · obtain ⟨f, hf, hl⟩ := List.mem_flatMap.1 hu
    cases f <;> simp [Frame.during] at hl
    next m u =>
    obtain ⟨rfl, _⟩ := hl
    have ho : s.owner = some t := h.owner_of_frame hf rfl
    refine Or.inl ⟨ho, ?_⟩
    simp only [inflight, ho]
    exact List.mem_filterMap.2 ⟨_, hf, rfl⟩
  · split at hu
    · next ht =>
      subst ht
      have ho : s.phase.holds = true → s.owner = some 0 := h.owner_of_phase
      simp only [phaseUses] at hu
      split at hu
      · next hp =>
        simp at hu
        rcases hu with ⟨rfl, _⟩ | ⟨rfl, _⟩
        · exact ho (by rw [hp]; rfl)
        · rfl
      · next hp =>
        rcases List.mem_cons.1 hu with hu | hu
        · cases hu; rfl
        · obtain ⟨m, hm, rfl⟩ := funcAt_mem hu; exact Or.inr ⟨rfl, hm⟩
      · next hp =>
        rcases List.mem_cons.1 hu with hu | hu
        · cases hu; rfl
        · obtain ⟨m, hm, rfl⟩ := funcAt_mem hu; exact Or.inr ⟨rfl, hm⟩
      · next hp =>
        rcases List.mem_cons.1 hu with hu | hu
        · cases hu; rfl
        · rcases List.mem_cons.1 hu with hu | hu
          · cases hu; exact ho (by rw [hp]; rfl)
          · obtain ⟨m, hm, rfl⟩ := funcAt_mem hu; exact Or.inr ⟨rfl, hm⟩
      · next hp =>
        rcases List.mem_cons.1 hu with hu | hu
        · cases hu; rfl
        · obtain ⟨m, hm, rfl⟩ := funcAt_mem hu; exact Or.inr ⟨rfl, hm⟩
      · cases hu
    · cases hu

theorem Inv.owns_unique (h : Inv s W B X) {t t' : Nat} {l : Loc} (h1 : Owns s t l) (h2 : Owns s t' l) : t = t' := by
  cases l with
  | pending => exact Option.some.inj (h1.symm.trans h2)
  | free => exact Option.some.inj (h1.symm.trans h2)
  | rendering => exact h1.trans h2.symm
  | func m =>
    have hd : m ∈ inflight s → m ∈ s.rendering → False := by
      intro a b
      have := h.msgs m
      have a' := List.count_pos_iff.2 a
      have b' := List.count_pos_iff.2 b
      split at this <;> omega
    rcases h1 with ⟨a, b⟩ | ⟨a, b⟩ <;> rcases h2 with ⟨c, d⟩ | ⟨c, d⟩
    · exact Option.some.inj (a.symm.trans c)
    · exact (hd b d).elim
    · exact (hd d b).elim
    · exact a.trans c.symm

/-- A thread that is inside the queue and not waiting for another one can go on. -/
theorem can_run (h : Inv s W B X) {t : Nat} (ho : s.owner = none ∨ s.owner = some t)
    (hin : s.stack t ≠ [] ∨ (t = 0 ∧ s.phase ≠ .idle)) : ∃ s' items, step s (.run t false) = .ok s' items := by
  have hl : ∃ s1, s.lock t = some s1 := by
    rcases ho with ho | ho <;> simp [Sys.lock, ho]
  obtain ⟨s1, hl⟩ := hl
  have hnub := (h.step (.run t false)).1
  cases hst : s.stack t with
  | cons f fs =>
    simp only [step, hst] at hnub ⊢
    cases f with
    | pushLock u => simp [stepFrame, hl]
    | pushTake u => simp only [stepFrame]; cases s.free <;> simp
    | pushCopy m u => simp [stepFrame]
    | pushLink m u => simp [stepFrame]
    | clearLock => simp [stepFrame, hl]
    | clearSplice => simp [stepFrame]
    | unlock u =>
      simp only [stepFrame] at hnub ⊢
      cases hu : s.unlock t with
      | none => simp [hu] at hnub
      | some s2 => simp
  | nil =>
    rcases hin with hin | ⟨rfl, hin⟩
    · exact absurd hst hin
    · simp only [step, hst, if_true] at hnub ⊢
      cases hp : s.phase with
      | idle => exact absurd hp hin
      | prepLock => simp [stepPhase, hp, hl]
      | prepMove => simp [stepPhase, hp]
      | prepUnlock =>
        simp only [stepPhase, hp] at hnub ⊢
        cases hu : s.unlock 0 with
        | none => simp [hu] at hnub
        | some s2 => simp
      | at_ i =>
        simp only [stepPhase, hp] at hnub ⊢
        cases hr : s.rendering[i]? with
        | none => simp
        | some m =>
          simp only [hr] at hnub ⊢
          cases hf : s.func m with
          | none => simp [hf] at hnub
          | some u => simp
      | in_ i => simp [stepPhase, hp]
      | freeLock e => simp [stepPhase, hp, hl]
      | freeAt i e =>
        simp only [stepPhase, hp]
        cases hr : s.rendering[i]? <;> simp
      | freeIn i e => simp [stepPhase, hp]
      | freeUnlock e =>
        simp only [stepPhase, hp] at hnub ⊢
        cases hu : s.unlock 0 with
        | none => simp [hu] at hnub
        | some s2 => simp

theorem progress (h : Inv s W B X) {t : Nat} (hin : s.stack t ≠ [] ∨ (t = 0 ∧ s.phase ≠ .idle)) :
    ∃ t' s' items, step s (.run t' false) = .ok s' items := by
  cases ho : s.owner with
  | none => exact ⟨t, can_run h (Or.inl ho) hin⟩
  | some t' =>
    refine ⟨t', can_run h (Or.inr ho) ?_⟩
    have h1 := h.lock t'
    have h2 := h.pos t' ho
    rw [if_pos ho] at h1
    simp only [held] at h1
    by_cases hs : s.stack t' = []
    · right
      rw [hs] at h1
      simp only [List.countP_nil, Nat.zero_add] at h1
      split at h1
      · next hh => refine ⟨hh.1, ?_⟩; intro hp; rw [hp] at hh; cases hh.2
      · omega
    · exact Or.inl hs

/-- How many steps `ApplyUpdates` has still to do. -/
def left (s : Sys U) : Nat :=
  match s.phase with
  | .idle => 0
  | .prepLock | .prepMove => 0
  | .prepUnlock => 4 * s.rendering.length + 5
  | .at_ i => 2 * (s.rendering.length - i) + 2 * s.rendering.length + 4
  | .in_ i => 2 * (s.rendering.length - (i + 1)) + 2 * s.rendering.length + 5
  | .freeLock _ => 2 * s.rendering.length + 3
  | .freeAt i _ => 2 * (s.rendering.length - i) + 2
  | .freeIn i _ => 2 * (s.rendering.length - (i + 1)) + 3
  | .freeUnlock _ => 1

def Phase.prep : Phase → Bool
  | .prepLock => true
  | .prepMove => true
  | _ => false

theorem left_step {s' : Sys U} {throws : Bool} {items : List (Item U)} (h : stepPhase s throws = .ok s' items)
    (hp : s.phase.prep = false) : left s' + 1 ≤ left s ∧ s'.phase.prep = false := by
  cases hq : s.phase with
  | idle => simp [stepPhase, hq] at h
  | prepLock => rw [hq] at hp; cases hp
  | prepMove => rw [hq] at hp; cases hp
  | prepUnlock =>
    simp only [stepPhase, hq] at h
    split at h <;> cases h
    next s1 hu =>
    obtain ⟨_, _, q, _⟩ := unlock_phase hu
    simp only [left, hq, q, Phase.prep, and_true]
    omega
  | at_ i =>
    simp only [stepPhase, hq] at h
    split at h
    · next m hm =>
      have := (List.getElem?_eq_some_iff.1 hm).1
      split at h <;> cases h
      simp only [left, hq, Phase.prep, and_true]
      omega
    · cases h
      simp only [left, hq, Phase.prep, and_true]
      omega
  | in_ i =>
    simp only [stepPhase, hq] at h
    split at h <;> cases h
    · simp only [left, hq, Phase.prep, and_true]
      omega
    · simp only [left, hq, Phase.prep, and_true]
      omega
  | freeLock e =>
    simp only [stepPhase, hq] at h
    split at h <;> cases h
    next s1 hu =>
    obtain ⟨_, _, q, _⟩ := lock_phase hu
    simp only [left, hq, q, Phase.prep, and_true]
    omega
  | freeAt i e =>
    simp only [stepPhase, hq] at h
    split at h
    · next m hm =>
      have := (List.getElem?_eq_some_iff.1 hm).1
      cases h
      simp only [left, hq, Phase.prep, and_true]
      omega
    · cases h
      simp only [left, hq, Phase.prep, and_true]
      omega
  | freeIn i e =>
    simp only [stepPhase, hq] at h
    split at h <;> cases h
    simp only [left, hq, Phase.prep, and_true]
    omega
  | freeUnlock e =>
    simp only [stepPhase, hq] at h
    split at h <;> cases h
    simp only [left, hq, Phase.prep, and_true]
    omega

theorem Seg.bound {s s' : Sys U} {n : Nat} (h : Seg s n s') (hp : s.phase.prep = false) :
    left s' + n ≤ left s ∧ s'.phase.prep = false := by
  induction h with
  | refl => exact ⟨Nat.le_refl _, hp⟩
  | @other s1 s2 n items a h1 hs hk ih =>
    obtain ⟨i1, i2⟩ := ih
    have : left s2 = left s1 ∧ s2.phase = s1.phase := by
      cases a with
      | callPush t u => simp only [step] at hs; split at hs <;> cases hs; exact ⟨rfl, rfl⟩
      | callClear t => simp only [step] at hs; split at hs <;> cases hs; exact ⟨rfl, rfl⟩
      | callApply => exact hk.elim
      | run t throws =>
        simp only [step] at hs
        split at hs
        · obtain ⟨q1, q2, _⟩ := stepFrame_frame hs
          exact ⟨by simp [left, q1, q2], q1⟩
        · next hst =>
          split at hs
          · next ht => rcases hk with hk | hk
                       · exact absurd ht hk
                       · exact absurd hst hk
          · cases hs
    rw [this.1, this.2]; exact ⟨i1, i2⟩
  | @apply s1 s2 n items throws h1 hs hst ih =>
    obtain ⟨i1, i2⟩ := ih
    simp only [step, hst, if_true] at hs
    obtain ⟨q1, q2⟩ := left_step hs i2
    exact ⟨by omega, q2⟩

/-- The functions that are alive belong to updates that wait, to the current batch or to a call of `Push`. -/
def Alive (s : Sys U) : Prop :=
  ∀ m u, s.func m = some u → m ∈ s.pending ∨ m ∈ s.rendering ∨ ∃ t, Frame.pushLink m u ∈ s.stack t

theorem alive_of_stack {s' : Sys U} (h : Alive s) {t : Nat} {f : Frame U} {fs gs : List (Frame U)}
    (hst : s.stack t = f :: fs) (hf : ∀ m u, f ≠ .pushLink m u) (hs : s'.stack = (s.setStack t gs).stack)
    (hsub : ∀ g ∈ fs, g ∈ gs)
    (hp : s'.pending = s.pending) (hr : s'.rendering = s.rendering) (hfn : s'.func = s.func) : Alive s' := by
  intro m u hm
  rw [hfn] at hm
  rw [hp, hr]
  rcases h m u hm with a | a | ⟨t', a⟩
  · exact Or.inl a
  · exact Or.inr (Or.inl a)
  · refine Or.inr (Or.inr ⟨t', ?_⟩)
    rw [hs]
    simp only [Sys.setStack]
    split
    · next e =>
      subst e
      rw [hst] at a
      rcases List.mem_cons.1 a with a | a
      · exact absurd a.symm (hf m u)
      · exact hsub _ a
    · exact a

theorem Alive.stepFrame {s' : Sys U} (h : Inv s W B X) (ha : Alive s) {t : Nat} {throws : Bool} {f : Frame U}
    {fs : List (Frame U)} {items : List (Item U)} (hst : s.stack t = f :: fs)
    (hs : stepFrame s t throws f fs = .ok s' items) (hc : Item.cleared ∉ items) : Alive s' := by
  cases f with
  | pushLock u =>
    simp only [UpdateQueue.stepFrame] at hs
    split at hs <;> cases hs
    next s1 hl =>
    obtain ⟨q1, q2, q3, q4, q5⟩ := lock_phase hl
    exact alive_of_stack ha hst (by simp) (gs := .pushTake u :: fs) (by simp [Sys.setStack, q2]) (by simp +contextual) q5 q3 q4
  | pushTake u =>
    simp only [UpdateQueue.stepFrame] at hs
    split at hs
    · split at hs
      · split at hs <;> cases hs
        next s1 hl =>
        obtain ⟨q1, q2, q3, q4, q5⟩ := unlock_phase hl
        exact alive_of_stack ha hst (by simp) (gs := fs) (by simp [Sys.setStack, q2]) (by simp +contextual) q5 q3 q4
      · cases hs
        exact alive_of_stack ha hst (by simp) (gs := .pushCopy s.next u :: fs) rfl (by simp +contextual) rfl rfl rfl
    · next m free _ =>
      cases hs
      exact alive_of_stack ha hst (by simp) (gs := .pushCopy m u :: fs) rfl (by simp +contextual) rfl rfl rfl
  | pushCopy m u =>
    simp only [UpdateQueue.stepFrame] at hs
    split at hs
    · split at hs <;> cases hs
      next s1 hl =>
      obtain ⟨q1, q2, q3, q4, q5⟩ := unlock_phase hl
      exact alive_of_stack ha hst (by simp) (gs := fs) (by simp [Sys.setStack, q2]) (by simp +contextual) q5 q3 q4
    · cases hs
      intro k v hk
      simp only [Sys.setStack] at hk ⊢
      split at hk
      · next e =>
        cases hk
        subst e
        exact Or.inr (Or.inr ⟨t, by simp⟩)
      · rcases ha k v hk with a | a | ⟨t', a⟩
        · exact Or.inl a
        · exact Or.inr (Or.inl a)
        · refine Or.inr (Or.inr ⟨t', ?_⟩)
          split
          · next e =>
            subst e
            rw [hst] at a
            rcases List.mem_cons.1 a with a | a
            · cases a
            · exact List.mem_cons_of_mem _ a
          · exact a
  | pushLink m u =>
    cases hs
    intro k v hk
    simp only [Sys.setStack, List.mem_append, List.mem_singleton] at hk ⊢
    rcases ha k v hk with a | a | ⟨t', a⟩
    · exact Or.inl (Or.inl a)
    · exact Or.inr (Or.inl a)
    · by_cases e : t' = t
      · subst e
        rw [hst] at a
        rcases List.mem_cons.1 a with a | a
        · cases a; exact Or.inl (Or.inr rfl)
        · obtain ⟨_, _, q⟩ := h.shape _ _ _ hst _ a
          cases q
      · exact Or.inr (Or.inr ⟨t', by simp [e, a]⟩)
  | clearLock =>
    simp only [UpdateQueue.stepFrame] at hs
    split at hs <;> cases hs
    next s1 hl =>
    obtain ⟨q1, q2, q3, q4, q5⟩ := lock_phase hl
    exact alive_of_stack ha hst (by simp) (gs := .clearSplice :: fs) (by simp [Sys.setStack, q2]) (by simp +contextual) q5 q3 q4
  | clearSplice => cases hs; simp at hc
  | unlock u =>
    simp only [UpdateQueue.stepFrame] at hs
    split at hs <;> cases hs
    next s1 hl =>
    obtain ⟨q1, q2, q3, q4, q5⟩ := unlock_phase hl
    exact alive_of_stack ha hst (by simp) (gs := fs) (by simp [Sys.setStack, q2]) (by simp +contextual) q5 q3 q4

theorem alive_same {s' : Sys U} (ha : Alive s) (h1 : s'.func = s.func) (h2 : s'.pending = s.pending)
    (h3 : s'.rendering = s.rendering) (h4 : s'.stack = s.stack) : Alive s' := by
  intro m u hm
  rw [h1] at hm; rw [h2, h3, h4]; exact ha m u hm

theorem Alive.stepPhase {s' : Sys U} (h : Inv s W B X) (ha : Alive s) {throws : Bool} {items : List (Item U)}
    (hs : stepPhase s throws = .ok s' items) : Alive s' := by
  have hb := h.batch
  have hr := h.released
  cases hq : s.phase with
  | idle => simp [UpdateQueue.stepPhase, hq] at hs
  | prepLock =>
    simp only [UpdateQueue.stepPhase, hq] at hs
    split at hs <;> cases hs
    next s1 hl =>
    obtain ⟨q1, q2, q3, q4, q5⟩ := lock_phase hl
    exact alive_same ha q4 q5 q3 q2
  | prepMove =>
    simp only [UpdateQueue.stepPhase, hq] at hs
    cases hs
    simp only [BatchOK, hq] at hb
    intro m u hm
    rcases ha m u hm with a | a | a
    · exact Or.inr (Or.inl a)
    · rw [hb.1] at a; cases a
    · exact Or.inr (Or.inr a)
  | prepUnlock =>
    simp only [UpdateQueue.stepPhase, hq] at hs
    split at hs <;> cases hs
    next s1 hl =>
    obtain ⟨q1, q2, q3, q4, q5⟩ := unlock_phase hl
    exact alive_same ha q4 q5 q3 q2
  | at_ i =>
    simp only [UpdateQueue.stepPhase, hq] at hs
    split at hs
    · split at hs <;> cases hs; exact alive_same ha rfl rfl rfl rfl
    · cases hs; exact alive_same ha rfl rfl rfl rfl
  | in_ i =>
    simp only [UpdateQueue.stepPhase, hq] at hs
    split at hs <;> cases hs <;> exact alive_same ha rfl rfl rfl rfl
  | freeLock e =>
    simp only [UpdateQueue.stepPhase, hq] at hs
    split at hs <;> cases hs
    next s1 hl =>
    obtain ⟨q1, q2, q3, q4, q5⟩ := lock_phase hl
    exact alive_same ha q4 q5 q3 q2
  | freeAt i e =>
    simp only [UpdateQueue.stepPhase, hq] at hs
    simp only [Released, hq] at hr
    split at hs
    · next m hm =>
      cases hs
      intro k v hk
      have hk' : (if k = m then none else s.func k) = some v := hk
      split at hk'
      · cases hk'
      · exact ha k v hk'
    · next hm =>
      cases hs
      intro k v hk
      rcases ha k v hk with a | a | a
      · exact Or.inl a
      · obtain ⟨j, hj⟩ := List.mem_iff_getElem?.1 a
        have h1 : j < s.rendering.length := (List.getElem?_eq_some_iff.1 hj).1
        have h2 : s.rendering.length ≤ i := List.getElem?_eq_none_iff.1 hm
        have := hr j k (by omega) hj
        have hk' : s.func k = some v := hk
        rw [this] at hk'; cases hk'
      · exact Or.inr (Or.inr a)
  | freeIn i e =>
    simp only [UpdateQueue.stepPhase, hq] at hs
    split at hs <;> cases hs; exact alive_same ha rfl rfl rfl rfl
  | freeUnlock e =>
    simp only [UpdateQueue.stepPhase, hq] at hs
    split at hs <;> cases hs
    next s1 hl =>
    obtain ⟨q1, q2, q3, q4, q5⟩ := unlock_phase hl
    exact alive_same ha q4 q5 q3 q2

theorem alive_push {t : Nat} {f : Frame U} (ha : Alive s) : Alive (s.setStack t (f :: s.stack t)) := by
  intro m u hm
  rcases ha m u hm with a | a | ⟨t', a⟩
  · exact Or.inl a
  · exact Or.inr (Or.inl a)
  · refine Or.inr (Or.inr ⟨t', ?_⟩)
    simp only [Sys.setStack]
    split
    · next e => subst e; exact List.mem_cons_of_mem _ a
    · exact a

theorem Exec.alive {items : List (Item U)} (h : Exec s items) (hc : Item.cleared ∉ items) : Alive s := by
  induction h with
  | init => intro m u hm; cases hm
  | @step s s' items new a he hs ih =>
    obtain ⟨W, B, X, _, _, hinv⟩ := he.inv
    simp only [List.mem_append, not_or] at hc
    have ha := ih hc.1
    cases a with
    | callPush t u => simp only [UpdateQueue.step] at hs; split at hs <;> cases hs; exact alive_push ha
    | callClear t => simp only [UpdateQueue.step] at hs; split at hs <;> cases hs; exact alive_push ha
    | callApply => simp only [UpdateQueue.step] at hs; split at hs <;> cases hs; exact alive_same ha rfl rfl rfl rfl
    | run t throws =>
      simp only [UpdateQueue.step] at hs
      split at hs
      · next hst => exact ha.stepFrame hinv hst hs hc.2
      · split at hs
        · exact ha.stepPhase hinv hs
        · cases hs

end Verif.UpdateQueue
