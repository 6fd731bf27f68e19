import Verif.CondVar.Inv

/-! # Nothing is lost: invariants of the interruptible wait -/

namespace Verif.CondVar

/-- The thread is blocked or goes to block without looking at the flag again. -/
def Bound (s : State) (t : Nat) : Prop := isUnlockUser (s.pc t) = true ∨ isBlock (s.pc t) = true ∨ t ∈ s.waiting

/-- What is known about the result. -/
@[grind =] def okPc (data stop : Bool) : Pc → Bool
  | .destroy k to r | .waitFin k to r => (r == data) && (r || stop || (k && to))
  | .giveUp _ => stop
  | .lockUser k to o | .after k to o => !o || (k && (to || stop))
  | _ => true

structure Inv3 (s : State) : Prop where
  i1 : Inv1 s
  i2 : Inv2 s
  bound : ∀ t, Bound s t → s.stop = true → t ∈ s.queue ∨ (s.taken = some t ∧ ∀ w, s.winner = some w → toNotify (s.pc w) = some t)
  saw : ∀ t, sawFalse (s.pc t) = true → s.data = false
  sleep : ∀ t, isBlock (s.pc t) = true ∨ t ∈ s.waiting → s.data = false ∨ pending s.log = true
  res : ∀ t, okPc s.data s.stop (s.pc t) = true
  done : ∀ w, .requested w true ∈ s.log → s.stop = true ∧ s.queue = [] ∧ s.taken = none
  busy : ∀ t w, stopping (s.pc t) = true → .requested w true ∉ s.log

theorem data_frame (s s' : State) (t : Nat) (a : Act) (hs : step s t a = .ok s') :
    s'.data = s.data ∨ (s.lock = some t ∧ s.pc t = .user) := by
  steps hs s t a <;> simp_all

theorem stop_mono (s s' : State) (t : Nat) (a : Act) (hs : step s t a = .ok s') (h : s.stop = true) : s'.stop = true := by
  steps hs s t a <;> simp_all

/-- While another thread holds the lock of the user, the variable does not change. -/
theorem data_other (s s' : State) (t u : Nat) (a : Act) (h : Inv1 s) (hs : step s t a = .ok s') (hu : u ≠ t) (hh : holdsUser (s.pc u) = true) :
    s'.data = s.data := by
  rcases data_frame s s' t a hs with h1 | ⟨h1, _⟩
  · exact h1
  · rw [h.user u hh] at h1; cases h1; exact absurd rfl hu

theorem saw_holds (p : Pc) (h : sawFalse p = true) : holdsUser p = true := by cases p <;> first | rfl | cases h

theorem saw_step (s s' : State) (t : Nat) (a : Act) (h : Inv3 s) (hs : step s t a = .ok s') :
    ∀ u, sawFalse (s'.pc u) = true → s'.data = false := by
  intro u
  by_cases hu : u = t
  · subst hu
    have e2 := h.saw u
    clear h
    steps hs s u a <;> simp_all [sawFalse]
  · rw [pc_frame s s' t u a hs hu]
    intro h1
    rw [data_other s s' t u a h.i1 hs hu (saw_holds _ h1)]
    exact h.saw u h1

theorem res_step (s s' : State) (t : Nat) (a : Act) (h : Inv3 s) (hs : step s t a = .ok s') :
    ∀ u, okPc s'.data s'.stop (s'.pc u) = true := by
  intro u
  by_cases hu : u = t
  · subst hu
    have e2 := h.res u; have e3 := h.saw u
    clear h
    steps hs s u a <;> simp_all [okPc, sawFalse] <;> grind
  · rw [pc_frame s s' t u a hs hu]
    have e1 := h.res u
    have e2 := data_other s s' t u a h.i1 hs hu
    have e3 := stop_mono s s' t a hs
    clear h hs
    cases hq : s.pc u <;> simp only [hq, okPc, holdsUser] at e1 e2 ⊢ <;> grind

theorem done_step (s s' : State) (t : Nat) (a : Act) (h : Inv3 s) (hs : step s t a = .ok s') :
    ∀ w, .requested w true ∈ s'.log → s'.stop = true ∧ s'.queue = [] ∧ s'.taken = none := by
  intro w
  have e1 := h.done w
  have e2 : stopping (s.pc t) = true → s.stop = true := fun h1 => h.i2.stop.2 (by rw [h.i2.win t h1]; simp)
  have e3 := fun h1 => h.busy t w h1
  have e4 : s.taken = none ∨ ∃ c v, s.taken = some c ∧ s.winner = some v ∧ calling (s.pc v) = some c := by
    cases hc : s.taken with
    | none => exact .inl rfl
    | some c => obtain ⟨v, h1, h2⟩ := h.i2.call c hc; exact .inr ⟨c, v, rfl, h1, h2⟩
  have e5 := h.i2.win t
  clear h
  steps hs s t a <;> grind

theorem busy_step (s s' : State) (t : Nat) (a : Act) (h : Inv3 s) (hs : step s t a = .ok s') :
    ∀ u w, stopping (s'.pc u) = true → .requested w true ∉ s'.log := by
  intro u w
  have e1 := h.done w
  have e2 := h.busy t w; have e3 := h.busy u w
  have e4 := h.i2.win t; have e5 := h.i2.win u
  clear h
  steps hs s t a <;> grind

theorem bound_built (s : State) (t : Nat) (h : Inv1 s) (hb : Bound s t) : built (s.pc t) = true := by
  rcases hb with hb | hb | hb
  · cases hp : s.pc t <;> rw [hp] at hb <;> first | rfl | cases hb
  · cases hp : s.pc t <;> rw [hp] at hb <;> first | rfl | cases hb
  · have := h.waiting t hb
    cases hp : s.pc t <;> rw [hp] at this <;> first | rfl | cases this

/-- A thread becomes bound only if no stop was requested. -/
theorem bound_back (s s' : State) (t u : Nat) (a : Act) (hs : step s t a = .ok s') (hb : Bound s' u) :
    Bound s u ∨ s'.stop = false := by
  have e1 : u ∈ s.waiting.erase t → u ∈ s.waiting := List.mem_of_mem_erase
  have e5 := fun n => wakeOne_mem n s.waiting u
  unfold Bound at *
  steps hs s t a <;> grind

theorem stop_queue (s s' : State) (t : Nat) (a : Act) (hs : step s t a = .ok s') (h1 : s.stop = false) (h2 : s'.stop = true) :
    s'.queue = s.queue := by
  steps hs s t a <;> simp_all

theorem queue_next (s s' : State) (t u : Nat) (a : Act) (h : Inv2 s) (hs : step s t a = .ok s') (hu : u ∈ s.queue) (hb : Bound s u) (hi : Inv1 s) :
    u ∈ s'.queue ∨ (s'.taken = some u ∧ s'.winner = some t ∧ toNotify (s'.pc t) = some u) := by
  have e1 : u ≠ t → u ∈ s.queue → u ∈ s.queue.erase t := fun h1 h2 => (List.mem_erase_of_ne h1).2 h2
  have e2 := h.win t
  have e3 := hi.waiting u
  unfold Bound at hb
  clear h hi
  steps hs s t a <;> grind

theorem notify_next (s s' : State) (t u : Nat) (a : Act) (hs : step s t a = .ok s') (hi : Inv1 s) (hn : toNotify (s.pc t) = some u) (hb : Bound s' u)
    (ht : s.taken = some u) : s'.taken = some u ∧ toNotify (s'.pc t) = some u := by
  have hp : s.pc t = .sLock u ∨ s.pc t = .sNotify u := by
    cases hp : s.pc t <;> simp [hp, toNotify] at hn ⊢ <;> exact hn
  have hgo : ∃ n, a = .go n := by
    cases a <;> rcases hp with hp | hp <;> simp [step, hp] at hs ⊢
  obtain ⟨n, rfl⟩ := hgo
  have e1 := hi.m t; have e2 := hi.m u
  rcases hp with hp | hp
  · simp only [step, hp, advance, setPc] at hs
    repeat' split at hs
    all_goals cases hs
    · exact ⟨ht, by rw [hp]; rfl⟩
    · exact ⟨ht, by simp [toNotify]⟩
  · exfalso
    simp only [step, hp, advance, setPc] at hs
    cases hs
    have h1 : s.m = some t := e1.2 (by rw [hp]; rfl)
    have hu : u ≠ t ∧ (isUnlockUser (s.pc u) = true ∨ isBlock (s.pc u) = true) := by
      by_cases e : u = t
      · simp [Bound, e, isUnlockUser, isBlock] at hb
      · simp [Bound, e] at hb; exact ⟨e, hb⟩
    have h2 : s.m = some u := e2.2 (by
      rcases hu.2 with h | h <;> cases hq : s.pc u <;> rw [hq] at h <;> first | rfl | cases h)
    rw [h1] at h2; cases h2; exact hu.1 rfl

theorem taken_keep (s s' : State) (t c : Nat) (a : Act) (hs : step s t a = .ok s') (ht : stopping (s.pc t) = false) (hc : s.taken = some c) :
    s'.taken = some c := by
  steps hs s t a <;> simp_all [stopping]

theorem bound_step (s s' : State) (t : Nat) (a : Act) (h : Inv3 s) (hs : step s t a = .ok s') :
    ∀ u, Bound s' u → s'.stop = true → u ∈ s'.queue ∨ (s'.taken = some u ∧ ∀ w, s'.winner = some w → toNotify (s'.pc w) = some u) := by
  intro u hb' hst
  have hb : Bound s u := by
    rcases bound_back s s' t u a hs hb' with h1 | h1
    · exact h1
    · rw [hst] at h1; cases h1
  cases e : s.stop with
  | false =>
    left
    rw [stop_queue s s' t a hs e hst]
    rcases h.i2.reg u (bound_built s u h.i1 hb) with h1 | h1 | h1
    · exact h1
    · obtain ⟨w, h2, _⟩ := h.i2.call u h1
      have := h.i2.stop.2 (by rw [h2]; simp)
      rw [e] at this; cases this
    · rw [e] at h1; cases h1
  | true =>
    rcases h.bound u hb e with h1 | ⟨h1, h2⟩
    · rcases queue_next s s' t u a h.i2 hs h1 hb h.i1 with h3 | ⟨h3, h4, h5⟩
      · exact .inl h3
      · right
        refine ⟨h3, fun w hw => ?_⟩
        rw [h4] at hw; cases hw; exact h5
    · right
      obtain ⟨w, h3, h4⟩ := h.i2.call u h1
      have h5 := h2 w h3
      have h6 := winner_keep s s' t w a h.i2 hs h3
      by_cases hw : w = t
      · subst hw
        obtain ⟨h7, h8⟩ := notify_next s s' w u a hs h.i1 h5 hb' h1
        refine ⟨h7, fun v hv => ?_⟩
        rw [h6] at hv; cases hv; exact h8
      · have ht : stopping (s.pc t) = false := by
          cases es : stopping (s.pc t)
          · rfl
          · have := h.i2.win t es; rw [h3] at this; cases this; exact absurd rfl hw
        refine ⟨taken_keep s s' t u a hs ht h1, fun v hv => ?_⟩
        rw [h6] at hv; cases hv
        rw [pc_frame s s' t w a hs hw]; exact h5

theorem sleep_step (s s' : State) (t : Nat) (a : Act) (h : Inv3 s) (hs : step s t a = .ok s') :
    ∀ u, isBlock (s'.pc u) = true ∨ u ∈ s'.waiting → s'.data = false ∨ pending s'.log = true := by
  intro u
  have e1 := h.sleep t; have e2 := h.sleep u; have e3 := h.saw t
  have e4 : u ∈ s.waiting.erase t → u ∈ s.waiting := List.mem_of_mem_erase
  have e5 := fun n => wakeOne_mem n s.waiting u
  have e6 := h.i1.m t; have e7 := h.i1.m u
  have e8 : isBlock (s.pc u) = true → holdsM (s.pc u) = true := by cases s.pc u <;> simp [isBlock, holdsM]
  clear h
  steps hs s t a <;> grind

theorem inv3_step (s s' : State) (t : Nat) (a : Act) (h : Inv3 s) (hs : step s t a = .ok s') : Inv3 s' :=
  ⟨inv1_step s s' t a h.i1 hs, inv2_step s s' t a h.i2 hs, bound_step s s' t a h hs, saw_step s s' t a h hs, sleep_step s s' t a h hs,
    res_step s s' t a h hs, done_step s s' t a h hs, busy_step s s' t a h hs⟩

theorem inv3_init : Inv3 init := by
  refine ⟨⟨?_, ?_, ?_, ?_, ?_⟩, ⟨?_, ?_, ?_, ?_, ?_, ?_, ?_, ?_, ?_, ?_⟩, ?_, ?_, ?_, ?_, ?_, ?_⟩ <;>
    simp [init, holdsUser, released, holdsM, stopping, calling, built, isInl, sawFalse, isBlock, okPc, Bound, isUnlockUser]

theorem inv3_run (l : List (Nat × Act)) : ∀ s s' : State, Inv3 s → run s l = .ok s' → Inv3 s' := by
  induction l with
  | nil => intro s s' h h'; cases h'; exact h
  | cons a l ih =>
    intro s s' h h'
    obtain ⟨t, a⟩ := a
    obtain ⟨s1, h1, h2⟩ := Res.bind_eq_ok.1 h'
    exact ih s1 s' (inv3_step s s1 t a h h1) h2

end Verif.CondVar
