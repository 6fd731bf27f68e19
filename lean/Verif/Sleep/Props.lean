import Verif.Sleep.Inv

/-! # C57: a cancellable sleep wakes up when stop is requested -/

namespace Verif.Sleep

/-- The condition variable and the callback are not used after their destruction. -/
theorem c57_no_ub (d : Nat) (l : List Act) : run d init l ≠ .ub := by
  have : ∀ l s, Inv d s → run d s l ≠ .ub := by
    intro l
    induction l with
    | nil => intro s _ h; cases h
    | cons a l ih =>
      intro s hi h
      rw [run] at h
      cases e : step d s a with
      | ok s1 => rw [e] at h; exact ih s1 (inv_step d s s1 a hi e) h
      | throw x => rw [e] at h; cases h
      | ub =>
        obtain ⟨h1, h2, h3, h4, h5, h6, h7, h8, h9, h10, h11, _⟩ := hi
        cases a with
        | sleeper => cases hp : s.pc <;> simp [step, sleeper, notify, hp] at e <;> (repeat' split at e) <;> (try simp at e) <;> grind
        | stopper => cases hp : s.stopper <;> simp [step, stopper, notify, hp] at e <;> (repeat' split at e) <;> (try simp at e) <;> grind
        | tick => simp [step] at e
        | spurious => simp only [step] at e; split at e <;> cases e
  exact this l init (inv_init d)

/-- **C57.**  `sleep_for` returns only when the duration has passed since it was called, or a stop was requested. -/
theorem c57_not_early (d : Nat) (l : List Act) (s : State) (h : run d init l = .ok s) (t : Nat) (b : Bool) (hr : s.ret = some (t, b)) :
    b = true ∨ s.start + d ≤ t :=
  ((inv_run d l init s (inv_init d) h).ret t b hr).2

/-- **C57.**  It does not block when a stop was requested before. -/
theorem c57_stop_before (d : Nat) (l' : List Act) (s s' : State) (hp : s.pc = .before)
    (hs : s.stop = true) (h' : run d s l' = .ok s') : s'.pc ≠ .toBlock ∧ s'.pc ≠ .blocked := by
  have : ∀ l' s, s.stop = true → s.pc ≠ .toBlock ∧ s.pc ≠ .blocked → run d s l' = .ok s' → s'.pc ≠ .toBlock ∧ s'.pc ≠ .blocked := by
    intro l'
    induction l' with
    | nil => intro s _ h2 h; cases h; exact h2
    | cons a l' ih =>
      intro s h1 h2 h
      obtain ⟨s1, h3, h4⟩ := Res.bind_eq_ok.1 h
      apply ih s1 _ _ h4
      · cases a with
        | sleeper => cases hp : s.pc <;> simp [step, sleeper, notify, hp] at h3 <;> (repeat' split at h3) <;> (try simp at h3) <;> grind
        | stopper => cases hp : s.stopper <;> simp [step, stopper, notify, hp] at h3 <;> (repeat' split at h3) <;> (try simp at h3) <;> grind
        | tick => simp [step] at h3; grind
        | spurious => simp only [step] at h3; split at h3 <;> grind
      · cases a with
        | sleeper => cases hp : s.pc <;> simp [step, sleeper, notify, hp] at h3 <;> (repeat' split at h3) <;> (try simp at h3) <;> grind
        | stopper => cases hp : s.stopper <;> simp [step, stopper, notify, hp] at h3 <;> (repeat' split at h3) <;> (try simp at h3) <;> grind
        | tick => simp [step] at h3; grind
        | spurious => simp only [step] at h3; split at h3 <;> grind
  exact this l' s hs (by simp [hp]) h'

/-- **C57 (partial).**  If at the moment of the request the thread is not between its test of the flag and the beginning of the wait,
then it does not block any more once `request_stop` has returned.  What is missing: in that window the notification is lost
(`c57_lost_violated`). -/
theorem c57_wakes_partial (d : Nat) (l l' : List Act) (s s0 s' : State) (h : run d init l = .ok s) (hi : s.stopper = .idle)
    (hp : s.pc ≠ .toBlock) (hs : step d s .stopper = .ok s0) (h' : run d s0 l' = .ok s') (hr : s'.stopper = .returned) :
    s'.pc ≠ .toBlock ∧ s'.pc ≠ .blocked := by
  have i := inv_run d l init s (inv_init d) h
  have i0 := inv_step d s s0 .stopper i hs
  have a0 : Awake s0 := by
    have := i.cb; have := i.block; have := i.taken; have := i.stop; have := i.fin
    simp [step, stopper, hi] at hs
    subst hs
    refine ⟨rfl, hp, ?_⟩
    intro hb
    refine .inl ⟨rfl, ?_⟩
    cases hc : s.cb <;> grind
  have : ∀ l' s0, Inv d s0 → Awake s0 → run d s0 l' = .ok s' → Awake s' := by
    intro l'
    induction l' with
    | nil => intro s _ h2 h; cases h; exact h2
    | cons a l' ih =>
      intro s h1 h2 h
      obtain ⟨s1, h3, h4⟩ := Res.bind_eq_ok.1 h
      exact ih s1 (inv_step d s s1 a h1 h3) (awake_step d s s1 a h1 h2 h3) h4
  obtain ⟨_, h2, h3⟩ := this l' s0 i0 a0 h'
  refine ⟨h2, fun e => ?_⟩
  have := h3 e
  rw [hr] at this
  simp at this

/-- **C57.**  When the stop was requested, `request_stop` has returned and the thread is not blocked, `sleep_for` returns after at
most six more steps of its thread, without waiting for anything. -/
theorem c57_returns (d : Nat) (l : List Act) (s : State) (h : run d init l = .ok s) (hr : s.stopper = .returned)
    (h1 : s.pc ≠ .toBlock) (h2 : s.pc ≠ .blocked) (h3 : s.pc ≠ .before) (h4 : s.pc ≠ .done) :
    ∃ n s', n ≤ 6 ∧ run d s (List.replicate n .sleeper) = .ok s' ∧ s'.ret = some (s.now, true) := by
  have i := inv_run d l init s (inv_init d) h
  have hs : s.stop = true := by rw [i.stop, hr]; simp
  have hc : s.cb ≠ .taken := by rw [ne_eq, i.taken, hr]; simp
  have hw := i.wait
  have hv := i.cv
  rw [← hs]
  cases e : s.pc <;> simp only [e, ne_eq, not_true_eq_false, reduceCtorEq, not_false_eq_true] at h1 h2 h3 h4 hw hv
  · exact ⟨6, (by
      obtain ⟨s', x⟩ := go d s { s with pc := .inline } 5 (by simp [sleeper, e, hs])
        (go d _ { s with pc := .enter } 4 (by simp [sleeper, notify, hv]) (go_enter d _ rfl hs hc) rfl rfl) rfl rfl
      exact ⟨s', by decide, x⟩)⟩
  · obtain ⟨s', x⟩ := go d s { s with pc := .enter } 4 (by simp [sleeper, notify, e, hv]) (go_enter d _ rfl hs hc) rfl rfl
    exact ⟨5, s', by decide, x⟩
  · obtain ⟨s', x⟩ := go_enter d s e hs hc; exact ⟨4, s', by decide, x⟩
  · obtain ⟨s', x⟩ := go_check d s e hs hc; exact ⟨3, s', by decide, x⟩
  · by_cases hl : s.deadline ≤ s.now
    · obtain ⟨s', x⟩ := go_late d s e hl hc; exact ⟨4, s', by decide, x⟩
    · obtain ⟨s', x⟩ := go d s { s with pc := .check } 3 (by simp [sleeper, e, hl]) (go_check d _ rfl hs hc) rfl rfl
      exact ⟨4, s', by decide, x⟩
  · obtain ⟨s', x⟩ := go_last d s e hc; exact ⟨3, s', by decide, x⟩
  · obtain ⟨s', x⟩ := go_destroy d s e hc; exact ⟨2, s', by decide, x⟩
  · obtain ⟨s', x⟩ := go d s { s with pc := .dtor } 1 (by have := hw trivial; simp [sleeper, e]; grind) (go_dtor d _ rfl) rfl rfl
    exact ⟨2, s', by decide, x⟩
  · obtain ⟨s', x⟩ := go_dtor d s e; exact ⟨1, s', by decide, x⟩

/-- **C57.**  And when the duration has passed, it returns after at most five more steps, unless the function of the callback is
being called. -/
theorem c57_timeout (d : Nat) (s : State) (hb : s.pc = .blocked) (hl : s.deadline ≤ s.now)
    (hc : s.cb ≠ .taken) : ∃ s', run d s (List.replicate 5 .sleeper) = .ok s' ∧ s'.ret = some (s.now, s.stop) :=
  go d s { s with pc := .woken } 4 (by simp [sleeper, hb, hl]) (go_late d _ rfl hl hc) rfl rfl

/-- A thread that blocks after `request_stop` has returned stays so until its deadline. -/
theorem lost_stays (d t : Nat) : ∀ (l : List Act) (s s' : State), s.pc = .blocked → s.stopper = .returned → s.deadline = t → s.ret = none → Act.spurious ∉ l → run d s l = .ok s' → s'.now < t →
    s'.pc = .blocked ∧ s'.ret = none := by
  intro l
  induction l with
  | nil => intro s s' h1 _ _ h4 _ h6 _; cases h6; exact ⟨h1, h4⟩
  | cons a l ih =>
    intro s s' h1 h2 h3 h4 h5 h6 h7
    obtain ⟨s1, h8, h9⟩ := Res.bind_eq_ok.1 h6
    have mono : ∀ l s s', run d s l = .ok s' → s.now ≤ s'.now := by
      intro l
      induction l with
      | nil => intro s s' h; cases h; exact Nat.le_refl _
      | cons a l ih =>
        intro s s' h
        obtain ⟨s1, h1, h2⟩ := Res.bind_eq_ok.1 h
        refine Nat.le_trans ?_ (ih s1 s' h2)
        cases a with
        | sleeper => cases hp : s.pc <;> simp [step, sleeper, notify, hp] at h1 <;> (repeat' split at h1) <;> (try simp at h1) <;> grind
        | stopper => cases hp : s.stopper <;> simp [step, stopper, notify, hp] at h1 <;> (repeat' split at h1) <;> (try simp at h1) <;> grind
        | tick => simp [step] at h1; grind
        | spurious => simp only [step] at h1; split at h1 <;> grind
    have hm := mono l s1 s' h9
    have h5' : Act.spurious ∉ l := fun e => h5 (List.mem_cons_of_mem _ e)
    cases a with
    | sleeper =>
      simp only [step, sleeper, h1, h3] at h8
      split at h8
      · cases h8; simp only at hm; omega
      · cases h8; exact ih s s' h1 h2 h3 h4 h5' h9 h7
    | stopper => simp [step, stopper, h2] at h8
    | tick => simp only [step] at h8; cases h8; exact ih { s with now := s.now + 1 } s' h1 h2 h3 h4 h5' h9 h7
    | spurious => exact absurd List.mem_cons_self h5

/-- **C57 (violated).**  The stop is requested between the test of the flag and the beginning of the wait: `request_stop` has
returned at time 0 and nothing but a spurious wake-up ends the sleep before the whole duration has passed. -/
theorem c57_lost_violated (d : Nat) : ∃ s, run d init [.sleeper, .sleeper, .sleeper, .sleeper, .stopper, .stopper, .stopper, .stopper, .sleeper] = .ok s ∧
    s.now = 0 ∧ s.stop = true ∧ s.stopper = .returned ∧
    ∀ l s', Act.spurious ∉ l → run d s l = .ok s' → s'.now < d → s'.pc = .blocked ∧ s'.ret = none := by
  refine ⟨⟨0, true, .blocked, .returned, .finished, true, 0, 0 + d, none⟩, rfl, rfl, rfl, rfl, ?_⟩
  intro l s' h1 h2 h3
  exact lost_stays d d l _ s' rfl rfl (Nat.zero_add d) rfl h1 h2 h3

/-! Runs: woken by the request after 2 of 5 units; the duration passes; the request was made before. -/

example : run 5 init [.sleeper, .sleeper, .sleeper, .sleeper, .sleeper, .tick, .tick, .stopper, .stopper, .stopper, .stopper,
    .sleeper, .sleeper, .sleeper, .sleeper] = .ok ⟨2, true, .done, .returned, .finished, false, 0, 5, some (2, true)⟩ := by decide
example : run 2 init [.sleeper, .sleeper, .sleeper, .sleeper, .sleeper, .tick, .spurious, .sleeper, .sleeper, .sleeper, .tick, .sleeper, .sleeper, .sleeper, .sleeper, .sleeper]
    = .ok ⟨2, false, .done, .idle, .none, false, 0, 2, some (2, false)⟩ := by decide
example : run 5 init [.stopper, .stopper, .sleeper, .sleeper, .sleeper, .sleeper, .sleeper, .sleeper, .sleeper]
    = .ok ⟨0, true, .done, .returned, .none, false, 0, 5, some (0, true)⟩ := by decide
/-- The destructor waits for the function that is being called. -/
example : run 0 init [.sleeper, .sleeper, .stopper, .stopper, .sleeper, .sleeper, .sleeper, .sleeper, .stopper, .stopper, .sleeper, .sleeper]
    = .ok ⟨0, true, .done, .returned, .finished, false, 0, 0, some (0, true)⟩ := by decide

end Verif.Sleep
