import Verif.WatchDog.Model

/-! # Watch dog (C103) -/

namespace Verif.WatchDog

/-- What holds in every reachable state. -/
def Inv (s : State) : Prop :=
  (s.watcher = .none ↔ s.owner = .before) ∧
  (hasCallback s.owner = true → s.user = true → s.source = true) ∧
  (s.source = true → s.user = true ∨ s.elapsed = true ∨ s.thread = true) ∧
  (s.watcher = .done → s.source = true) ∧
  (s.watcher = .woken ∨ s.watcher = .logging ∨ s.watcher = .stopping ∨ s.watcher = .done → s.elapsed = true ∨ s.thread = true) ∧
  (s.watcher = .logging ∨ s.logs = 1 → s.elapsed = true) ∧
  (s.logs ≤ 1 ∧ (s.logs = 1 → s.watcher = .stopping ∨ s.watcher = .done)) ∧
  (s.thread = true ↔ s.owner = .joining ∨ s.owner = .gone) ∧
  (s.owner = .gone → s.watcher = .done) ∧
  ((s.watcher = .stopping ∨ s.watcher = .done) ∧ s.logs = 0 → s.thread = true)

theorem inv_step {s s' : State} {a : Act} (hi : Inv s) (h : step s a = .ok s') : Inv s' := by
  unfold Inv at *
  cases a with
  | owner =>
    simp only [step, stepOwner] at h
    split at h <;> (try split at h) <;> simp at h <;> subst h <;> simp_all [hasCallback] <;> grind
  | watcher =>
    simp only [step, stepWatcher] at h
    split at h <;> (try split at h) <;> (try split at h) <;> simp at h <;> subst h <;> simp_all [hasCallback] <;> grind
  | elapse =>
    simp only [step] at h
    split at h <;> simp at h; subst h; simp_all
  | stop =>
    simp only [step] at h
    simp at h; subst h; simp_all; grind

theorem inv_run : ∀ (l : List Act) (s s' : State), Inv s → run s l = .ok s' → Inv s'
  | [], s, s', hi, h => by simp [run] at h; exact h ▸ hi
  | a :: l, s, s', hi, h => by
    simp only [run, Res.bind_eq_ok] at h
    obtain ⟨s1, h1, h2⟩ := h
    exact inv_run l s1 s' (inv_step hi h1) h2

theorem inv_init : Inv init := by simp [Inv, init, hasCallback]

/-- **C103.**  If the user requested a stop, before or during the lifetime of the object, `get_token()` is stopped. -/
theorem c103_user_stop (l : List Act) (s : State) (h : run init l = .ok s) (hl : s.owner = .live) (hu : s.user = true) : s.source = true :=
  (inv_run l _ _ inv_init h).2.1 (by simp [hl, hasCallback]) hu

/-- **C103.**  `get_token()` is stopped only if the user requested it, the time is over or the object is being destroyed. -/
theorem c103_only (l : List Act) (s : State) (h : run init l = .ok s) (hs : s.source = true) :
    s.user = true ∨ s.elapsed = true ∨ s.owner = .joining ∨ s.owner = .gone := by
  have hi := inv_run l _ _ inv_init h
  unfold Inv at hi
  grind

/-- **C103.**  When the time is over while the object lives, the thread comes to stop `get_token()` with its next four steps, and calls `m_log`, once. -/
theorem c103_timeout (l : List Act) (s : State) (h : run init l = .ok s) (hl : s.owner = .live) (he : s.elapsed = true) (hw : s.watcher = .sleeping) :
    ∃ s', run s [.watcher, .watcher, .watcher, .watcher] = .ok s' ∧ s'.source = true ∧ s'.logs = 1 ∧ s'.watcher = .done := by
  have hi := inv_run l _ _ inv_init h
  unfold Inv at hi
  have ht : s.thread = false := by grind
  have h0 : s.logs = 0 := by grind
  exact ⟨{ s with watcher := .done, source := true, logs := 1 }, by simp [run, step, stepWatcher, hw, he, ht, hl, h0], rfl, rfl, rfl⟩

/-- **C103.**  `m_log` is called at most once, and only if the time is over. -/
theorem c103_log (l : List Act) (s : State) (h : run init l = .ok s) : s.logs ≤ 1 ∧ (s.logs = 1 → s.elapsed = true) := by
  have hi := inv_run l _ _ inv_init h
  unfold Inv at hi
  grind

/-- **C103.**  When the object is gone its thread has ended; while it is being destroyed, the thread can always go on. -/
theorem c103_ends (l : List Act) (s : State) (h : run init l = .ok s) :
    (s.owner = .gone → s.watcher = .done) ∧ (s.owner = .joining → s.watcher = .done ∨ ∃ s', step s .watcher = .ok s') := by
  have hi := inv_run l _ _ inv_init h
  unfold Inv at hi
  refine ⟨by grind, fun hj => ?_⟩
  have ht : s.thread = true := by grind
  rcases hw : s.watcher with _ | _ | _ | _ | _ | _ <;> simp [step, stepWatcher, hw, ht]
  grind

/-- The time is not over before the object is constructed, nor while it is being destroyed, nor is it destroyed between the end of the time and the end of the thread. -/
def Calm : State → List Act → Prop
  | _, [] => True
  | s, a :: l =>
    (a = .elapse → s.owner = .live) ∧ (a = .owner → s.owner = .live → s.elapsed = true → s.watcher = .done) ∧
      match step s a with
      | .ok s' => Calm s' l
      | _ => True

/-- **C103.**  Then nothing is undefined. -/
theorem c103_no_ub_partial (l : List Act) (hc : Calm init l) : run init l ≠ .ub := by
  have key : ∀ (l : List Act) (s : State), Inv s → (s.elapsed = true → s.owner = .live ∨ s.watcher = .done) → (s.watcher = .woken → s.thread = false → s.owner = .live) → Calm s l → run s l ≠ .ub := by
    intro l
    induction l with
    | nil => intro s _ _ _ _; simp [run]
    | cons a l ih =>
      intro s hi he hw hc
      obtain ⟨h1, h2, h3⟩ := hc
      simp only [run]
      rcases hs : step s a with s' | e | _
      · rw [hs] at h3
        refine ih s' (inv_step hi hs) ?_ ?_ h3
        · unfold Inv at hi
          cases a with
          | owner =>
            simp only [step, stepOwner] at hs
            split at hs <;> (try split at hs) <;> simp at hs <;> subst hs <;> simp_all
          | watcher =>
            simp only [step, stepWatcher] at hs
            split at hs <;> (try split at hs) <;> (try split at hs) <;> simp at hs <;> subst hs <;> simp_all
          | elapse => simp only [step] at hs; split at hs <;> simp at hs; subst hs; simp_all
          | stop => simp only [step] at hs; simp at hs; subst hs; simp_all
        · unfold Inv at hi
          cases a with
          | owner =>
            simp only [step, stepOwner] at hs
            split at hs <;> (try split at hs) <;> simp at hs <;> subst hs <;> simp_all
            all_goals grind
          | watcher =>
            simp only [step, stepWatcher] at hs
            split at hs <;> (try split at hs) <;> (try split at hs) <;> simp at hs <;> subst hs <;> simp_all
            all_goals grind
          | elapse => simp only [step] at hs; split at hs <;> simp at hs; subst hs; simp_all
          | stop => simp only [step] at hs; simp at hs; subst hs; simp_all
      · simp
      · exfalso
        unfold Inv at hi
        cases a with
        | owner =>
          simp only [step, stepOwner] at hs
          split at hs <;> (try split at hs) <;> simp_all
        | watcher =>
          simp only [step, stepWatcher] at hs
          split at hs <;> (try split at hs) <;> (try split at hs) <;> simp_all
        | elapse => simp only [step] at hs; split at hs <;> simp at hs
        | stop => simp [step] at hs
  exact key l init inv_init (by simp [init]) (by simp [init]) hc

/-- **C103 is violated**: if the time is over before the constructor has returned, `m_log` is called before it is constructed (the thread is started before), -/
theorem c103_ctor_violated : run init [.owner, .elapse, .watcher, .watcher] = .ub := rfl

/-- and if it is over while the object is destroyed, after it was destroyed: the thread is joined last. -/
theorem c103_dtor_violated : run init [.owner, .owner, .owner, .owner, .elapse, .watcher, .watcher] = .ub ∧
    run init [.owner, .owner, .owner, .elapse, .watcher, .watcher, .owner] = .ub := ⟨rfl, rfl⟩

-- Non-vacuity.
example : Calm init [.owner, .owner, .owner, .elapse, .watcher, .watcher, .watcher, .watcher, .owner, .owner, .owner, .owner] := by
  simp [Calm, init, step, stepOwner, stepWatcher]
example : run init [.owner, .owner, .owner, .elapse, .watcher, .watcher, .watcher, .watcher] = .ok ⟨.live, .done, true, false, true, false, 1⟩ := rfl
example : run init [.stop, .owner, .owner, .owner] = .ok ⟨.live, .sleeping, false, true, true, false, 0⟩ := rfl
example : run init [.owner, .owner, .owner, .stop, .owner, .owner, .owner, .watcher, .watcher, .watcher, .owner]
    = .ok ⟨.gone, .done, false, true, true, true, 0⟩ := rfl

end Verif.WatchDog
