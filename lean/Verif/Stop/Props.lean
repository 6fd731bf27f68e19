import Verif.Stop.Main

/-! # C56: the stop state -/

namespace Verif.Stop

/-- **C56.**  Whatever the threads do and however they are interleaved, no callback object is used after its destruction and no
flag of a returned `request_stop` is written. -/
theorem c56_no_ub (l : List (Nat × Act)) : run init l ≠ .ub := by
  have h : ∀ l s, Inv s → run s l ≠ .ub := by
    intro l
    induction l with
    | nil => intro s _ h; cases h
    | cons x l ih =>
      obtain ⟨t, a⟩ := x
      intro s hs
      rw [run]
      cases e : step s t a with
      | ok s1 => exact ih s1 (inv_tr s s1 t hs (step_tr s s1 t a e))
      | throw x => simp
      | ub => exact absurd e (step_no_ub s t a hs)
  exact h l init inv_init

/-- **C56.**  `request_stop` returns true at most once; when it has returned false, a stop was requested. -/
theorem c56_one_winner (l : List (Nat × Act)) (s : State) (h : run init l = .ok s) :
    wins s ≤ 1 ∧ ∀ t, .requested t false ∈ s.log → s.stop = true := by
  have hi := inv_run l init s inv_init h
  refine ⟨?_, hi.i3.lost⟩
  rw [wins_eq]
  cases hw : s.winner with
  | none => rw [hi.i3.won0 hw]; omega
  | some w =>
    by_cases ha : Active (s.threads w)
    · rw [hi.i3.wonA w hw ha]; omega
    · rw [(hi.i3.wonD w hw ha).1]; omega

theorem active_signalling (x : Thread) (h : Active x) : Signalling x := by
  rcases h with h | h
  · right
    cases hp : x.pc <;> simp_all [winPc]
  · left
    obtain ⟨f, hf, hc⟩ := List.countP_pos_iff.1 (Nat.pos_of_ne_zero h)
    cases f with
    | call c m b => exact ⟨c, m, b, hf⟩
    | inline c => simp [isCall] at hc

/-- **C56.**  When a `request_stop` has returned, exactly one has returned true, unless the one that will is still calling the callbacks. -/
theorem c56_exactly_one (l : List (Nat × Act)) (s : State) (h : run init l = .ok s) (t : Nat) (b : Bool) (hr : .requested t b ∈ s.log) :
    (wins s = 1 ∧ ∀ u, ¬ Signalling (s.threads u)) ∨ (wins s = 0 ∧ ∃ w, Signalling (s.threads w) ∧ ∀ u, Signalling (s.threads u) → u = w) := by
  have hi := inv_run l init s inv_init h
  have hs : s.winner ≠ none := by
    cases b with
    | true => rw [hi.i3.who t hr]; simp
    | false => intro hn; exact absurd (hi.i3.lost t hr) (by rw [hi.i1.none.2 hn]; simp)
  obtain ⟨w, hw⟩ := Option.ne_none_iff_exists'.1 hs
  have hu : ∀ u, Signalling (s.threads u) → Active (s.threads u) := by
    intro u h
    rcases h with ⟨c, m, b, hc⟩ | h
    · right
      exact Nat.ne_of_gt (List.countP_pos_iff.2 ⟨_, hc, rfl⟩)
    · left
      rcases h with h | h | ⟨c, m, h⟩ | ⟨c, m, h⟩ | ⟨c, m, b, h⟩ | h | h <;> rw [h] <;> rfl
  have hone : ∀ u, Signalling (s.threads u) → u = w := by
    intro u h
    have : s.winner = some u := by
      rcases hu u h with h | h
      · exact hi.i1.win u h
      · exact hi.i1.call u h
    rw [hw] at this; exact (Option.some.inj this).symm
  rw [wins_eq]
  by_cases ha : Active (s.threads w)
  · right
    exact ⟨hi.i3.wonA w hw ha, w, active_signalling _ ha, hone⟩
  · left
    refine ⟨(hi.i3.wonD w hw ha).1, fun u h => ?_⟩
    rw [← hone u h] at ha
    exact ha (hu u h)

/-- **C56.**  The stop stays requested. -/
theorem c56_stop_stays (l' : List (Nat × Act)) (s s' : State) (hs : s.stop = true) (h : run s l' = .ok s') :
    s'.stop = true := by
  induction l' generalizing s with
  | nil => cases h; exact hs
  | cons x l' ih =>
    obtain ⟨t, a⟩ := x
    obtain ⟨s1, h1, h2⟩ := Res.bind_eq_ok.1 h
    have h3 : s1.stop = true := by
      cases step_tr s s1 t a h1 <;> first | exact hs | rfl
    exact ih s1 h3 h2

/-- **C56.**  The function of a callback object is called at most once. -/
theorem c56_once (l : List (Nat × Act)) (s : State) (h : run init l = .ok s) (c : Nat) : calls s c ≤ 1 := by
  rw [calls_eq]
  exact (inv_run l init s inv_init h).i3.once c

/-- **C56.**  A callback object whose constructor has returned is registered, or its function was called, or no stop can be
requested any more. -/
theorem c56_registered (l : List (Nat × Act)) (s : State) (h : run init l = .ok s) (c : Nat) (r : Rec) (hc : s.cbs c = some r)
    (hb : r.stage = .built) : .registered c ∈ s.log ∨ (∃ t, .ended c t ∈ s.log) ∨ s.stop = false ∧ s.sources = 0 := by
  have hi := inv_run l init s inv_init h
  cases hr : r.reg with
  | true => exact .inl (hi.i4.built c r hc (.inr hr))
  | false => exact .inr (hi.i4.noReg c r hc hb hr)

/-- **C56.**  When `request_stop` has returned true, the functions of all registered callbacks were called and have returned, but
for those that were destroyed before their turn came. -/
theorem c56_all_called (l : List (Nat × Act)) (s : State) (h : run init l = .ok s) (t c : Nat) (ht : .requested t true ∈ s.log)
    (hc : .registered c ∈ s.log) : .unlinked c ∈ s.log ∨ ∃ u, .started c u ∈ s.log ∧ .ended c u ∈ s.log := by
  have hi := inv_run l init s inv_init h
  have hw := hi.i3.who t ht
  have h1 : ¬ Active (s.threads t) := by
    intro ha
    have := hi.i3.wonA t hw ha
    rw [List.countP_eq_zero] at this
    exact this _ ht rfl
  have h2 := (hi.i3.wonD t hw h1).2
  rcases hi.i4.reg c hc with h3 | h3 | ⟨u, h3⟩ | ⟨w, h3, h4⟩
  · rw [h2] at h3; cases h3
  · exact .inl h3
  · exact .inr ⟨u, hi.i4.ended c u h3, h3⟩
  · rw [hw] at h3; cases h3
    exfalso; apply h1
    rcases h4 with h4 | ⟨m, b, h4⟩
    · exact .inl (taken_win _ _ h4)
    · exact .inr (fun e => countP_zero_call _ e _ _ _ h4)

/-- **C56.**  So when `request_stop` has returned true, the function of every callback object that exists was called and has
returned, unless its constructor or its destructor has not returned yet. -/
theorem c56_all_ran (l : List (Nat × Act)) (s : State) (h : run init l = .ok s) (t c : Nat) (r : Rec) (ht : .requested t true ∈ s.log)
    (hc : s.cbs c = some r) (hb : r.stage = .built) (hd : r.dying = none) : ∃ u, .started c u ∈ s.log ∧ .ended c u ∈ s.log := by
  have hi := inv_run l init s inv_init h
  have hw := hi.i3.who t ht
  rcases c56_registered l s h c r hc hb with h1 | ⟨u, h1⟩ | ⟨h1, _⟩
  · rcases c56_all_called l s h t c ht h1 with h2 | h2
    · exact absurd hd (hi.i4.unl c r h2 hc)
    · exact h2
  · exact ⟨u, hi.i4.ended c u h1, h1⟩
  · rw [hi.i1.none, hw] at h1; cases h1

/-- **C56.**  A callback object destroyed before its turn came is never called. -/
theorem c56_unlinked (l : List (Nat × Act)) (s : State) (h : run init l = .ok s) (c : Nat) (hc : .unlinked c ∈ s.log) : calls s c = 0 := by
  rw [calls_eq]
  exact ((inv_run l init s inv_init h).i3.unl c hc).1

/-- **C56.**  When the destructor has returned, the function is not being called, but for one call: the one that destroyed its own
callback object. -/
theorem c56_destroyed (l : List (Nat × Act)) (s : State) (h : run init l = .ok s) (c u t : Nat) (hc : .destroyed c u ∈ s.log)
    (he : Executing (s.threads t) c) : t = u := by
  have hi := inv_run l init s inv_init h
  rcases he with ⟨m, b, he⟩ | he
  · exact (hi.i3.alone c u hc t m b he).1
  · obtain ⟨r, hr, _⟩ := hi.i2.inl t c he
    rw [(hi.i3.dead c u hc).1] at hr; cases hr

/-- **C56.**  And it is not called afterwards. -/
theorem c56_destroyed_quiet (l l' : List (Nat × Act)) (s s' : State) (h : run init l = .ok s) (h' : run s l' = .ok s') (c u v : Nat)
    (hc : .destroyed c u ∈ s.log) (hv : .started c v ∈ s'.log) : .started c v ∈ s.log := by
  have hi := inv_run l init s inv_init h
  obtain ⟨hn, hl⟩ := hi.i3.dead c u hc
  clear h hc
  induction l' generalizing s with
  | nil => cases h'; exact hv
  | cons x l' ih =>
    obtain ⟨t, a⟩ := x
    obtain ⟨s1, h1, h2⟩ := Res.bind_eq_ok.1 h'
    have h3 := step_tr s s1 t a h1
    obtain ⟨b1, b2, b3⟩ := dead_tr s s1 t c hi h3 hn hl
    exact b3 v (ih s1 h2 (inv_tr s s1 t hi h3) b1 b2)

/-- **C56.**  The destructor waits only while another thread, the one that requested the stop, is at this callback; or that one
has finished and the wait is over. -/
theorem c56_wait (l : List (Nat × Act)) (s : State) (h : run init l = .ok s) (t c : Nat) (ht : (s.threads t).pc = .remWait c) :
    (∃ w, w ≠ t ∧ Busy (s.threads w) c) ∨ ∃ s', step s t .go = .ok s' ∧ (s'.threads t).pc = .remRet c := by
  have hi := inv_run l init s inv_init h
  obtain ⟨r, b1, b2⟩ := hi.i2.rem t c (by rw [ht]; rfl)
  obtain ⟨b3, b4⟩ := hi.i2.dying c r b1 (by simp [b2])
  obtain ⟨w1, w2⟩ := hi.i4.waits t c ht
  rcases hi.i4.off c r b1 (.inr ⟨b3, b4⟩) (hi.i2.off t c (by rw [ht]; rfl)) with ⟨v, hv⟩ | ⟨_, hf | ⟨w, hw, hv⟩⟩
  · obtain ⟨r', c1, c2⟩ := hi.i2.rem v c (sure_rem _ _ hv)
    rw [b1] at c1; cases c1
    rw [b2] at c2; cases c2
    rw [ht] at hv; simp [sure] at hv
  · right
    refine ⟨setPc s t (.remRet c), ?_, ?_⟩
    · simp [step, advance, ht, b1, hf]
    · simp [setPc, setThread]
  · left
    refine ⟨w, ?_, ?_⟩
    · rintro rfl
      rcases hi.i1.sig' w hw with e | e
      · exact w2 e
      · rw [ht] at e; cases e
    · rcases hv with hv | ⟨m, hv | hv⟩
      · left
        cases hp : (s.threads w).pc <;> simp [hp, taken] at hv
        · subst hv; exact ⟨_, .inl rfl⟩
        · subst hv; exact ⟨_, .inr (.inl rfl)⟩
      · right; exact ⟨m, hv⟩
      · left; exact ⟨m, .inr (.inr hv)⟩

/-- **C56.**  The lock is held for at most three steps of the thread that has it. -/
theorem c56_lock (l : List (Nat × Act)) (s : State) (h : run init l = .ok s) (t : Nat) (ht : s.locked = some t) :
    ∃ n s', n ≤ 3 ∧ run s (List.replicate n (t, .go)) = .ok s' ∧ s'.locked = none := by
  have hi := inv_run l init s inv_init h
  have hl := listed_ok s hi
  have hh := (hi.i1.lock t).2 ht
  have head : ∀ s : State, listed s = true → (s.threads t).pc = .stopHead →
      ∃ s', run s [(t, .go), (t, .go)] = .ok s' ∧ s'.locked = none := by
    intro s hl hp
    cases hq : s.queue with
    | nil => exact ⟨_, by simp [run, step, hp, advance, hl, hq, setPc, setThread]; rfl, rfl⟩
    | cons c q => exact ⟨_, by simp [run, step, hp, advance, hl, hq, setPc, setThread]; rfl, rfl⟩
  cases hp : (s.threads t).pc <;> simp [hp, holds] at hh
  · obtain ⟨s', e1, e2⟩ := head { setPc s t .stopHead with sig := some t } hl (by simp [setPc, setThread])
    refine ⟨3, s', by omega, ?_, e2⟩
    rw [← e1]
    simp [List.replicate, run, step, hp, advance]
  · obtain ⟨s', e1, e2⟩ := head s hl hp
    exact ⟨2, s', by omega, e1, e2⟩
  · exact ⟨1, _, by omega, by simp [List.replicate, run, step, hp, advance]; rfl, rfl⟩
  · exact ⟨1, _, by omega, by simp [List.replicate, run, step, hp, advance]; rfl, rfl⟩
  · rename_i c
    obtain ⟨r, hr, _⟩ := hi.i2.tries t c (by rw [hp]; rfl)
    exact ⟨2, _, by omega, by simp [List.replicate, run, step, hp, advance, hr, hl, setPc, setThread, setCb]; rfl, rfl⟩
  · exact ⟨1, _, by omega, by simp [List.replicate, run, step, hp, advance]; rfl, rfl⟩
  · rename_i c
    obtain ⟨r, hr, _⟩ := hi.i2.rem t c (by rw [hp]; rfl)
    by_cases hq : c ∈ s.queue
    · exact ⟨2, _, by omega, by simp [List.replicate, run, step, hp, advance, hr, hl, hq, setPc, setThread]; rfl, rfl⟩
    · exact ⟨2, _, by omega, by simp [List.replicate, run, step, hp, advance, hr, hq, setPc, setThread]; rfl, rfl⟩
  · exact ⟨1, _, by omega, by simp [List.replicate, run, step, hp, advance]; rfl, rfl⟩
  · exact ⟨1, _, by omega, by simp [List.replicate, run, step, hp, advance]; rfl, rfl⟩

/-- **C56.**  A callback constructed after the stop was requested is called at once, by the thread that constructs it, and its
constructor does not return before the function does. -/
theorem c56_late (s s' : State) (t : Nat) (hs : s.stop = true)
    (h' : run s [(t, .construct), (t, .go)] = .ok s') :
    s'.log = .started s.next t :: s.log ∧ Executing (s'.threads t) s.next ∧ ∃ r, s'.cbs s.next = some r ∧ r.stage ≠ .built := by
  obtain ⟨s1, h1, h2⟩ := Res.bind_eq_ok.1 h'
  obtain ⟨s2, h3, h4⟩ := Res.bind_eq_ok.1 h2
  cases h4
  simp only [step] at h1
  split at h1
  · cases h1
    simp [step, advance, setPc, setThread, setCb, hs] at h3
    subst h3
    refine ⟨rfl, .inr (by simp), ⟨_, by simp; rfl, by simp⟩⟩
  · cases h1

/-! A run: thread 0 registers the callbacks 0 and 1; thread 1 requests the stop, callback 1 destroys itself, then callback 0 runs
while thread 2 destroys it; thread 3 requests the stop too and constructs a late callback. -/
def demo : List (Nat × Act) :=
  [(0, .construct), (0, .go), (0, .go), (0, .go), (0, .go), (0, .construct), (0, .go), (0, .go), (0, .go), (0, .go),
   (1, .request), (1, .go), (1, .go), (1, .go), (1, .go), (1, .go), (1, .destroy 1), (1, .go), (1, .go), (1, .go), (1, .go)]

/-- The rest of it: callback 1 is destroyed while it runs. -/
def demo' : List (Nat × Act) :=
  [(1, .go), (1, .ret), (1, .go), (1, .go), (1, .go), (1, .go), (1, .go), (2, .destroy 0), (2, .go), (2, .go), (2, .go), (2, .go)]

def demo'' : List (Nat × Act) :=
  [(3, .request), (3, .go), (2, .go), (1, .ret), (1, .go), (2, .go), (2, .go), (3, .construct), (3, .go), (3, .ret)]

def view {α : Type} (f : State → α) : Res State → Option α
  | .ok s => some (f s)
  | _ => none

example : view (·.log.reverse) (run init (demo ++ demo' ++ demo'')) = some
    [.registered 0, .registered 1, .started 1 1, .destroyed 1 1, .ended 1 1, .started 0 1, .requested 3 false, .ended 0 1,
     .requested 1 true, .destroyed 0 2, .started 2 3, .ended 2 3] := by rfl

-- c56_exactly_one: the request of thread 3 has returned, that of thread 1 has not; then it has
example : view (fun s => (wins s, s.log.head?)) (run init (demo ++ demo' ++ demo''.take 2)) = some (0, some (.requested 3 false)) ∧
    view wins (run init (demo ++ demo' ++ demo'')) = some 1 := by constructor <;> rfl

-- c56_wait: thread 2 waits for thread 1
example : view (fun s => (s.threads 2).pc) (run init (demo ++ demo')) = some (.remWait 0) := by rfl

-- c56_destroyed: callback 1 is destroyed while it runs
example : view (fun s => (s.log.head?, (s.threads 1).stack)) (run init (demo ++ [(1, .go)])) =
    some (some (.destroyed 1 1), [.call 1 true true]) := by rfl

-- c56_unlinked: destroyed before its turn
example : view (·.log.reverse) (run init ([(0, .construct), (0, .go), (0, .go), (0, .go), (0, .go), (0, .destroy 0), (0, .go), (0, .go), (0, .go), (0, .go),
    (1, .request), (1, .go), (1, .go), (1, .go), (1, .go)])) = some [.registered 0, .unlinked 0, .destroyed 0 0, .requested 1 true] := by rfl

-- c56_lock: someone holds it
example : view (·.locked) (run init [(0, .request), (0, .go)]) = some (some 0) := by rfl

-- c56_registered: no source is left
example : view (fun s => (s.cbs 0, s.log)) (run init [(0, .dropSource), (0, .construct), (0, .go)]) =
    some (some ⟨.built, 0, false, false, false, none⟩, []) := by rfl

end Verif.Stop
