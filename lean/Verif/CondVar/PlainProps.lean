import Verif.CondVar.PlainLemmas

/-! # C133: waiting without a token -/

namespace Verif.CondVar.Plain

/-- How the object may be used: it is destroyed when no thread is in `notify_one` or `notify_all` or at the beginning of a wait, and it
is not used afterwards.  Threads that have begun to wait may still be inside of `wait`, notified or not. -/
def Legal : State → List (Nat × Act) → Prop
  | _, [] => True
  | s, (t, a) :: l =>
    (a = .destroy → ∀ u, inCall (s.pc u) = false) ∧ (∀ p k, a = .wait p k → s.alive = true) ∧ (∀ one, a = .notify one → s.alive = true) ∧
      ∀ s', step s t a = .ok s' → Legal s' l

theorem call_step (s s' : State) (t : Nat) (a : Act) (h : ∀ u, inCall (s.pc u) = true → s.alive = true) (hs : step s t a = .ok s')
    (h1 : a = .destroy → ∀ u, inCall (s.pc u) = false) (h2 : ∀ p k, a = .wait p k → s.alive = true) (h3 : ∀ one, a = .notify one → s.alive = true) :
    ∀ u, inCall (s'.pc u) = true → s'.alive = true := by
  intro u
  have e1 := h t; have e2 := h u
  have e3 : a = .destroy → inCall (s.pc u) = false := fun e => h1 e u
  clear h h1
  psteps hs s t a <;> grind

/-- **C133.**  The object may be destroyed while threads that began to wait have not yet returned: what they use exists until the last
of them has returned. -/
theorem c133_lifetime (l : List (Nat × Act)) (hl : Legal init l) : run init l ≠ .ub := by
  have : ∀ l s, Inv s → (∀ u, inCall (s.pc u) = true → s.alive = true) → Legal s l → run s l ≠ .ub := by
    intro l
    induction l with
    | nil => intro s _ _ _ h; cases h
    | cons x l ih =>
      intro s hi hc hl h
      obtain ⟨t, a⟩ := x
      obtain ⟨l1, l2, l3, l4⟩ := hl
      rw [run] at h
      cases e : step s t a with
      | ok s1 => rw [e] at h; exact ih s1 (inv_step s s1 t a hi e) (call_step s s1 t a hc e l1 l2 l3) (l4 s1 e) h
      | throw x => rw [e] at h; cases h
      | ub =>
        have h1 := hi.own t
        have h2 := hc t
        have h3 : t ∈ s.owners → s.mem = true := by
          intro h; unfold State.mem; cases ho : s.owners with
          | nil => rw [ho] at h; cases h
          | cons x l => simp
        have h4 : s.alive = true → s.mem = true := by intro h; simp [State.mem, h]
        clear h hi hc l1 l2 l3 l4
        cases a <;> simp only [step] at e
        case go n =>
          cases hp : s.pc t <;> simp only [hp, advance] at e <;> (repeat' split at e) <;> cases e <;>
            simp_all [inWait, inCall]
        all_goals (repeat' split at e) <;> cases e
  exact this l init inv_init (by intro u h; cases h) hl

/-- **C133.**  When the object was destroyed and the waits have returned, the internals are released. -/
theorem c133_released (l : List (Nat × Act)) (s : State) (h : run init l = .ok s) (ha : s.alive = false)
    (hp : ∀ t, s.pc t = .user) : s.mem = false := by
  have hi := inv_run l init s inv_init h
  have : s.owners = [] := by
    apply List.eq_nil_iff_forall_not_mem.2
    intro t ht
    have := (hi.own t).1 ht
    rw [hp t] at this; cases this
  simp [State.mem, ha, this]

/-- **C133.**  A wait returns, or throws what the predicate throws, with the lock held.  With a predicate it returns whether it is
true, and false only if the wait was timed and its time was over.  Without one the status is `timeout` exactly if the time was over,
which is only possible if the wait was timed. -/
theorem c133_result (l : List (Nat × Act)) (s s' : State) (t u : Nat) (a : Act) (p k to r : Bool) (h : run init l = .ok s)
    (hs : step s t a = .ok s') (hl : s'.log = .returned u p k to r :: s.log) :
    u = t ∧ s'.lock = some t ∧ (to = true → k = true) ∧ (p = true → s'.data = r ∧ (r = false → to = true)) ∧ (p = false → r = !to) := by
  have hi := inv_run l init s inv_init h
  have e1 := hi.user t
  have e2 := hi.time t
  clear hi h
  have hne : ∀ (e : List Event), e ≠ .returned u p k to r :: e := fun e h => by
    have := congrArg List.length h; simp at this
  psteps hs s t a <;> simp_all [timeOk, holdsUser] <;> cases r <;> grind

/-- **C133.**  The predicate is called with the lock held, and an exception leaves the wait with the lock held. -/
theorem c133_locked (l : List (Nat × Act)) (s : State) (h : run init l = .ok s) (t : Nat) :
    (∀ k, s.pc t = .pred k ∨ s.pc t = .after true k true → s.lock = some t) ∧
      (∀ s', step s t .raise = .ok s' → s'.lock = some t ∧ s'.pc t = .user ∧ t ∉ s'.owners ∧ s'.m ≠ some t) := by
  have hi := inv_run l init s inv_init h
  have e1 := hi.user t
  have e2 : t ∉ s.owners.erase t := hi.ownOnce.not_mem_erase
  have e3 := hi.m t
  refine ⟨?_, ?_⟩
  · rintro k (hp | hp) <;> exact e1 (by rw [hp]; rfl)
  · intro s' hs
    simp only [step] at hs
    split at hs
    · rename_i hp; cases hs
      rw [hp] at e1 e3
      exact ⟨e1 rfl, by simp [leave, setPc], e2, fun e => by have := e3.1 e; cases this⟩
    · rename_i hp; cases hs
      rw [hp] at e1 e3
      exact ⟨e1 rfl, by simp [leave, setPc], e2, fun e => by have := e3.1 e; cases this⟩
    · cases hs

/-- **C133.**  The lock is released and the thread blocked in one act, as the notifying threads see it: when a thread is notified no
thread is between the two.  `notify_all` wakes all that are blocked, `notify_one` one of them, if there is one. -/
theorem c133_notify (l : List (Nat × Act)) (s s' : State) (t : Nat) (a : Act) (one : Bool) (h : run init l = .ok s)
    (hs : step s t a = .ok s') (hl : s'.log = .notified one :: s.log) :
    (∀ u p k, s'.pc u ≠ .block p k) ∧ (one = false → s'.waiting = []) ∧
      (one = true → s'.waiting.length = s.waiting.length - 1 ∧ ∀ u, u ∈ s'.waiting → u ∈ s.waiting) := by
  have hi := inv_run l init s inv_init h
  have hne : ∀ (e : List Event), e ≠ .notified one :: e := fun e h => by
    have := congrArg List.length h; simp at this
  have hx : s.pc t = .nNotify one ∧ ∃ n, s'.waiting = (if one then wakeOne n s.waiting else []) := by
    clear hi h
    psteps hs s t a <;> simp_all
    all_goals exact ⟨_, rfl⟩
  obtain ⟨hp, n, hw⟩ := hx
  have hm : s.m = some t := (hi.m t).2 (by rw [hp]; rfl)
  refine ⟨?_, ?_, ?_⟩
  · intro u p k hb
    have h1 : u = t ∨ s.pc u = .block p k := by
      clear hi h hw hm
      psteps hs s t a <;> simp_all <;> grind
    rcases h1 with rfl | h1
    · have h2 : s'.pc u = .nUnlock := by
        clear hi h hw hm
        psteps hs s u a <;> simp_all
      rw [h2] at hb; cases hb
    · have h2 := (hi.m u).2 (by rw [h1]; rfl)
      rw [hm] at h2; cases h2
      rw [hp] at h1; cases h1
  · intro e; subst e; simpa using hw
  · intro e; subst e
    simp only [if_true] at hw
    rw [hw]
    refine ⟨?_, fun u => wakeOne_mem n s.waiting u⟩
    simp only [wakeOne]
    split
    · rename_i x hx
      rw [List.length_erase, if_pos (List.mem_of_getElem? hx)]
    · rename_i hx
      cases e : s.waiting with
      | nil => rfl
      | cons y q =>
        rw [List.getElem?_eq_none_iff, e] at hx
        have := Nat.mod_lt n (show 0 < (y :: q).length by simp)
        omega

theorem pending_split (l1 l2 : List Event) (h : ∀ b, .set b ∉ l1) : pending (l1 ++ .notified false :: l2) = false := by
  induction l1 with
  | nil => rfl
  | cons e l1 ih =>
    have ih := ih (fun b hb => h b (List.mem_cons_of_mem _ hb))
    cases e with
    | set b => exact absurd List.mem_cons_self (h b)
    | notified one => cases one <;> simp [pending, ih]
    | returned t p k to r => exact ih
    | threw t => exact ih
    | destroyed => exact ih

/-- **C133.**  If the condition is true and `notify_all` was called since it was last changed, no thread is blocked in a wait with a
predicate, and none is on its way to block. -/
theorem c133_notify_not_lost (l : List (Nat × Act)) (s : State) (h : run init l = .ok s) (hd : s.data = true) (l1 l2 : List Event)
    (hl : s.log = l1 ++ .notified false :: l2) (h1 : ∀ b, .set b ∉ l1) (t : Nat) :
    (∀ k to, s.pc t = .blocked true k to → t ∉ s.waiting) ∧
      ∀ k, s.pc t ≠ .lockM true k ∧ s.pc t ≠ .unlockUser true k ∧ s.pc t ≠ .block true k := by
  have hi := inv_run l init s inv_init h
  have hp : pending s.log = false := by rw [hl]; exact pending_split l1 l2 h1
  have hs : ¬ (isBlock (s.pc t) = true ∨ (t ∈ s.waiting ∧ hasPred (s.pc t) = true)) := by
    intro e
    rcases hi.sleep t e with h2 | h2
    · rw [hd] at h2; cases h2
    · rw [hp] at h2; cases h2
  have hf : sawFalse (s.pc t) ≠ true := by
    intro e; have := hi.saw t e; rw [hd] at this; cases this
  refine ⟨fun k to e hw => hs (.inr ⟨hw, by rw [e]; rfl⟩), fun k => ⟨?_, ?_, ?_⟩⟩
  · intro e; exact hf (by rw [e]; rfl)
  · intro e; exact hf (by rw [e]; rfl)
  · intro e; exact hs (.inl (by rw [e]; rfl))

/-- **C133.**  A thread that was notified, whose time is over or that woke up returns after at most five steps in which the other
threads leave the two mutexes alone, if it waits without a predicate, or for a condition that is true, or its time is over. -/
theorem c133_ends (l : List (Nat × Act)) (s : State) (h : run init l = .ok s) (t : Nat) (p k to : Bool) (hb : s.pc t = .blocked p k to)
    (hw : t ∉ s.waiting) (hm : s.m = none) (hl : s.lock = none) (hd : p = false ∨ s.data = true ∨ to = true) :
    ∃ j s' to' r l', j ≤ 5 ∧ run s (List.replicate j (t, .go 0)) = .ok s' ∧ s'.pc t = .user ∧ s'.log = .returned t p k to' r :: l' := by
  have hi := inv_run l init s inv_init h
  have ho : t ∈ s.owners := (hi.own t).2 (by rw [hb]; rfl)
  have hmem : s.alive = true ∨ s.owners ≠ [] := .inr (by intro e; rw [e] at ho; cases ho)
  clear hi h
  cases p
  · have : ∃ s', run s (List.replicate 4 (t, .go 0)) = .ok s' ∧ s'.pc t = .user ∧ s'.log = .returned t false k to (!to) :: s.log := by
      simp [run, List.replicate, step, advance, hb, hw, hm, hl, hmem, setPc, leave, State.mem]
    obtain ⟨s', h1, h2, h3⟩ := this
    exact ⟨4, s', to, !to, s.log, by omega, h1, h2, h3⟩
  · cases to
    · simp at hd
      have : ∃ s', run s (List.replicate 5 (t, .go 0)) = .ok s' ∧ s'.pc t = .user ∧ s'.log = .returned t true k false true :: s.log := by
        simp [run, List.replicate, step, advance, hb, hw, hm, hl, hmem, setPc, leave, State.mem, hd]
      obtain ⟨s', h1, h2, h3⟩ := this
      exact ⟨5, s', false, true, s.log, by omega, h1, h2, h3⟩
    · have : ∃ s', run s (List.replicate 4 (t, .go 0)) = .ok s' ∧ s'.pc t = .user ∧ s'.log = .returned t true k true s.data :: s.log := by
        simp [run, List.replicate, step, advance, hb, hw, hm, hl, hmem, setPc, leave, State.mem]
      obtain ⟨s', h1, h2, h3⟩ := this
      exact ⟨4, s', true, s.data, s.log, by omega, h1, h2, h3⟩

/-- The next step of the thread takes it to another place. -/
def Moves (s : State) (t : Nat) : Prop := ∃ s', step s t (.go 0) = .ok s' ∧ s'.pc t ≠ s.pc t

theorem m_moves (s : State) (u : Nat) (h : Inv s) (hm : s.m = some u) (hmem : s.mem = true) : Moves s u := by
  have h1 := (h.m u).1 hm
  unfold Moves
  clear h
  cases hp : s.pc u <;> rw [hp] at h1 <;> simp [holdsM] at h1 <;> simp only [step, hp, advance, setPc, hmem]
  all_goals (repeat' split) <;> simp

/-- **C133.**  No deadlock: a thread inside of the library that does not wait for a notification can go on, or another thread can, or
the lock is held by code of the user. -/
theorem c133_no_deadlock (l : List (Nat × Act)) (s : State) (h : run init l = .ok s) (ha : s.alive = true) (t : Nat) (ht : s.pc t ≠ .user)
    (hw : t ∉ s.waiting) : (∃ u, Moves s u) ∨ ∃ u, s.lock = some u ∧ s.pc u = .user := by
  have hi := inv_run l init s inv_init h
  have hmem : s.mem = true := by simp [State.mem, ha]
  cases hm : s.m with
  | some u => exact .inl ⟨u, m_moves s u hi hm hmem⟩
  | none =>
    have hx : ∀ u, holdsM (s.pc u) = false := by
      intro u; cases e : holdsM (s.pc u)
      · rfl
      · have := (hi.m u).2 e; rw [hm] at this; cases this
    have hg : ∀ u, s.pc u ≠ .user → released (s.pc u) = false → ∃ v, Moves s v := by
      intro u hu hr
      refine ⟨u, ?_⟩
      have hxu := hx u
      unfold Moves
      cases hp : s.pc u <;> rw [hp] at hr hxu hu <;> simp [released, holdsM] at hr hxu hu
      all_goals simp only [step, hp, advance, setPc, leave, hm, hmem, ha]
      all_goals (repeat' split) <;> simp_all
    by_cases hr : released (s.pc t) = true
    · cases hp : s.pc t <;> rw [hp] at hr <;> simp [released] at hr
      · have := hx t; rw [hp] at this; cases this
      · exact .inl ⟨t, by unfold Moves; simp [step, hp, advance, setPc, hm, hw, hmem]⟩
      · have := hx t; rw [hp] at this; cases this
      · cases hl : s.lock with
        | none => exact .inl ⟨t, by unfold Moves; simp [step, hp, advance, setPc, hl]⟩
        | some u =>
          by_cases hu : s.pc u = .user
          · exact .inr ⟨u, rfl, hu⟩
          · left
            refine hg u hu ?_
            cases e : released (s.pc u)
            · rfl
            · exact absurd hl (hi.rel u e)
    · exact .inl (hg t ht (by simpa using hr))

/-! Runs. -/

structure View where
  lock : Option Nat
  m : Option Nat
  data : Bool
  mem : Bool
  owners : List Nat
  waiting : List Nat
  pcs : List Pc
  log : List Event
deriving DecidableEq

def view (r : Res State) : Option View :=
  match r with
  | .ok s => some ⟨s.lock, s.m, s.data, s.mem, s.owners, s.waiting, [s.pc 0, s.pc 1], s.log⟩
  | _ => none

/-- Thread 0 waits without a predicate. -/
def sleeping (k : Bool) : List (Nat × Act) := [(0, .lock), (0, .wait false k)] ++ List.replicate 4 (0, .go 0)

example : view (run init (sleeping false)) = some ⟨none, none, false, true, [0], [0], [.blocked false false false, .user], []⟩ := by decide +kernel
/-- Notified, and the object destroyed before the wait has returned; when it has the internals are gone. -/
def destroyed : List (Nat × Act) := sleeping false ++ [(1, .notify false)] ++ List.replicate 4 (1, .go 0) ++ [(1, .destroy)]

example : view (run init destroyed)
    = some ⟨none, none, false, true, [0], [], [.blocked false false false, .user], [.destroyed, .notified false]⟩ := by decide +kernel
example : view (run init (destroyed ++ List.replicate 4 (0, .go 0)))
    = some ⟨some 0, none, false, false, [], [], [.user, .user], [.returned 0 false false false true, .destroyed, .notified false]⟩ := by decide +kernel
/-- The same, destroyed before the notifying thread has left `notify_all`. -/
example : run init ([(0, .lock), (1, .notify false), (1, .go 0), (0, .destroy), (1, .go 0)]) = .ub := by rfl
example : run init ([(0, .destroy), (1, .notify false), (1, .go 0)]) = .ub := by rfl
/-- The time is over. -/
example : view (run init (sleeping true ++ [(0, .timeout)] ++ List.replicate 4 (0, .go 0)))
    = some ⟨some 0, none, false, true, [], [], [.user, .user], [.returned 0 false true true false]⟩ := by decide +kernel
/-- With a predicate: a spurious awakening, then a notification. -/
example : view (run init ([(0, .lock), (0, .wait true false)] ++ List.replicate 5 (0, .go 0) ++ [(0, .spurious)] ++ List.replicate 8 (0, .go 0)
    ++ [(1, .lock), (1, .set true), (1, .unlock), (1, .notify true)] ++ List.replicate 4 (1, .go 0) ++ List.replicate 5 (0, .go 0)))
    = some ⟨some 0, none, true, true, [], [], [.user, .user], [.returned 0 true false false true, .notified true, .set true]⟩ := by decide +kernel

/-- The hypothesis of `c133_lifetime` holds for the run that destroys the object. -/
theorem destroyed_legal : Legal init destroyed := by
  have h : ∀ (l : List (Nat × Act)) (s : State), (∀ x ∈ l, x.2 ≠ .destroy ∧ x.1 < 2) → (∀ u, 2 ≤ u → s.pc u = .user) → s.alive = true →
      (∀ s', run s l = .ok s' → inCall (s'.pc 0) = false ∧ inCall (s'.pc 1) = false) → Legal s (l ++ [(1, .destroy)]) := by
    intro l
    induction l with
    | nil =>
      intro s _ hu _ hc
      obtain ⟨c0, c1⟩ := hc s rfl
      refine ⟨fun _ u => ?_, (fun p k e => by cases e), (fun o e => by cases e), fun _ _ => trivial⟩
      match u with
      | 0 => exact c0
      | 1 => exact c1
      | u + 2 => rw [hu _ (by omega)]; rfl
    | cons x l ih =>
      intro s hl hu ha hc
      obtain ⟨t, a⟩ := x
      obtain ⟨h1, h2⟩ := hl (t, a) List.mem_cons_self
      refine ⟨fun e => absurd e h1, fun _ _ _ => ha, fun _ _ => ha, fun s' hs => ?_⟩
      refine ih s' (fun x hx => hl x (List.mem_cons_of_mem _ hx)) ?_ ?_ ?_
      · intro u hu2
        have e1 := hu u hu2
        have e2 : u ≠ t := by simp at h2; omega
        clear hc hl hu ih
        psteps hs s t a <;> simp_all
      · clear hc hl hu ih
        psteps hs s t a <;> simp_all
      · intro s2 h2
        exact hc s2 (by rw [run, hs]; exact h2)
  refine h (sleeping false ++ [(1, .notify false)] ++ List.replicate 4 (1, .go 0)) init ?_ (fun _ _ => rfl) rfl ?_
  · decide
  · intro s' hs
    have : ∃ x, run init (sleeping false ++ [(1, .notify false)] ++ List.replicate 4 (1, .go 0)) = .ok x ∧
        inCall (x.pc 0) = false ∧ inCall (x.pc 1) = false := ⟨_, rfl, rfl, rfl⟩
    obtain ⟨x, h1, h2⟩ := this
    rw [h1] at hs; cases hs; exact h2

end Verif.CondVar.Plain
