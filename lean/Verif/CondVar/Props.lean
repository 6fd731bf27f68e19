import Verif.CondVar.Lemmas

/-! # C95: an interruptible wait loses neither the stop request nor a notification -/

namespace Verif.CondVar

/-- **C95.**  The callback of a wait is never called after the wait has returned. -/
theorem c95_no_ub (l : List (Nat × Act)) : run init l ≠ .ub := by
  have : ∀ l s, Inv3 s → run s l ≠ .ub := by
    intro l
    induction l with
    | nil => intro s _ h; cases h
    | cons x l ih =>
      intro s hi h
      obtain ⟨t, a⟩ := x
      rw [run] at h
      cases e : step s t a with
      | ok s1 => rw [e] at h; exact ih s1 (inv3_step s s1 t a hi e) h
      | throw x => rw [e] at h; cases h
      | ub =>
        have h1 := hi.i2.call' t
        have h2 := hi.i2.taken
        have h3 : ∀ p, built p = true → p.inWait = true := by intro p; cases p <;> simp [built, Pc.inWait]
        clear h hi
        cases a <;> simp only [step] at e
        case go n =>
          cases hp : s.pc t <;> simp only [hp, advance] at e <;> (repeat' split at e) <;> cases e
          rename_i c hc
          have := h3 _ (h2 c (h1 c (by rw [hp]; rfl))).2
          exact hc this
        all_goals (repeat' split at e) <;> cases e
  exact this l init inv3_init

/-- **C95.**  When `request_stop` has returned true no thread is blocked in a wait with a token of that stop state, and none is on its
way to block. -/
theorem c95_stop_not_lost (l : List (Nat × Act)) (s : State) (h : run init l = .ok s) (w : Nat) (hw : .requested w true ∈ s.log) (t : Nat) :
    t ∉ s.waiting ∧ ∀ k, s.pc t ≠ .unlockUser k ∧ s.pc t ≠ .block k := by
  have hi := inv3_run l init s inv3_init h
  obtain ⟨h1, h2, h3⟩ := hi.done w hw
  have hb : ¬ Bound s t := by
    intro hb
    rcases hi.bound t hb h1 with h4 | ⟨h4, _⟩
    · rw [h2] at h4; cases h4
    · rw [h3] at h4; cases h4
  refine ⟨fun e => hb (.inr (.inr e)), fun k => ⟨fun e => hb (.inl (by rw [e]; rfl)), fun e => hb (.inr (.inl (by rw [e]; rfl)))⟩⟩

/-- **C95.**  If the condition is true and `notify_all` was called since it was last changed, no thread is blocked, and none is on its way
to block. -/
theorem c95_notify_not_lost (l : List (Nat × Act)) (s : State) (h : run init l = .ok s) (hd : s.data = true) (l1 l2 : List Event)
    (hl : s.log = l1 ++ .notifiedAll :: l2) (h1 : ∀ b, .set b ∉ l1) (t : Nat) :
    t ∉ s.waiting ∧ ∀ k, s.pc t ≠ .lockM k ∧ s.pc t ≠ .check k ∧ s.pc t ≠ .unlockUser k ∧ s.pc t ≠ .block k := by
  have hi := inv3_run l init s inv3_init h
  have hp : pending s.log = false := by rw [hl]; exact pending_split l1 l2 h1
  have hs : ¬ (isBlock (s.pc t) = true ∨ t ∈ s.waiting) := by
    intro e
    rcases hi.sleep t e with h2 | h2
    · rw [hd] at h2; cases h2
    · rw [hp] at h2; cases h2
  have hf : sawFalse (s.pc t) ≠ true := by
    intro e; have := hi.saw t e; rw [hd] at this; cases this
  refine ⟨fun e => hs (.inr e), fun k => ⟨?_, ?_, ?_, ?_⟩⟩
  · intro e; exact hf (by rw [e]; rfl)
  · intro e; exact hf (by rw [e]; rfl)
  · intro e; exact hf (by rw [e]; rfl)
  · intro e; exact hs (.inl (by rw [e]; rfl))

/-- **C95.**  A wait returns with the lock held; it tells whether the condition is true now; and if it is not, a stop was requested or the
wait was a timed one and its time was over. -/
theorem c95_result (l : List (Nat × Act)) (s s' : State) (t u : Nat) (a : Act) (k to r : Bool) (h : run init l = .ok s) (hs : step s t a = .ok s')
    (hl : s'.log = .returned u k to r :: s.log) :
    u = t ∧ s'.lock = some t ∧ s'.data = r ∧ (r = false → s'.stop = true ∨ (k = true ∧ to = true)) := by
  have hi := inv3_run l init s inv3_init h
  have e1 := hi.i1.user t
  have e2 := hi.res t
  clear hi h
  have hne : ∀ (e : List Event), e ≠ .returned u k to r :: e := fun e h => by
    have := congrArg List.length h; simp at this
  steps hs s t a <;> simp_all [okPc, holdsUser] <;> grind

/-- **C95.**  The predicate is called with the lock held. -/
theorem c95_predicate_locked (l : List (Nat × Act)) (s : State) (h : run init l = .ok s) (t : Nat) (k : Bool)
    (hp : s.pc t = .pred k ∨ s.pc t = .first k ∨ ∃ to o, s.pc t = .after k to o) : s.lock = some t := by
  have hi := inv3_run l init s inv3_init h
  apply hi.i1.user t
  rcases hp with hp | hp | ⟨to, o, hp⟩ <;> rw [hp] <;> rfl

/-- **C95.**  `notify_one` wakes one waiting thread, if there is one, and no more. -/
theorem c95_notify_one (s s' : State) (t n : Nat) (hp : s.pc t = .nNotify true) (hs : step s t (.go n) = .ok s') :
    s'.waiting.length = s.waiting.length - 1 ∧ ∀ u, u ∈ s'.waiting → u ∈ s.waiting := by
  simp only [step, hp, advance, setPc, if_true] at hs
  cases hs
  refine ⟨?_, fun u => wakeOne_mem n s.waiting u⟩
  simp only [wakeOne]
  split
  · rename_i x hx
    rw [List.length_erase, if_pos (List.mem_of_getElem? hx)]
  · rename_i hx
    cases e : s.waiting with
    | nil => rfl
    | cons y q =>
      rw [List.getElem?_eq_none_iff, e] at hx
      have := Nat.mod_lt n (show 0 < (y :: q).length by simp)
      omega

/-- **C95.**  When `request_stop` has returned true, a wait returns after at most eleven steps of its thread in which the other threads
leave the two mutexes alone. -/
theorem c95_ends (l : List (Nat × Act)) (s : State) (h : run init l = .ok s) (w : Nat) (hw : .requested w true ∈ s.log) (t : Nat)
    (ht : waits (s.pc t) = true) (hm : s.m = none ∨ s.m = some t) (hl : s.lock = none ∨ s.lock = some t) :
    ∃ j s' k to r l', j ≤ 11 ∧ run s (List.replicate j (t, .go 0)) = .ok s' ∧ s'.pc t = .user ∧ s'.log = .returned t k to r :: l' := by
  have hi := inv3_run l init s inv3_init h
  obtain ⟨h1, h2, h3⟩ := hi.done w hw
  have hb := c95_stop_not_lost l s h w hw t
  have hq : Quiet s t := by
    refine ⟨h1, h3, hm, hl, ?_⟩
    rintro (e | e | e)
    · cases hp : s.pc t <;> simp [hp, isUnlockUser] at e
      exact (hb.2 _).1 hp
    · cases hp : s.pc t <;> simp [hp, isBlock] at e
      exact (hb.2 _).2 hp
    · exact hb.1 e
  obtain ⟨j, s', h4, h5, h6, h7⟩ := quiet_ends _ s t (Nat.le_refl _) hi hq ht
  have h8 : rank (s.pc t) ≤ 11 := by cases s.pc t <;> simp [rank]
  cases e : s'.log with
  | nil => rw [e] at h7; cases h7
  | cons x l' =>
    rw [e] at h7
    cases x with
    | returned u k to r =>
      have : u = t := by simpa [isRet] using h7
      exact ⟨j, s', k, to, r, l', by omega, h5, h6, by rw [e, this]⟩
    | set b => cases h7
    | notifiedAll => cases h7
    | requested u b => cases h7

/-- The next step of the thread takes it to another place. -/
def Moves (s : State) (t : Nat) : Prop := ∃ s', step s t (.go 0) = .ok s' ∧ s'.pc t ≠ s.pc t

theorem m_moves (s : State) (u : Nat) (h : Inv3 s) (hm : s.m = some u) : Moves s u := by
  have h1 := (h.i1.m u).1 hm
  unfold Moves
  clear h
  cases hp : s.pc u <;> rw [hp] at h1 <;> simp [holdsM] at h1 <;> simp only [step, hp, advance, setPc]
  all_goals (repeat' split) <;> simp

/-- **C95.**  No deadlock: a thread inside of the library that does not wait for a notification can go on, or another thread can, or
the lock is held by code of the user. -/
theorem c95_no_deadlock (l : List (Nat × Act)) (s : State) (h : run init l = .ok s) (t : Nat) (ht : s.pc t ≠ .user) (hw : t ∉ s.waiting) :
    (∃ u, Moves s u) ∨ ∃ u, s.lock = some u ∧ s.pc u = .user := by
  have hi := inv3_run l init s inv3_init h
  cases hm : s.m with
  | some u => exact .inl ⟨u, m_moves s u hi hm⟩
  | none =>
    have hx : ∀ u, holdsM (s.pc u) = false := by
      intro u; cases e : holdsM (s.pc u)
      · rfl
      · have := (hi.i1.m u).2 e; rw [hm] at this; cases this
    have hsl : ∀ c, (∃ w, calling (s.pc w) = some c) → ∃ u, Moves s u := by
      rintro c ⟨w, hc⟩
      refine ⟨w, ?_⟩
      have hb := (hi.i2.taken c (hi.i2.call' w c hc)).2
      have h3 : (s.pc c).inWait = true := by cases hp : s.pc c <;> simp [hp, built, Pc.inWait] at hb ⊢
      unfold Moves
      cases hp : s.pc w <;> simp [hp, calling] at hc <;> subst hc <;> simp [step, hp, advance, setPc, hm, h3]
    have hg : ∀ u, s.pc u ≠ .user → u ∉ s.waiting → released (s.pc u) = false → ∃ v, Moves s v := by
      intro u hu hw hr
      cases ec : calling (s.pc u) with
      | some c => exact hsl c ⟨u, ec⟩
      | none =>
        by_cases hf : ∃ k to r, s.pc u = .waitFin k to r
        · obtain ⟨k, to, r, hf⟩ := hf
          by_cases htk : s.taken = some u
          · obtain ⟨w, _, h2⟩ := hi.i2.call u htk
            exact hsl u ⟨w, h2⟩
          · refine ⟨u, ?_⟩; unfold Moves; simp [step, hf, advance, setPc, htk]
        · refine ⟨u, ?_⟩
          have hxu := hx u
          unfold Moves
          cases hp : s.pc u <;> rw [hp] at hr ec hxu hu hf <;> simp [released, calling, holdsM] at hr ec hxu hu hf
          all_goals simp only [step, hp, advance, setPc, hm]
          all_goals (repeat' split) <;> simp_all
    by_cases hr : released (s.pc t) = true
    · cases hp : s.pc t <;> rw [hp] at hr <;> simp [released] at hr
      · have := hx t; rw [hp] at this; cases this
      · exact .inl ⟨t, by unfold Moves; simp [step, hp, advance, setPc, hm, hw]⟩
      · have := hx t; rw [hp] at this; cases this
      · cases hl : s.lock with
        | none => exact .inl ⟨t, by unfold Moves; simp [step, hp, advance, setPc, hl]⟩
        | some u =>
          by_cases hu : s.pc u = .user
          · exact .inr ⟨u, rfl, hu⟩
          · left
            have h1 : released (s.pc u) = false := by
              cases e : released (s.pc u)
              · rfl
              · exact absurd hl (hi.i1.rel u e)
            have h2 : u ∉ s.waiting := by
              intro e
              have := hi.i1.waiting u e
              cases hq : s.pc u <;> rw [hq] at this h1 <;> simp [asleep, released] at this h1
            exact hg u hu h2 h1
    · exact .inl (hg t ht hw (by simpa using hr))

/-! Runs. -/

structure View where
  lock : Option Nat
  m : Option Nat
  data : Bool
  stop : Bool
  waiting : List Nat
  pcs : List Pc
  log : List Event
deriving DecidableEq

def view (r : Res State) : Option View :=
  match r with
  | .ok s => some ⟨s.lock, s.m, s.data, s.stop, s.waiting, [s.pc 0, s.pc 1], s.log⟩
  | _ => none

/-- Thread 0 waits. -/
def sleeping : List (Nat × Act) := [(0, .lock), (0, .wait false)] ++ List.replicate 7 (0, .go 0)

example : view (run init sleeping) = some ⟨none, none, false, false, [0], [.blocked false false, .user], []⟩ := by decide +kernel
/-- Woken by the stop. -/
example : view (run init (sleeping ++ [(1, .request)] ++ List.replicate 7 (1, .go 0) ++ List.replicate 9 (0, .go 0)))
    = some ⟨some 0, none, false, true, [], [.user, .user], [.returned 0 false false false, .requested 1 true, .notifiedAll]⟩ := by decide +kernel
/-- The stop is requested between the test of the flag and the beginning of the wait: the callback waits for the mutex. -/
example : view (run init ([(0, .lock), (0, .wait false)] ++ List.replicate 5 (0, .go 0) ++ [(1, .request)] ++ List.replicate 5 (1, .go 0)
    ++ List.replicate 2 (0, .go 0) ++ List.replicate 5 (1, .go 0) ++ List.replicate 9 (0, .go 0)))
    = some ⟨some 0, none, false, true, [], [.user, .user], [.returned 0 false false false, .requested 1 true, .notifiedAll]⟩ := by decide +kernel
/-- Woken by a notification; the time is over. -/
example : view (run init (sleeping ++ [(1, .lock), (1, .set true), (1, .unlock), (1, .notify false)] ++ List.replicate 3 (1, .go 0) ++ List.replicate 6 (0, .go 0)))
    = some ⟨some 0, none, true, false, [], [.user, .user], [.returned 0 false false true, .notifiedAll, .set true]⟩ := by decide +kernel
example : view (run init ([(0, .lock), (0, .wait true)] ++ List.replicate 7 (0, .go 0) ++ [(0, .timeout)] ++ List.replicate 5 (0, .go 0)))
    = some ⟨some 0, none, false, false, [], [.user, .user], [.returned 0 true true false]⟩ := by decide +kernel

end Verif.CondVar
