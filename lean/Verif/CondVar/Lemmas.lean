import Verif.CondVar.Inv2

namespace Verif.CondVar

theorem pending_split (l1 l2 : List Event) (h : ∀ b, .set b ∉ l1) : pending (l1 ++ .notifiedAll :: l2) = false := by
  induction l1 with
  | nil => rfl
  | cons e l1 ih =>
    have ih := ih (fun b hb => h b (List.mem_cons_of_mem _ hb))
    cases e with
    | set b => exact absurd List.mem_cons_self (h b)
    | notifiedAll => rfl
    | returned t k to r => exact ih
    | requested t w => exact ih

/-- How far the wait is from its end, once the stop was requested. -/
def rank : Pc → Nat
  | .waitFin .. => 1
  | .destroy .. => 2
  | .giveUp _ => 3
  | .check _ => 4
  | .lockM _ => 5
  | .pred _ => 6
  | .after .. => 7
  | .lockUser .. => 8
  | .haveM .. => 9
  | .blocked .. => 10
  | .inlUnlock _ => 7
  | .inlNotify _ => 8
  | .inlLock _ => 9
  | .cons _ => 10
  | .first _ => 11
  | _ => 0

/-- The thread is in a wait. -/
def waits : Pc → Bool
  | .first _ => true
  | p => p.inWait

/-- The other threads leave the mutexes alone. -/
structure Quiet (s : State) (t : Nat) : Prop where
  stop : s.stop = true
  taken : s.taken = none
  m : s.m = none ∨ s.m = some t
  lock : s.lock = none ∨ s.lock = some t
  free : ¬ Bound s t

/-- The last event is the return of this thread. -/
def isRet (t : Nat) : List Event → Bool
  | .returned u _ _ _ :: _ => u == t
  | _ => false

theorem quiet_step (s : State) (t : Nat) (h : Inv3 s) (hq : Quiet s t) (hw : waits (s.pc t) = true) :
    ∃ s', step s t (.go 0) = .ok s' ∧ rank (s'.pc t) < rank (s.pc t) ∧ (waits (s'.pc t) = true ∧ Quiet s' t ∨
      s'.pc t = .user ∧ isRet t s'.log = true) := by
  obtain ⟨q1, q2, q3, q4, q5⟩ := hq
  have e1 := (h.i1.m t); have e2 := h.i1.user t; have e3 := h.i1.rel t
  have q3' : holdsM (s.pc t) = false → s.m = none := by
    intro e; rcases q3 with q | q
    · exact q
    · rw [e1, e] at q; cases q
  clear h
  cases hp : s.pc t <;> rw [hp] at hw e1 e2 e3 q3' <;> simp [waits, Pc.inWait] at hw
  all_goals simp only [step, hp, advance, setPc]
  all_goals simp [Bound, hp, isUnlockUser, isBlock, holdsM, holdsUser, released] at q5 e1 e2 e3 q3'
  all_goals simp_all [rank, isRet]
  all_goals first
    | (refine .inl ⟨rfl, ?_, ?_, ?_, ?_, ?_⟩ <;> simp_all [Bound, isUnlockUser, isBlock]; done)
    | (refine ⟨rfl, ?_, ?_, ?_, ?_, ?_⟩ <;> simp_all [Bound, isUnlockUser, isBlock]; done)
    | skip
  all_goals split
  all_goals refine ⟨_, rfl, ?_⟩
  all_goals simp
  all_goals first
    | (refine ⟨rfl, ?_, ?_, ?_, ?_, ?_⟩ <;> simp_all [Bound, isUnlockUser, isBlock]; done)
    | skip

/-- A wait ends when the stop was requested and the other threads leave the mutexes alone. -/
theorem quiet_ends (n : Nat) : ∀ (s : State) (t : Nat), rank (s.pc t) ≤ n → Inv3 s → Quiet s t → waits (s.pc t) = true →
    ∃ j s', j ≤ rank (s.pc t) ∧ run s (List.replicate j (t, .go 0)) = .ok s' ∧ s'.pc t = .user ∧ isRet t s'.log = true := by
  induction n with
  | zero =>
    intro s t hr h hq hw
    obtain ⟨s', _, h2, _⟩ := quiet_step s t h hq hw
    omega
  | succ n ih =>
    intro s t hr h hq hw
    obtain ⟨s1, h1, h2, h3⟩ := quiet_step s t h hq hw
    rcases h3 with ⟨h3, h4⟩ | ⟨h3, h4⟩
    · obtain ⟨j, s', h5, h6, h7⟩ := ih s1 t (by omega) (inv3_step s s1 t _ h h1) h4 h3
      refine ⟨j + 1, s', by omega, ?_, h7⟩
      rw [List.replicate_succ, run, h1]
      exact h6
    · refine ⟨1, s1, by omega, ?_, h3, h4⟩
      rw [List.replicate_succ, run, h1]
      rfl

end Verif.CondVar
