import Verif.Stop.Trans

namespace Verif.Stop

/-- The thread holds the lock there. -/
@[grind] def holds : Pc → Bool
  | .stopSig | .stopHead | .stopUnlock _ _ | .stopEnd | .addPush _ | .addUnlock _ | .remHave _ | .remFree _ | .remUnlock _ => true
  | _ => false

/-- Past the point where the stop bit was set. -/
@[grind] def winPc : Pc → Bool
  | .stopSig | .stopHead | .stopUnlock _ _ | .stopMark _ _ | .stopAfter _ _ _ | .stopRelock | .stopEnd => true
  | _ => false

@[grind] def isCall : UFrame → Bool
  | .call _ _ _ => true
  | .inline _ => false

/-- Being destroyed. -/
@[grind] def removing : Pc → Option Nat
  | .remLock c | .remHave c | .remFree c | .remUnlock c | .remCheck c | .remWait c | .remRet c => some c
  | _ => none

/-- Past the test of the list. -/
@[grind] def offList : Pc → Option Nat
  | .remFree c | .remUnlock c | .remCheck c | .remWait c | .remRet c => some c
  | _ => none

/-- The destructor will not wait any more. -/
@[grind] def sure : Pc → Option Nat
  | .remFree c | .remRet c => some c
  | _ => none

/-- Before it is decided whether the callback is registered. -/
@[grind] def trying : Pc → Option Nat
  | .addTry c | .addPush c => some c
  | _ => none

@[grind] def pushed : Pc → Option Nat
  | .addUnlock c | .addRet c => some c
  | _ => none

@[grind] def pushing : Pc → Bool
  | .addPush _ | .addUnlock _ => true
  | _ => false

/-- Taken from the list, not called yet. -/
@[grind] def taken : Pc → Option Nat
  | .stopUnlock c _ | .stopMark c _ => some c
  | _ => none

/-- In the list, or was. -/
@[grind] def Reg (r : Rec) : Prop := r.stage = .pushed ∨ r.stage = .built ∧ r.reg = true

/-- The lock and the one thread that requests the stop. -/
structure Inv1 (s : State) : Prop where
  lock : ∀ t, holds (s.threads t).pc = true ↔ s.locked = some t
  none : s.stop = false ↔ s.winner = none
  win : ∀ t, winPc (s.threads t).pc = true → s.winner = some t
  call : ∀ t, (s.threads t).stack.countP isCall ≠ 0 → s.winner = some t
  one : ∀ t, winPc (s.threads t).pc = true → (s.threads t).stack.countP isCall = 0
  count : ∀ t, (s.threads t).stack.countP isCall ≤ 1
  sig : ∀ t, s.sig = some t → s.winner = some t
  sig' : ∀ t, s.winner = some t → s.sig = some t ∨ (s.threads t).pc = .stopSig
  push : ∀ t, pushing (s.threads t).pc = true → s.stop = false

theorem countP_markRemoved (c : Nat) (st st' : List UFrame) (h : markRemoved c st = some st') :
    st'.countP isCall = st.countP isCall := by
  induction st generalizing st' with
  | nil => cases h
  | cons f st ih =>
    cases f with
    | call d m r =>
      simp only [markRemoved] at h
      split at h
      · cases h; simp [isCall, List.countP_cons]
      · simp at h
        obtain ⟨x, h1, rfl⟩ := h
        simp [isCall, List.countP_cons, ih x h1]
    | inline d =>
      simp only [markRemoved] at h
      simp at h
      obtain ⟨x, h1, rfl⟩ := h
      simp [isCall, ih x h1]

theorem lock_step (s s' : State) (t : Nat) (h1 : ∀ t, holds (s.threads t).pc = true ↔ s.locked = some t) (hs : Tr s t s') :
    ∀ t, holds (s'.threads t).pc = true ↔ s'.locked = some t := by
  cases hs <;> intro u <;> have h2 := h1 u <;> have h3 := h1 t <;> clear h1 <;> grind

theorem pushing_holds (p : Pc) (h : pushing p = true) : holds p = true := by
  cases p <;> simp_all [pushing, holds]

theorem push_step (s s' : State) (t : Nat) (h : Inv1 s) (hs : Tr s t s') : ∀ t, pushing (s'.threads t).pc = true → s'.stop = false := by
  have h1 := h.push
  have h2 := h.lock
  cases hs <;> intro u <;> have h3 := h1 u <;> have h4 := h2 u <;> have h5 := pushing_holds (s.threads u).pc <;> clear h1 h2 <;> grind

theorem win_step (s s' : State) (t : Nat) (h : Inv1 s) (hs : Tr s t s') :
    (s'.stop = false ↔ s'.winner = none) ∧ (∀ t, winPc (s'.threads t).pc = true → s'.winner = some t) ∧
    (∀ t, (s'.threads t).stack.countP isCall ≠ 0 → s'.winner = some t) := by
  obtain ⟨_, h1, h2, h3, h4, h5, _⟩ := h
  cases hs with
  | self c r st a1 a2 a3 a4 a5 =>
    have := countP_markRemoved c _ st a5
    refine ⟨h1, ?_, ?_⟩ <;> grind
  | _ => refine ⟨?_, ?_, ?_⟩ <;> grind

theorem one_step (s s' : State) (t : Nat) (h : Inv1 s) (hs : Tr s t s') :
    (∀ t, winPc (s'.threads t).pc = true → (s'.threads t).stack.countP isCall = 0) ∧
    (∀ t, (s'.threads t).stack.countP isCall ≤ 1) := by
  obtain ⟨_, h1, h2, h3, h4, h5, _⟩ := h
  cases hs with
  | self c r st a1 a2 a3 a4 a5 =>
    have := countP_markRemoved c _ st a5
    refine ⟨?_, ?_⟩ <;> grind
  | _ => refine ⟨?_, ?_⟩ <;> grind

theorem sig_step (s s' : State) (t : Nat) (h : Inv1 s) (hs : Tr s t s') :
    (∀ t, s'.sig = some t → s'.winner = some t) ∧ (∀ t, s'.winner = some t → s'.sig = some t ∨ (s'.threads t).pc = .stopSig) := by
  obtain ⟨_, h1, h2, _, _, _, h3, h4, _⟩ := h
  cases hs <;> refine ⟨?_, ?_⟩ <;> grind

theorem inv1_step (s s' : State) (t : Nat) (h : Inv1 s) (hs : Tr s t s') : Inv1 s' := by
  obtain ⟨a1, a2, a3⟩ := win_step s s' t h hs
  obtain ⟨b1, b2⟩ := one_step s s' t h hs
  obtain ⟨c1, c2⟩ := sig_step s s' t h hs
  exact ⟨lock_step s s' t h.lock hs, a1, a2, a3, b1, b2, c1, c2, push_step s s' t h hs⟩

theorem inv1_init : Inv1 init := by
  constructor <;> simp [init, holds, winPc, pushing]

end Verif.Stop
