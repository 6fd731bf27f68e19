import Verif.CondVar.Model

/-! # Invariants of the interruptible wait -/

namespace Verif.CondVar

@[grind =] def holdsUser : Pc → Bool
  | .first _ | .cons _ | .inlLock _ | .inlNotify _ | .inlUnlock _ | .pred _ | .lockM _ | .check _ | .giveUp _ | .unlockUser _
  | .after .. | .destroy .. | .waitFin .. => true
  | _ => false

@[grind =] def released : Pc → Bool
  | .block _ | .blocked .. | .haveM .. | .lockUser .. => true
  | _ => false

@[grind =] def holdsM : Pc → Bool
  | .inlNotify _ | .inlUnlock _ | .check _ | .giveUp _ | .unlockUser _ | .block _ | .haveM .. | .nNotify _ | .nUnlock | .sNotify _ | .sUnlock _ => true
  | _ => false

/-- The callback exists. -/
@[grind =] def built : Pc → Bool
  | .pred _ | .lockM _ | .check _ | .giveUp _ | .unlockUser _ | .block _ | .blocked .. | .haveM .. | .lockUser .. | .after .. | .destroy .. | .waitFin .. => true
  | _ => false

@[grind =] def stopping : Pc → Bool
  | .sNext | .sLock _ | .sNotify _ | .sUnlock _ | .sFin _ => true
  | _ => false

@[grind =] def calling : Pc → Option Nat
  | .sLock c | .sNotify c | .sUnlock c | .sFin c => some c
  | _ => none

@[grind =] def toNotify : Pc → Option Nat
  | .sLock c | .sNotify c => some c
  | _ => none

@[grind =] def sawFalse : Pc → Bool
  | .lockM _ | .check _ | .giveUp _ | .unlockUser _ => true
  | _ => false

@[grind =] def isUnlockUser : Pc → Bool
  | .unlockUser _ => true
  | _ => false

@[grind =] def isInl : Pc → Bool
  | .inlLock _ | .inlNotify _ | .inlUnlock _ => true
  | _ => false

@[grind =] def isBlock : Pc → Bool
  | .block _ => true
  | _ => false

attribute [grind =] Pc.inWait

/-- No `notify_all` since the variable became true. -/
def pending : List Event → Bool
  | [] => false
  | .set true :: _ => true
  | .set false :: _ => false
  | .notifiedAll :: _ => false
  | _ :: l => pending l

@[grind =] theorem pending_set (b : Bool) (l : List Event) : pending (.set b :: l) = b := by cases b <;> rfl
@[grind =] theorem pending_all (l : List Event) : pending (.notifiedAll :: l) = false := rfl
@[grind =] theorem pending_ret (t : Nat) (k to r : Bool) (l : List Event) : pending (.returned t k to r :: l) = pending l := rfl
@[grind =] theorem pending_req (t : Nat) (w : Bool) (l : List Event) : pending (.requested t w :: l) = pending l := rfl

@[grind =] def asleep : Pc → Bool
  | .blocked _ false => true
  | _ => false

theorem wakeOne_mem (n : Nat) (l : List Nat) (t : Nat) (h : t ∈ wakeOne n l) : t ∈ l := by
  unfold wakeOne at h; split at h
  · exact List.mem_of_mem_erase h
  · exact h

theorem wakeOne_nodup (n : Nat) (l : List Nat) (h : l.Nodup) : (wakeOne n l).Nodup := by
  unfold wakeOne; split
  · exact h.erase _
  · exact h

/-- One goal for every kind of step from `s` to `s'`. -/
macro "steps" hs:ident s:ident t:ident a:ident : tactic =>
  `(tactic| (cases $a:ident <;> simp only [step] at $hs:ident <;>
      first
      | (cases hp : State.pc $s $t <;> simp only [hp, advance, setPc] at $hs:ident <;> (repeat' split at $hs:ident) <;> cases $hs:ident)
      | (simp only [setPc] at $hs:ident; (repeat' split at $hs:ident) <;> cases $hs:ident)))

structure Inv1 (s : State) : Prop where
  user : ∀ t, holdsUser (s.pc t) = true → s.lock = some t
  rel : ∀ t, released (s.pc t) = true → s.lock ≠ some t
  m : ∀ t, s.m = some t ↔ holdsM (s.pc t) = true
  waiting : ∀ t, t ∈ s.waiting → asleep (s.pc t) = true
  nodup : s.waiting.Nodup

theorem user_step (s s' : State) (t : Nat) (a : Act) (h : Inv1 s) (hs : step s t a = .ok s') :
    ∀ u, holdsUser (s'.pc u) = true → s'.lock = some u := by
  obtain ⟨h1, h2, h3, h4, h5⟩ := h
  intro u
  have e1 := h1 t; have e2 := h2 t; have e3 := h1 u; have e4 := h2 u
  clear h1 h2 h3 h4 h5
  steps hs s t a <;> grind

theorem rel_step (s s' : State) (t : Nat) (a : Act) (h : Inv1 s) (hs : step s t a = .ok s') :
    ∀ u, released (s'.pc u) = true → s'.lock ≠ some u := by
  obtain ⟨h1, h2, h3, h4, h5⟩ := h
  intro u
  have e1 := h1 t; have e2 := h2 t; have e3 := h1 u; have e4 := h2 u
  clear h1 h2 h3 h4 h5
  steps hs s t a <;> grind

theorem m_step (s s' : State) (t : Nat) (a : Act) (h : Inv1 s) (hs : step s t a = .ok s') :
    ∀ u, s'.m = some u ↔ holdsM (s'.pc u) = true := by
  obtain ⟨h1, h2, h3, h4, h5⟩ := h
  intro u
  have e1 := h3 t; have e2 := h3 u
  clear h1 h2 h3 h4 h5
  steps hs s t a <;> grind

theorem waiting_step (s s' : State) (t : Nat) (a : Act) (h : Inv1 s) (hs : step s t a = .ok s') :
    ∀ u, u ∈ s'.waiting → asleep (s'.pc u) = true := by
  obtain ⟨h1, h2, h3, h4, h5⟩ := h
  intro u
  have e1 := h4 t; have e2 := h4 u
  have e3 : t ∉ s.waiting.erase t := h5.not_mem_erase
  have e4 : u ∈ s.waiting.erase t → u ∈ s.waiting := List.mem_of_mem_erase
  have e5 := fun n => wakeOne_mem n s.waiting u
  clear h1 h2 h3 h4 h5
  steps hs s t a <;> grind

theorem nodup_step (s s' : State) (t : Nat) (a : Act) (h : Inv1 s) (hs : step s t a = .ok s') : s'.waiting.Nodup := by
  obtain ⟨h1, h2, h3, h4, h5⟩ := h
  have e1 := h4 t
  have e3 : (s.waiting.erase t).Nodup := h5.erase t
  have e4 := fun n => wakeOne_nodup n s.waiting h5
  clear h1 h2 h3 h4
  steps hs s t a <;> grind

theorem inv1_step (s s' : State) (t : Nat) (a : Act) (h : Inv1 s) (hs : step s t a = .ok s') : Inv1 s' :=
  ⟨user_step s s' t a h hs, rel_step s s' t a h hs, m_step s s' t a h hs, waiting_step s s' t a h hs, nodup_step s s' t a h hs⟩

/-- The callbacks and the thread that requested the stop. -/
structure Inv2 (s : State) : Prop where
  queue : ∀ t, t ∈ s.queue → built (s.pc t) = true
  once : s.queue.Nodup
  taken : ∀ t, s.taken = some t → t ∉ s.queue ∧ built (s.pc t) = true
  fin : ∀ t k to r, s.pc t = .waitFin k to r → t ∉ s.queue
  stop : s.stop = true ↔ s.winner ≠ none
  win : ∀ t, stopping (s.pc t) = true → s.winner = some t
  call : ∀ c, s.taken = some c → ∃ w, s.winner = some w ∧ calling (s.pc w) = some c
  call' : ∀ w c, calling (s.pc w) = some c → s.taken = some c
  reg : ∀ t, built (s.pc t) = true → t ∈ s.queue ∨ s.taken = some t ∨ s.stop = true
  inl : ∀ t, isInl (s.pc t) = true → s.stop = true

theorem queue_step (s s' : State) (t : Nat) (a : Act) (h : Inv2 s) (hs : step s t a = .ok s') :
    ∀ u, u ∈ s'.queue → built (s'.pc u) = true := by
  obtain ⟨h1, h2, h3, h4, _⟩ := h
  intro u
  have e1 := h1 t; have e2 := h1 u; have e4 := h4 t
  have e3 : t ∉ s.queue.erase t := h2.not_mem_erase
  have e5 : u ∈ s.queue.erase t → u ∈ s.queue := List.mem_of_mem_erase
  clear h1 h2 h3 h4
  steps hs s t a <;> grind

theorem once_step (s s' : State) (t : Nat) (a : Act) (h : Inv2 s) (hs : step s t a = .ok s') : s'.queue.Nodup := by
  obtain ⟨h1, h2, _⟩ := h
  have e1 := h1 t
  have e3 : (s.queue.erase t).Nodup := h2.erase t
  clear h1
  steps hs s t a <;> grind

theorem taken_step (s s' : State) (t : Nat) (a : Act) (h : Inv2 s) (hs : step s t a = .ok s') :
    ∀ u, s'.taken = some u → u ∉ s'.queue ∧ built (s'.pc u) = true := by
  obtain ⟨h1, h2, h3, h4, _⟩ := h
  intro u
  have e1 := h3 t; have e2 := h3 u; have e3 := h1 u
  have e4 : u ∈ s.queue.erase t → u ∈ s.queue := List.mem_of_mem_erase
  have e5 := h1 t
  clear h1 h3 h4
  steps hs s t a <;> grind

theorem fin_step (s s' : State) (t : Nat) (a : Act) (h : Inv2 s) (hs : step s t a = .ok s') :
    ∀ u k to r, s'.pc u = .waitFin k to r → u ∉ s'.queue := by
  obtain ⟨h1, h2, h3, h4, _⟩ := h
  intro u k to r
  have e1 := h4 t; have e2 := h4 u k to r; have e3 := h3 u
  have e4 : u ∈ s.queue.erase t → u ∈ s.queue := List.mem_of_mem_erase
  clear h1 h2 h3 h4
  steps hs s t a <;> grind

theorem stop_step (s s' : State) (t : Nat) (a : Act) (h : Inv2 s) (hs : step s t a = .ok s') : s'.stop = true ↔ s'.winner ≠ none := by
  have e1 := h.stop
  clear h
  steps hs s t a <;> grind

theorem win_step (s s' : State) (t : Nat) (a : Act) (h : Inv2 s) (hs : step s t a = .ok s') :
    ∀ u, stopping (s'.pc u) = true → s'.winner = some u := by
  intro u
  have e1 := h.stop; have e2 := h.win t; have e3 := h.win u
  clear h
  steps hs s t a <;> grind

theorem calling_stopping (p : Pc) (c : Nat) (h : calling p = some c) : stopping p = true := by
  cases p <;> simp [calling] at h ⊢ <;> rfl

theorem pc_frame (s s' : State) (t u : Nat) (a : Act) (hs : step s t a = .ok s') (h : u ≠ t) : s'.pc u = s.pc u := by
  steps hs s t a <;> simp [h]

theorem call'_step (s s' : State) (t : Nat) (a : Act) (h : Inv2 s) (hs : step s t a = .ok s') :
    ∀ u c, calling (s'.pc u) = some c → s'.taken = some c := by
  intro u c
  have e1 := h.win t; have e2 := h.win u; have e3 := h.call' t; have e4 := h.call' u c
  have e5 := calling_stopping (s.pc u) c
  clear h
  steps hs s t a <;> grind

theorem winner_keep (s s' : State) (t w : Nat) (a : Act) (h : Inv2 s) (hs : step s t a = .ok s') (hw : s.winner = some w) :
    s'.winner = some w := by
  have e1 := h.stop
  clear h
  steps hs s t a <;> grind

theorem taken_frame (s s' : State) (t c : Nat) (a : Act) (hs : step s t a = .ok s') (ht : stopping (s.pc t) = false) (hc : s'.taken = some c) :
    s.taken = some c := by
  steps hs s t a <;> simp_all [stopping]

theorem call_self (s s' : State) (t c : Nat) (a : Act) (hs : step s t a = .ok s') (hc : s'.taken = some c)
    (e1 : s.taken = some c → calling (s.pc t) = some c) : calling (s'.pc t) = some c := by
  steps hs s t a <;> grind

theorem call_step (s s' : State) (t : Nat) (a : Act) (h : Inv2 s) (hs : step s t a = .ok s') :
    ∀ c, s'.taken = some c → ∃ w, s'.winner = some w ∧ calling (s'.pc w) = some c := by
  intro c hc
  by_cases hw : s.winner = some t
  · refine ⟨t, winner_keep s s' t t a h hs hw, call_self s s' t c a hs hc ?_⟩
    intro hc; obtain ⟨w, h1, h2⟩ := h.call c hc; rw [hw] at h1; cases h1; exact h2
  · have ht : stopping (s.pc t) = false := by
      cases e : stopping (s.pc t)
      · rfl
      · exact absurd (h.win t e) hw
    obtain ⟨w, h1, h2⟩ := h.call c (taken_frame s s' t c a hs ht hc)
    have hne : w ≠ t := fun e => hw (e ▸ h1)
    exact ⟨w, winner_keep s s' t w a h hs h1, by rw [pc_frame s s' t w a hs hne]; exact h2⟩

theorem reg_step (s s' : State) (t : Nat) (a : Act) (h : Inv2 s) (hs : step s t a = .ok s') :
    ∀ u, built (s'.pc u) = true → u ∈ s'.queue ∨ s'.taken = some u ∨ s'.stop = true := by
  intro u
  have e1 := h.reg t; have e2 := h.reg u; have e3 := h.win t; have e4 := h.stop; have e6 := h.inl t
  have e5 : u ≠ t → u ∈ s.queue → u ∈ s.queue.erase t := fun h1 h2 => (List.mem_erase_of_ne h1).2 h2
  clear h
  steps hs s t a <;> grind

theorem inl_step (s s' : State) (t : Nat) (a : Act) (h : Inv2 s) (hs : step s t a = .ok s') :
    ∀ u, isInl (s'.pc u) = true → s'.stop = true := by
  intro u
  have e1 := h.inl t; have e2 := h.inl u
  clear h
  steps hs s t a <;> grind

theorem inv2_step (s s' : State) (t : Nat) (a : Act) (h : Inv2 s) (hs : step s t a = .ok s') : Inv2 s' :=
  ⟨queue_step s s' t a h hs, once_step s s' t a h hs, taken_step s s' t a h hs, fin_step s s' t a h hs, stop_step s s' t a h hs,
    win_step s s' t a h hs, call_step s s' t a h hs, call'_step s s' t a h hs, reg_step s s' t a h hs, inl_step s s' t a h hs⟩

end Verif.CondVar
