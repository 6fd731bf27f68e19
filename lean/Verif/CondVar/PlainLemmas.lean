import Verif.CondVar.PlainModel

/-! # Invariants of waiting without a token -/

namespace Verif.CondVar.Plain

@[grind =] def holdsUser : Pc → Bool
  | .enter .. | .pred _ | .lockM .. | .unlockUser .. | .after .. => true
  | _ => false

@[grind =] def released : Pc → Bool
  | .block .. | .blocked .. | .haveM .. | .lockUser .. => true
  | _ => false

@[grind =] def holdsM : Pc → Bool
  | .unlockUser .. | .block .. | .haveM .. | .nNotify _ | .nUnlock => true
  | _ => false

/-- The wait has its copy of the pointer. -/
@[grind =] def inWait : Pc → Bool
  | .pred _ | .lockM .. | .unlockUser .. | .block .. | .blocked .. | .haveM .. | .lockUser .. | .after .. => true
  | _ => false

/-- A member function that uses the object. -/
@[grind =] def inCall : Pc → Bool
  | .enter .. | .nEnter _ | .nLock _ | .nNotify _ | .nUnlock => true
  | _ => false

/-- A wait with a predicate has found it false. -/
@[grind =] def sawFalse : Pc → Bool
  | .lockM p _ | .unlockUser p _ => p
  | _ => false

@[grind =] def isBlock : Pc → Bool
  | .block p _ => p
  | _ => false

/-- In the set of waiting threads. -/
@[grind =] def asleep : Pc → Bool
  | .blocked _ _ to => !to
  | _ => false

@[grind =] def hasPred : Pc → Bool
  | .blocked p _ _ => p
  | _ => false

/-- The time of an untimed wait is never over. -/
@[grind =] def timeOk : Pc → Bool
  | .blocked _ k to | .haveM _ k to | .lockUser _ k to | .after _ k to => k || !to
  | _ => true

attribute [grind =] State.mem

/-- No `notify_all` since the variable became true. -/
def pending : List Event → Bool
  | [] => false
  | .set true :: _ => true
  | .set false :: _ => false
  | .notified false :: _ => false
  | _ :: l => pending l

@[grind =] theorem pending_set (b : Bool) (l : List Event) : pending (.set b :: l) = b := by cases b <;> rfl
@[grind =] theorem pending_notified (one : Bool) (l : List Event) : pending (.notified one :: l) = (one && pending l) := by cases one <;> rfl
@[grind =] theorem pending_ret (t : Nat) (p k to r : Bool) (l : List Event) : pending (.returned t p k to r :: l) = pending l := rfl
@[grind =] theorem pending_threw (t : Nat) (l : List Event) : pending (.threw t :: l) = pending l := rfl
@[grind =] theorem pending_destroyed (l : List Event) : pending (.destroyed :: l) = pending l := rfl

theorem wakeOne_mem (n : Nat) (l : List Nat) (t : Nat) (h : t ∈ wakeOne n l) : t ∈ l := by
  unfold wakeOne at h; split at h
  · exact List.mem_of_mem_erase h
  · exact h

theorem wakeOne_nodup (n : Nat) (l : List Nat) (h : l.Nodup) : (wakeOne n l).Nodup := by
  unfold wakeOne; split
  · exact h.erase _
  · exact h

/-- One goal for every kind of step from `s` to `s'`. -/
macro "psteps" hs:ident s:ident t:ident a:ident : tactic =>
  `(tactic| (cases $a:ident <;> simp only [step] at $hs:ident <;>
      first
      | (cases hp : State.pc $s $t <;> simp only [hp, advance, setPc, leave] at $hs:ident <;> (repeat' split at $hs:ident) <;> cases $hs:ident)
      | (simp only [setPc, leave] at $hs:ident; (repeat' split at $hs:ident) <;> cases $hs:ident)))

structure Inv (s : State) : Prop where
  user : ∀ t, holdsUser (s.pc t) = true → s.lock = some t
  rel : ∀ t, released (s.pc t) = true → s.lock ≠ some t
  m : ∀ t, s.m = some t ↔ holdsM (s.pc t) = true
  waiting : ∀ t, t ∈ s.waiting → asleep (s.pc t) = true
  nodup : s.waiting.Nodup
  own : ∀ t, t ∈ s.owners ↔ inWait (s.pc t) = true
  ownOnce : s.owners.Nodup
  saw : ∀ t, sawFalse (s.pc t) = true → s.data = false
  sleep : ∀ t, isBlock (s.pc t) = true ∨ (t ∈ s.waiting ∧ hasPred (s.pc t) = true) → s.data = false ∨ pending s.log = true
  time : ∀ t, timeOk (s.pc t) = true

theorem user_step (s s' : State) (t : Nat) (a : Act) (h : Inv s) (hs : step s t a = .ok s') :
    ∀ u, holdsUser (s'.pc u) = true → s'.lock = some u := by
  intro u
  have e1 := h.user t; have e2 := h.rel t; have e3 := h.user u; have e4 := h.rel u
  clear h
  psteps hs s t a <;> grind

theorem rel_step (s s' : State) (t : Nat) (a : Act) (h : Inv s) (hs : step s t a = .ok s') :
    ∀ u, released (s'.pc u) = true → s'.lock ≠ some u := by
  intro u
  have e1 := h.user t; have e2 := h.rel t; have e3 := h.user u; have e4 := h.rel u
  clear h
  psteps hs s t a <;> grind

theorem m_step (s s' : State) (t : Nat) (a : Act) (h : Inv s) (hs : step s t a = .ok s') :
    ∀ u, s'.m = some u ↔ holdsM (s'.pc u) = true := by
  intro u
  have e1 := h.m t; have e2 := h.m u
  clear h
  psteps hs s t a <;> grind

theorem waiting_step (s s' : State) (t : Nat) (a : Act) (h : Inv s) (hs : step s t a = .ok s') :
    ∀ u, u ∈ s'.waiting → asleep (s'.pc u) = true := by
  intro u
  have e1 := h.waiting t; have e2 := h.waiting u
  have e3 : t ∉ s.waiting.erase t := h.nodup.not_mem_erase
  have e4 : u ∈ s.waiting.erase t → u ∈ s.waiting := List.mem_of_mem_erase
  have e5 := fun n => wakeOne_mem n s.waiting u
  clear h
  psteps hs s t a <;> grind

theorem nodup_step (s s' : State) (t : Nat) (a : Act) (h : Inv s) (hs : step s t a = .ok s') : s'.waiting.Nodup := by
  have e1 := h.waiting t
  have e2 := h.nodup
  have e3 : (s.waiting.erase t).Nodup := h.nodup.erase t
  have e4 := fun n => wakeOne_nodup n s.waiting h.nodup
  clear h
  psteps hs s t a <;> grind

theorem own_step (s s' : State) (t : Nat) (a : Act) (h : Inv s) (hs : step s t a = .ok s') :
    ∀ u, u ∈ s'.owners ↔ inWait (s'.pc u) = true := by
  intro u
  have e1 := h.own t; have e2 := h.own u
  have e3 : t ∉ s.owners.erase t := h.ownOnce.not_mem_erase
  have e4 : u ≠ t → (u ∈ s.owners.erase t ↔ u ∈ s.owners) := fun e => List.mem_erase_of_ne e
  clear h
  psteps hs s t a <;> grind

theorem ownOnce_step (s s' : State) (t : Nat) (a : Act) (h : Inv s) (hs : step s t a = .ok s') : s'.owners.Nodup := by
  have e1 := h.own t
  have e2 := h.ownOnce
  have e3 : (s.owners.erase t).Nodup := h.ownOnce.erase t
  clear h
  psteps hs s t a <;> grind

theorem saw_step (s s' : State) (t : Nat) (a : Act) (h : Inv s) (hs : step s t a = .ok s') :
    ∀ u, sawFalse (s'.pc u) = true → s'.data = false := by
  intro u
  have e1 := h.saw t; have e2 := h.saw u; have e3 := h.user t; have e4 := h.user u
  have e5 : sawFalse (s.pc u) = true → holdsUser (s.pc u) = true := by
    cases s.pc u <;> simp [sawFalse, holdsUser]
  clear h
  psteps hs s t a <;> grind

theorem sleep_step (s s' : State) (t : Nat) (a : Act) (h : Inv s) (hs : step s t a = .ok s') :
    ∀ u, isBlock (s'.pc u) = true ∨ (u ∈ s'.waiting ∧ hasPred (s'.pc u) = true) → s'.data = false ∨ pending s'.log = true := by
  intro u
  have e1 := h.sleep t; have e2 := h.sleep u; have e3 := h.saw t; have e4 := h.m t; have e5 := h.m u
  have e6 : u ∈ s.waiting.erase t → u ∈ s.waiting := List.mem_of_mem_erase
  have e7 := fun n => wakeOne_mem n s.waiting u
  have e8 : isBlock (s.pc u) = true → holdsM (s.pc u) = true := by
    cases s.pc u <;> simp [isBlock, holdsM]
  have e9 : t ∉ s.waiting.erase t := h.nodup.not_mem_erase
  clear h
  psteps hs s t a <;> grind

theorem time_step (s s' : State) (t : Nat) (a : Act) (h : Inv s) (hs : step s t a = .ok s') : ∀ u, timeOk (s'.pc u) = true := by
  intro u
  have e1 := h.time t; have e2 := h.time u
  clear h
  psteps hs s t a <;> grind

theorem inv_init : Inv init := by
  constructor <;> simp [init, holdsUser, released, holdsM, inWait, sawFalse, isBlock, timeOk]

theorem inv_step (s s' : State) (t : Nat) (a : Act) (h : Inv s) (hs : step s t a = .ok s') : Inv s' :=
  ⟨user_step s s' t a h hs, rel_step s s' t a h hs, m_step s s' t a h hs, waiting_step s s' t a h hs, nodup_step s s' t a h hs,
    own_step s s' t a h hs, ownOnce_step s s' t a h hs, saw_step s s' t a h hs, sleep_step s s' t a h hs, time_step s s' t a h hs⟩

theorem inv_run (l : List (Nat × Act)) : ∀ (s s' : State), Inv s → run s l = .ok s' → Inv s' := by
  induction l with
  | nil => intro s s' h hr; cases hr; exact h
  | cons x l ih =>
    intro s s' h hr
    obtain ⟨t, a⟩ := x
    obtain ⟨s1, h1, h2⟩ := Res.bind_eq_ok.1 hr
    exact ih s1 s' (inv_step s s1 t a h h1) h2

end Verif.CondVar.Plain
