import Verif.Coro.Model

/-!
# Structured programs

A variable is used only where it is in scope: outside of coroutines, or by the coroutine it belongs to while that runs.  A
coroutine awaits only tasks of its own.
-/

namespace Verif.Coro

/-- The variable is in scope of running code. -/
def Accessible (s : State) (x : Nat) : Prop :=
  ∀ v ∈ s.vars, v.name = x → v.owner = none ∨ ∃ c fr, v.owner = some c ∧ s.frames c = some fr ∧ fr.phase = .running

def Structured (s : State) : Op → Prop
  | .moveCtor _ _ y => Accessible s y
  | .moveAssign x y => Accessible s x ∧ Accessible s y
  | .release x => Accessible s x
  | .free x => Accessible s x
  | .drop x => Accessible s x
  | .await c x => ∀ v ∈ s.vars, v.name = x → v.owner = some c
  | _ => True

/-- The states structured programs reach. -/
inductive Reach : State → Prop where
  | init : Reach init
  | step (s s' : State) (o : Op) : Reach s → Structured s o → step s o = .ok s' → Reach s'

/-- The coroutine `c` waits for the task `t`. -/
def Waits (s : State) (c t : Nat) : Prop := ∃ fr, s.frames c = some fr ∧ fr.phase = .waiting t

def Runs (s : State) (c : Nat) : Prop := ∃ fr, s.frames c = some fr ∧ fr.phase = .running

def Finished (s : State) (t : Nat) : Prop := ∃ fr, s.frames t = some fr ∧ fr.phase = .final

def Alive (s : State) (t : Nat) : Prop := s.frames t ≠ none

/-- The results task `t` finished with, latest first. -/
def fins (t : Nat) (log : List Event) : List Result :=
  log.filterMap (fun e => match e with | .finished u r => if u = t then some r else none | _ => none)

/-- What the awaiters got: coroutine, task, result. -/
def gots (log : List Event) : List (Nat × Nat × Result) :=
  log.filterMap (fun e => match e with | .got c t r => some (c, t, r) | _ => none)

/-- The value, if it came from the task `t`. -/
def readOf (t : Nat) (g : Nat × Nat × Result) : Option Nat :=
  match g.2.2 with
  | .value v => if g.2.1 = t then some v else none
  | _ => none

/-- The values awaiters of the task `t` got. -/
def reads (t : Nat) (log : List Event) : List Nat := (gots log).filterMap (readOf t)

/-- The operation does not release a task that finished. -/
def NoLateRelease (s : State) : Op → Prop
  | .release x => ∀ v ∈ s.vars, v.name = x → ∀ t, v.handle = some t → ¬ Finished s t
  | _ => True

/-- The states structured programs reach that release tasks only before they finish. -/
inductive ReachRelease : State → Prop where
  | init : ReachRelease init
  | step (s s' : State) (o : Op) : ReachRelease s → Structured s o → NoLateRelease s o → step s o = .ok s' → ReachRelease s'

/-- What structured programs can do from a state on. -/
inductive After (s : State) : State → Prop where
  | refl : After s s
  | step (s' s'' : State) (o : Op) : After s s' → Structured s' o → step s' o = .ok s'' → After s s''

end Verif.Coro
