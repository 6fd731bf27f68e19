import Verif.Stop.Model

namespace Verif.Stop

/-- Steps of the threads in the order they happen. -/
def run : State → List (Nat × Act) → Res State
  | s, [] => .ok s
  | s, (t, a) :: l => step s t a >>= fun s => run s l

/-- Calls of the function of `c` so far. -/
def calls (s : State) (c : Nat) : Nat := (s.log.filter fun e => match e with | .started d _ => d == c | _ => false).length

/-- How often `request_stop` returned true. -/
def wins (s : State) : Nat := (s.log.filter fun e => match e with | .requested _ true => true | _ => false).length

/-- The function of `c` is being called by that thread. -/
def Executing (x : Thread) (c : Nat) : Prop := (∃ m b, .call c m b ∈ x.stack) ∨ .inline c ∈ x.stack

/-- `request_stop` of that thread has taken `c` and will call its function, is calling it or is about to say so. -/
def Busy (x : Thread) (c : Nat) : Prop :=
  (∃ m, x.pc = .stopUnlock c m ∨ x.pc = .stopMark c m ∨ x.pc = .stopAfter c m false) ∨ ∃ m, .call c m false ∈ x.stack

/-- That thread is inside of a `request_stop` that has set the stop bit and has not returned. -/
def Signalling (x : Thread) : Prop :=
  (∃ c m b, .call c m b ∈ x.stack) ∨ x.pc = .stopSig ∨ x.pc = .stopHead ∨ (∃ c m, x.pc = .stopUnlock c m) ∨ (∃ c m, x.pc = .stopMark c m) ∨
    (∃ c m b, x.pc = .stopAfter c m b) ∨ x.pc = .stopRelock ∨ x.pc = .stopEnd

end Verif.Stop
