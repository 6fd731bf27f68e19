import Verif.Sleep.Model

/-!
# Many threads that sleep with tokens of one stop state, and many that request the stop

`Awl/Sleep.h` and `Extras/JThread/JThreadExtras/stop_token.hpp`.  Each call of `sleep_for` has a number, and so has each call of `request_stop`; any number of
them are in progress and their steps are interleaved in any order.  The simplifications are those of `Verif.Sleep.Model`.
-/

namespace Verif.Sleep.Many

/-- A call of `sleep_for`, as `State` (Sleep.h:17-44). -/
structure Thread where
  pc : Pc
  cb : Cb
  cv : Bool
  start : Nat
  deadline : Nat
  ret : Option (Nat × Bool)
deriving DecidableEq, Repr

/-- A call of `request_stop`: not yet made; in the loop (stop_token.hpp:84); in the function of the callback of a sleeping thread, before and after `notify_one`
(stop_token.hpp:109); it has returned (stop_token.hpp:77, 125, 133). -/
inductive StopPc where
  | idle
  | loop
  | calling (i : Nat)
  | called (i : Nat)
  | returned (b : Bool)
deriving DecidableEq, Repr

/-- The clock, the stop flag, the list of callbacks from its head (stop_token.hpp:84-88, 167-172), the calls. -/
structure State where
  now : Nat
  stop : Bool
  list : List Nat
  thr : Nat → Thread
  stp : Nat → StopPc

/-- Before all calls (Sleep.h:17). -/
def init : State := ⟨0, false, [], fun _ => ⟨.before, .none, false, 0, 0, none⟩, fun _ => .idle⟩

/-- Who makes a step (Sleep.h:17-44, stop_token.hpp:73-134). -/
inductive Act where
  | sleeper (i : Nat)
  | stopper (j : Nat)
  | tick
  | spurious (i : Nat)
deriving DecidableEq, Repr

/-- The state of one call is assigned (a call of `sleep_for`, Sleep.h:17-44, or of `request_stop`, stop_token.hpp:73-134). -/
def upd {α : Type} (f : Nat → α) (i : Nat) (x : α) : Nat → α := fun k => if k = i then x else f k

/-- What call `i` of `sleep_for` sees (Sleep.h:17-44); it does not see the calls of `request_stop`. -/
def State.view (s : State) (i : Nat) : Sleep.State :=
  ⟨s.now, s.stop, (s.thr i).pc, .idle, (s.thr i).cb, (s.thr i).cv, (s.thr i).start, (s.thr i).deadline, (s.thr i).ret⟩

/-- The part of the state that belongs to the call (Sleep.h:17-44). -/
def thread (v : Sleep.State) : Thread := ⟨v.pc, v.cb, v.cv, v.start, v.deadline, v.ret⟩

/-- The constructor of a callback pushes it onto the list (stop_token.hpp:166-173), the destructor removes it if it is still there (stop_token.hpp:188-196). -/
def relist (i : Nat) (before after : Cb) (list : List Nat) : List Nat :=
  if after = .listed ∧ before ≠ .listed then i :: list
  else if before = .listed ∧ after ≠ .listed then list.erase i
  else list

/-- A step of call `i` of `sleep_for`, for the duration `d i` (Sleep.h:17-44). -/
def sleeper (d : Nat → Nat) (s : State) (i : Nat) : Res State :=
  Sleep.sleeper (d i) (s.view i) >>= fun v => .ok { s with thr := upd s.thr i (thread v), list := relist i (s.thr i).cb v.cb s.list }

/-- A step of call `j` of `request_stop` (stop_token.hpp:73-134; the function is Sleep.h:34-37). -/
def stopper (s : State) (j : Nat) : Res State :=
  match s.stp j with
  | .idle => if s.stop then .ok { s with stp := upd s.stp j (.returned false) } else .ok { s with stop := true, stp := upd s.stp j .loop }
  | .loop =>
    match s.list with
    | [] => .ok { s with stp := upd s.stp j (.returned true) }
    | i :: rest => .ok { s with list := rest, thr := upd s.thr i { s.thr i with cb := .taken }, stp := upd s.stp j (.calling i) }
  | .calling i =>
    if (s.thr i).cv then
      .ok { s with thr := upd s.thr i { s.thr i with pc := if (s.thr i).pc = .blocked then .woken else (s.thr i).pc }, stp := upd s.stp j (.called i) }
    else .ub
  | .called i => .ok { s with thr := upd s.thr i { s.thr i with cb := .finished }, stp := upd s.stp j .loop }
  | .returned _ => .throw .logic

/-- One step (Sleep.h:17-44, stop_token.hpp:73-134). -/
def step (d : Nat → Nat) (s : State) : Act → Res State
  | .sleeper i => sleeper d s i
  | .stopper j => stopper s j
  | .tick => .ok { s with now := s.now + 1 }
  | .spurious i => if (s.thr i).pc = .blocked then .ok { s with thr := upd s.thr i { s.thr i with pc := .woken } } else .throw .logic

/-- An execution: any order of the steps (Sleep.h:17-44, stop_token.hpp:73-134). -/
def run (d : Nat → Nat) : State → List Act → Res State
  | s, [] => .ok s
  | s, a :: l => step d s a >>= fun s => run d s l

end Verif.Sleep.Many
