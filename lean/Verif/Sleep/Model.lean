import Verif.Common.Res

/-!
# The cancellable sleep: `Awl/Sleep.h`

Two threads: the one that sleeps and the one that requests the stop; their steps and the passing of time are interleaved in any
order.  Memory is sequentially consistent, time is an integer.

* `std::stop_callback` is used as an atomic specification: registering tests the stop flag, a registered callback is taken from the
  list and called by the thread that requests the stop, its destructor unlinks it or waits for the end of the call (this is what C56
  proves about the implementation; further requests of stop do nothing).
* `std::condition_variable`: `wait_until` releases the mutex and blocks in one step; a blocked thread goes on when it is notified,
  when the deadline has passed or spuriously; a notification wakes only a thread that is blocked.
* The mutex is local to `sleep_for` and only its thread locks it, so it is never waited for.
-/

namespace Verif.Sleep

/-- Where the sleeping thread is (Sleep.h:17-44).  `wait_for` with a predicate is the loop of the standard:
`while (!pred()) if (wait_until(lock, t) == timeout) return pred(); return true;`. -/
inductive Pc where
  | before               -- not called yet
  | construct            -- :31, the constructor of stop_wait
  | inline               -- :36, the function called by the constructor
  | enter                -- :40, the deadline is computed
  | check                -- :42, the predicate
  | toBlock              -- the predicate was false
  | blocked              -- in wait_until
  | woken                -- wait_until returns
  | last                 -- :42, the predicate after a timeout
  | destroy              -- :44, the destructor of stop_wait
  | waitFin              -- :44, the destructor waits for the call
  | dtor                 -- :44, the destructors of lock, mutex and cv
  | done
deriving DecidableEq, Repr

/-- Where the stopping thread is: before `request_stop`; the flag is set; in the function of the callback (Sleep.h:36), before and after
`notify_one`; `request_stop` returned. -/
inductive Stopper where
  | idle
  | signalled
  | calling
  | called
  | returned
deriving DecidableEq, Repr

/-- The callback object: not registered, in the list, taken by the stopping thread, its call has returned (`stop_wait`, Sleep.h:31-38). -/
inductive Cb where
  | none
  | listed
  | taken
  | finished
deriving DecidableEq, Repr

/-- `cv`: the condition variable exists; `start`: when `sleep_for` was called; `deadline` is meaningful behind `enter`; `ret`: when
`sleep_for` returned and whether a stop had been requested by then (Sleep.h:17-44). -/
structure State where
  now : Nat
  stop : Bool
  pc : Pc
  stopper : Stopper
  cb : Cb
  cv : Bool
  start : Nat
  deadline : Nat
  ret : Option (Nat × Bool)
deriving DecidableEq, Repr

/-- Before `sleep_for` is called (Sleep.h:17). -/
def init : State := ⟨0, false, .before, .idle, .none, false, 0, 0, none⟩

/-- Who makes a step: the sleeping thread, the one that stops it, the clock, the condition variable (Sleep.h:17-44). -/
inductive Act where
  | sleeper
  | stopper
  | tick       -- time passes
  | spurious   -- a spurious wake-up
deriving DecidableEq, Repr

/-- `cv.notify_one()` (Sleep.h:36). -/
def notify (s : State) : Res State :=
  if s.cv then .ok (if s.pc = .blocked then { s with pc := .woken } else s) else .ub

/-- The sleeping thread, `sleep_for(d, token)` (Sleep.h:17-44). -/
def sleeper (d : Nat) (s : State) : Res State :=
  match s.pc with
  | .before => .ok { s with pc := .construct, cv := true, start := s.now }
  | .construct => if s.stop then .ok { s with pc := .inline } else .ok { s with pc := .enter, cb := .listed }
  | .inline => notify s >>= fun s => .ok { s with pc := .enter }
  | .enter => .ok { s with pc := .check, deadline := s.now + d }
  | .check => if s.stop then .ok { s with pc := .destroy } else .ok { s with pc := .toBlock }
  | .toBlock => .ok { s with pc := .blocked }
  | .blocked => if s.deadline ≤ s.now then .ok { s with pc := .woken } else .ok s
  | .woken => if s.deadline ≤ s.now then .ok { s with pc := .last } else .ok { s with pc := .check }
  | .last => .ok { s with pc := .destroy }
  | .destroy =>
    match s.cb with
    | .none => .ok { s with pc := .dtor }
    | .listed => .ok { s with pc := .dtor, cb := .none }
    | .taken => .ok { s with pc := .waitFin }
    | .finished => .ok { s with pc := .dtor }
  | .waitFin => if s.cb = .finished then .ok { s with pc := .dtor } else .ok s
  | .dtor => .ok { s with pc := .done, cv := false, ret := some (s.now, s.stop) }
  | .done => .throw .logic

/-- The thread that requests the stop (stop_token.hpp:73-131). -/
def stopper (s : State) : Res State :=
  match s.stopper with
  | .idle => .ok { s with stopper := .signalled, stop := true }
  | .signalled =>
    if s.cb = .listed then .ok { s with stopper := .calling, cb := .taken } else .ok { s with stopper := .returned }
  | .calling => notify s >>= fun s => .ok { s with stopper := .called }
  | .called => .ok { s with stopper := .returned, cb := .finished }
  | .returned => .throw .logic

/-- One step (Sleep.h:17-44). -/
def step (d : Nat) (s : State) : Act → Res State
  | .sleeper => sleeper d s
  | .stopper => stopper s
  | .tick => .ok { s with now := s.now + 1 }
  | .spurious => if s.pc = .blocked then .ok { s with pc := .woken } else .throw .logic

/-- An execution: any order of the steps (Sleep.h:17-44). -/
def run (d : Nat) : State → List Act → Res State
  | s, [] => .ok s
  | s, a :: l => step d s a >>= fun s => run d s l

end Verif.Sleep
