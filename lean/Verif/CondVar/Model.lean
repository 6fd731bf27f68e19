import Verif.Common.Res

/-!
# The interruptible wait: `Extras/JThread/JThreadExtras/condition_variable_any2.hpp`

Any number of threads that wait, notify, change the condition and request the stop, interleaved in any order.  A step is what a
thread does between two accesses to shared memory; memory is sequentially consistent.  Waiting for a mutex is a step that changes
nothing.

* The predicate of the waiting threads reads one variable, `data`, which the user changes while holding the lock given to `wait`.
* `std::mutex`: an owner.  `std::condition_variable`: a set of waiting threads (`waiting`); `wait` releases the mutex and joins the
  set in one step; a thread leaves the set when it is notified, when its time is over (an act of the environment, possible at any
  time if the wait is timed) or spuriously.
* `std::stop_callback` is used as an atomic specification, as C56 proves it: registering tests the stop flag, the thread that requested the
  stop takes one callback after the other from the list and calls it, the destructor unlinks the callback or waits for its call.
  All threads wait with tokens of one stop state; a callback is named by the thread that waits.

`throw .logic`: the user may not do this here.  `ub`: a callback uses `local_internals` of a `wait` that has returned.
-/

namespace Verif.CondVar

/-- Where a thread is.  `k`: the wait is timed (`wait_until`, `wait_for`, condition_variable_any2.hpp:246-276), else `wait`
(:217-238); `to`: the time is over; `over`: `shouldStop`; `res`: the result. -/
inductive Pc where
  | user                            -- in code of the user
  | first (k : Bool)                -- :221, :251  stop_requested()
  | cons (k : Bool)                 -- :225, :257  constructor of cb
  | inlLock (k : Bool)              -- :46  the function called by the constructor: lock m
  | inlNotify (k : Bool)            -- :47
  | inlUnlock (k : Bool)            -- :48
  | pred (k : Bool)                 -- :226, :258  pred()
  | lockM (k : Bool)                -- :227, :261
  | check (k : Bool)                -- :228, :262  stop_requested()
  | giveUp (k : Bool)               -- :230, :264  return false: unlock m
  | unlockUser (k : Bool)           -- :232, :266
  | block (k : Bool)                -- :234, :268  cv.wait begins
  | blocked (k to : Bool)           -- :234, :268  in cv.wait, and then locking m
  | haveM (k to : Bool)             -- :269, m is locked; then it is unlocked
  | lockUser (k to over : Bool)     -- :235, :270  ~unlock_guard
  | after (k to over : Bool)        -- :271-273
  | destroy (k to res : Bool)       -- ~stop_callback
  | waitFin (k to res : Bool)       -- ~stop_callback waits for the call
  | nLock (one : Bool)              -- :45-52  notify_all, notify_one
  | nNotify (one : Bool)
  | nUnlock
  | sTry                            -- request_stop
  | sNext                           -- the next callback
  | sLock (c : Nat)                 -- :46
  | sNotify (c : Nat)               -- :47
  | sUnlock (c : Nat)               -- :48
  | sFin (c : Nat)                  -- the call has returned
deriving DecidableEq, Repr

/-- What is observed: returns of `wait` and `wait_until` (condition_variable_any2.hpp:216-276), notifications (47), and what the user does. -/
inductive Event where
  | set (b : Bool)                        -- the user changed the variable
  | notifiedAll                           -- cv.notify_all() under the mutex
  | returned (t : Nat) (k to res : Bool)  -- a wait returned; `to`: its time was over
  | requested (t : Nat) (won : Bool)      -- request_stop returned
deriving DecidableEq, Repr

/-- `lock`: owner of the lock of the user; `m`: owner of `cv_internals::m`; `queue`: registered callbacks; `taken`: the callback
that is being called (condition_variable_any2.hpp:41-43, 185, 224-225, 256-257). -/
structure State where
  lock : Option Nat
  m : Option Nat
  data : Bool
  stop : Bool
  winner : Option Nat
  queue : List Nat
  taken : Option Nat
  waiting : List Nat
  pc : Nat → Pc
  log : List Event

/-- A new `condition_variable_any2` and a new stop state (condition_variable_any2.hpp:60-62). -/
def init : State := ⟨none, none, false, false, none, [], none, [], fun _ => .user, []⟩

/-- The thread `t` goes on at `p` (condition_variable_any2.hpp:216-276). -/
def setPc (s : State) (t : Nat) (p : Pc) : State := { s with pc := fun u => if u = t then p else s.pc u }

/-- What a thread, the user or the clock does next (condition_variable_any2.hpp:45-52, 216-276). -/
inductive Act where
  | go (n : Nat)       -- the next step of the library; `n`: whom notify_one wakes
  | lock
  | unlock
  | set (b : Bool)
  | wait (k : Bool)
  | notify (one : Bool)
  | request
  | timeout
  | spurious
deriving DecidableEq, Repr

/-- The frame of `wait` of this thread, with `local_internals` and `cb`, exists (condition_variable_any2.hpp:224-238, 256-276). -/
def Pc.inWait : Pc → Bool
  | .cons _ | .inlLock _ | .inlNotify _ | .inlUnlock _ | .pred _ | .lockM _ | .check _ | .giveUp _ | .unlockUser _ | .block _ | .blocked ..
  | .haveM .. | .lockUser .. | .after .. | .destroy .. | .waitFin .. => true
  | _ => false

/-- `cv.notify_one()`: some waiting thread, if there is one (condition_variable_any2.hpp:51). -/
def wakeOne (n : Nat) (l : List Nat) : List Nat :=
  match l[n % l.length]? with
  | some x => l.erase x
  | none => l

/-- The next step of the library in the thread `t` (condition_variable_any2.hpp:45-52, 216-276; the lines are at `Pc`). -/
def advance (s : State) (t n : Nat) : Pc → Res State
  | .user => .throw .logic
  | .first k =>
    if s.stop then .ok { setPc s t .user with log := .returned t k false s.data :: s.log } else .ok (setPc s t (.cons k))
  | .cons k => if s.stop then .ok (setPc s t (.inlLock k)) else .ok { setPc s t (.pred k) with queue := t :: s.queue }
  | .inlLock k => if s.m.isSome then .ok s else .ok { setPc s t (.inlNotify k) with m := some t }
  | .inlNotify k => .ok { setPc s t (.inlUnlock k) with waiting := [], log := .notifiedAll :: s.log }
  | .inlUnlock k => .ok { setPc s t (.pred k) with m := none }
  | .pred k => if s.data then .ok (setPc s t (.destroy k false true)) else .ok (setPc s t (.lockM k))
  | .lockM k => if s.m.isSome then .ok s else .ok { setPc s t (.check k) with m := some t }
  | .check k => if s.stop then .ok (setPc s t (.giveUp k)) else .ok (setPc s t (.unlockUser k))
  | .giveUp k => .ok { setPc s t (.destroy k false false) with m := none }
  | .unlockUser k => .ok { setPc s t (.block k) with lock := none }
  | .block k => .ok { setPc s t (.blocked k false) with m := none, waiting := t :: s.waiting }
  | .blocked k to =>
    if t ∈ s.waiting then .ok s
    else if s.m.isSome then .ok s
    else .ok { setPc s t (.haveM k to) with m := some t }
  | .haveM k to => .ok { setPc s t (.lockUser k to (k && (to || s.stop))) with m := none }
  | .lockUser k to o => if s.lock.isSome then .ok s else .ok { setPc s t (.after k to o) with lock := some t }
  | .after k to o => if o then .ok (setPc s t (.destroy k to s.data)) else .ok (setPc s t (.pred k))
  | .destroy k to r =>
    if t ∈ s.queue then .ok { setPc s t .user with queue := s.queue.erase t, log := .returned t k to r :: s.log }
    else if s.taken = some t then .ok (setPc s t (.waitFin k to r))
    else .ok { setPc s t .user with log := .returned t k to r :: s.log }
  | .waitFin k to r => if s.taken = some t then .ok s else .ok { setPc s t .user with log := .returned t k to r :: s.log }
  | .nLock one => if s.m.isSome then .ok s else .ok { setPc s t (.nNotify one) with m := some t }
  | .nNotify one =>
    if one then .ok { setPc s t .nUnlock with waiting := wakeOne n s.waiting }
    else .ok { setPc s t .nUnlock with waiting := [], log := .notifiedAll :: s.log }
  | .nUnlock => .ok { setPc s t .user with m := none }
  | .sTry =>
    if s.stop then .ok { setPc s t .user with log := .requested t false :: s.log }
    else .ok { setPc s t .sNext with stop := true, winner := some t }
  | .sNext =>
    match s.queue with
    | [] => .ok { setPc s t .user with log := .requested t true :: s.log }
    | c :: q => .ok { setPc s t (.sLock c) with queue := q, taken := some c }
  | .sLock c =>
    if (s.pc c).inWait then
      if s.m.isSome then .ok s else .ok { setPc s t (.sNotify c) with m := some t }
    else .ub
  | .sNotify c => .ok { setPc s t (.sUnlock c) with waiting := [], log := .notifiedAll :: s.log }
  | .sUnlock c => .ok { setPc s t (.sFin c) with m := none }
  | .sFin _ => .ok { setPc s t .sNext with taken := none }

/-- One step of any thread, or of the environment (condition_variable_any2.hpp:45-52, 216-276). -/
def step (s : State) (t : Nat) : Act → Res State
  | .go n => advance s t n (s.pc t)
  | .lock => if s.pc t = .user ∧ s.lock = none then .ok { s with lock := some t } else .throw .logic
  | .unlock => if s.pc t = .user ∧ s.lock = some t then .ok { s with lock := none } else .throw .logic
  | .set b => if s.pc t = .user ∧ s.lock = some t then .ok { s with data := b, log := .set b :: s.log } else .throw .logic
  | .wait k => if s.pc t = .user ∧ s.lock = some t then .ok (setPc s t (.first k)) else .throw .logic
  | .notify one => if s.pc t = .user then .ok (setPc s t (.nLock one)) else .throw .logic
  | .request => if s.pc t = .user then .ok (setPc s t .sTry) else .throw .logic
  | .timeout =>
    match s.pc t with
    | .blocked true _ => if t ∈ s.waiting then .ok { setPc s t (.blocked true true) with waiting := s.waiting.erase t } else .throw .logic
    | _ => .throw .logic
  | .spurious =>
    match s.pc t with
    | .blocked .. => if t ∈ s.waiting then .ok { s with waiting := s.waiting.erase t } else .throw .logic
    | _ => .throw .logic

/-- An interleaving of steps (condition_variable_any2.hpp:45-52, 216-276). -/
def run : State → List (Nat × Act) → Res State
  | s, [] => .ok s
  | s, (t, a) :: l => step s t a >>= fun s => run s l

end Verif.CondVar
