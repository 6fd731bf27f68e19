import Verif.Common.Res

/-!
# Waiting without a token: `Extras/JThread/JThreadExtras/condition_variable_any2.hpp`

`wait`, `wait_until` and `wait_for` with and without a predicate, `notify_one`, `notify_all` and the destructor, called by any number
of threads, interleaved in any order.  A step is what a thread does between two accesses to shared memory; memory is sequentially
consistent.  Waiting for a mutex is a step that changes nothing.

* The predicate reads one variable, `data`, which the user changes while holding the lock given to `wait`; it may throw.
* `std::mutex`: an owner.  `std::condition_variable`: a set of waiting threads (`waiting`); `wait` releases the mutex and joins the
  set in one step; a thread leaves the set when it is notified, when its time is over (an act of the environment, possible at any
  time if the wait is timed) or spuriously.
* `std::shared_ptr<cv_internals>`: the internals exist as long as the object exists (`alive`) or a wait holds its copy (`owners`).

`throw .logic`: the user may not do this here.  `ub`: the object, or its internals, are used after they were destroyed.
-/

namespace Verif.CondVar.Plain

/-- Where a thread is.  `p`: the wait has a predicate (condition_variable_any2.hpp:86-96, 110-130), else it has none (:77-83,
:100-108); `k`: it is timed (:100-108, :110-130), else not (:77-83, :86-96); `to`: its time is over. -/
inductive Pc where
  | user                            -- in code of the user
  | enter (p k : Bool)              -- :78, :89, :103, :116  local_internals = internals
  | pred (k : Bool)                 -- :90, :117  pred()
  | lockM (p k : Bool)              -- :79, :91, :104, :120
  | unlockUser (p k : Bool)         -- :80, :92, :105, :121
  | block (p k : Bool)              -- :82, :94, :107, :123  cv.wait begins
  | blocked (p k to : Bool)         -- :82, :94, :107, :123  in cv.wait, and then locking m
  | haveM (p k to : Bool)           -- m is locked; then it is unlocked
  | lockUser (p k to : Bool)        -- ~unlock_guard (:30-32)
  | after (p k to : Bool)           -- :83, :95, :108, :125-127
  | nEnter (one : Bool)             -- :68, :71  internals
  | nLock (one : Bool)              -- :46, :50
  | nNotify (one : Bool)            -- :47, :51
  | nUnlock                         -- :48, :52
deriving DecidableEq, Repr

/-- What is observed: returns of the waits (condition_variable_any2.hpp:77-130), notifications (47, 51), and what the user does.
The result of a wait with a predicate is what it returns; of one without it is `true`, or, if it is timed, whether the status is
`no_timeout`. -/
inductive Event where
  | set (b : Bool)                          -- the user changed the variable
  | notified (one : Bool)                   -- cv.notify_all() or cv.notify_one() under the mutex
  | returned (t : Nat) (p k to res : Bool)  -- a wait returned; `to`: its time was over
  | threw (t : Nat)                         -- the predicate threw, and so did the wait
  | destroyed                               -- the object was destroyed
deriving DecidableEq, Repr

/-- `lock`: owner of the lock of the user; `m`: owner of `cv_internals::m`; `alive`: the object exists; `owners`: the threads with a
copy of the pointer to the internals (condition_variable_any2.hpp:41-43, 78, 89, 103, 116, 185). -/
structure State where
  lock : Option Nat
  m : Option Nat
  data : Bool
  alive : Bool
  owners : List Nat
  waiting : List Nat
  pc : Nat → Pc
  log : List Event

/-- A new `condition_variable_any2` (condition_variable_any2.hpp:60-62). -/
def init : State := ⟨none, none, false, true, [], [], fun _ => .user, []⟩

/-- The thread `t` goes on at `p` (condition_variable_any2.hpp:77-130). -/
def setPc (s : State) (t : Nat) (p : Pc) : State := { s with pc := fun u => if u = t then p else s.pc u }

/-- What a thread, the user or the clock does next (condition_variable_any2.hpp:60-146). -/
inductive Act where
  | go (n : Nat)       -- the next step of the library; `n`: whom notify_one wakes
  | raise              -- the predicate throws
  | lock
  | unlock
  | set (b : Bool)
  | wait (p k : Bool)
  | notify (one : Bool)
  | destroy
  | timeout
  | spurious
deriving DecidableEq, Repr

/-- `cv.notify_one()`: some waiting thread, if there is one (condition_variable_any2.hpp:51). -/
def wakeOne (n : Nat) (l : List Nat) : List Nat :=
  match l[n % l.length]? with
  | some x => l.erase x
  | none => l

/-- The internals exist: the object or a copy of the pointer holds them (condition_variable_any2.hpp:78, 185). -/
def State.mem (s : State) : Bool := s.alive || !s.owners.isEmpty

/-- A wait returns: its copy of the pointer is destroyed (condition_variable_any2.hpp:83, 96, 108, 130). -/
def leave (s : State) (t : Nat) (e : Event) : State := { setPc s t .user with owners := s.owners.erase t, log := e :: s.log }

/-- The next step of the library in the thread `t` (condition_variable_any2.hpp:45-52, 67-130; the lines are at `Pc`). -/
def advance (s : State) (t n : Nat) : Pc → Res State
  | .user => .throw .logic
  | .enter p k =>
    if s.alive then .ok { setPc s t (if p then .pred k else .lockM p k) with owners := t :: s.owners } else .ub
  | .pred k => if s.data then .ok (leave s t (.returned t true k false true)) else .ok (setPc s t (.lockM true k))
  | .lockM p k =>
    if s.mem then if s.m.isSome then .ok s else .ok { setPc s t (.unlockUser p k) with m := some t } else .ub
  | .unlockUser p k => .ok { setPc s t (.block p k) with lock := none }
  | .block p k => if s.mem then .ok { setPc s t (.blocked p k false) with m := none, waiting := t :: s.waiting } else .ub
  | .blocked p k to =>
    if s.mem then
      if t ∈ s.waiting then .ok s
      else if s.m.isSome then .ok s
      else .ok { setPc s t (.haveM p k to) with m := some t }
    else .ub
  | .haveM p k to => if s.mem then .ok { setPc s t (.lockUser p k to) with m := none } else .ub
  | .lockUser p k to => if s.lock.isSome then .ok s else .ok { setPc s t (.after p k to) with lock := some t }
  | .after p k to =>
    if p then if to then .ok (leave s t (.returned t true k to s.data)) else .ok (setPc s t (.pred k))
    else .ok (leave s t (.returned t false k to (!to)))
  | .nEnter one => if s.alive then .ok (setPc s t (.nLock one)) else .ub
  | .nLock one => if s.mem then if s.m.isSome then .ok s else .ok { setPc s t (.nNotify one) with m := some t } else .ub
  | .nNotify one =>
    if s.mem then
      .ok { setPc s t .nUnlock with waiting := if one then wakeOne n s.waiting else [], log := .notified one :: s.log }
    else .ub
  | .nUnlock => if s.mem then .ok { setPc s t .user with m := none } else .ub

/-- One step of any thread, or of the environment (condition_variable_any2.hpp:60-130).  `wait_for` (:134-146) is `wait_until`. -/
def step (s : State) (t : Nat) : Act → Res State
  | .go n => advance s t n (s.pc t)
  | .raise =>
    match s.pc t with
    | .pred _ => .ok (leave s t (.threw t))
    | .after true _ true => .ok (leave s t (.threw t))
    | _ => .throw .logic
  | .lock => if s.pc t = .user ∧ s.lock = none then .ok { s with lock := some t } else .throw .logic
  | .unlock => if s.pc t = .user ∧ s.lock = some t then .ok { s with lock := none } else .throw .logic
  | .set b => if s.pc t = .user ∧ s.lock = some t then .ok { s with data := b, log := .set b :: s.log } else .throw .logic
  | .wait p k => if s.pc t = .user ∧ s.lock = some t then .ok (setPc s t (.enter p k)) else .throw .logic
  | .notify one => if s.pc t = .user then .ok (setPc s t (.nEnter one)) else .throw .logic
  | .destroy => if s.pc t = .user ∧ s.alive then .ok { s with alive := false, log := .destroyed :: s.log } else .throw .logic
  | .timeout =>
    match s.pc t with
    | .blocked p true _ => if t ∈ s.waiting then .ok { setPc s t (.blocked p true true) with waiting := s.waiting.erase t } else .throw .logic
    | _ => .throw .logic
  | .spurious =>
    match s.pc t with
    | .blocked .. => if t ∈ s.waiting then .ok { s with waiting := s.waiting.erase t } else .throw .logic
    | _ => .throw .logic

/-- An interleaving of steps (condition_variable_any2.hpp:60-130). -/
def run : State → List (Nat × Act) → Res State
  | s, [] => .ok s
  | s, (t, a) :: l => step s t a >>= fun s => run s l

end Verif.CondVar.Plain
