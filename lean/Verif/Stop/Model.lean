import Verif.Common.Res

/-!
# The stop state: `Extras/JThread/JThreadExtras/stop_token.hpp`

Any number of threads, interleaved in any order; a step is what a thread does between two accesses to shared memory that other
threads can observe (sequential consistency is assumed, the memory orders of the atomics are not modelled).  Spinning is a step
that changes nothing.  A thread runs code of the user, at its base or inside a callback, or is somewhere in the code of the
library (`Pc`).  Reference counting is modelled apart (`StopCount/Model.lean`).

Outcomes: `throw .logic`: the user may not do this here; `ub`: a callback object is used after its destruction, or the flag
`__isRemoved` is written after `__request_stop` left its scope.
-/

namespace Verif.Stop

/-- How far the constructor of a callback object is: before `__try_add_callback` decided, calling the function, in the list,
returned (stop_token.hpp:141-179, 497-508). -/
inductive Stage where
  | trying
  | inline
  | pushed
  | built
deriving DecidableEq, Repr

/-- A `stop_callback` (stop_token.hpp:29-45, 489-560).  `mark`: `__isRemoved_ != nullptr`; `fin`: `__callbackFinishedExecuting_`;
`reg`: `__state_ != nullptr`.  `stage`, `builder` and `dying` (the thread in the destructor) say what the user did so far. -/
structure Rec where
  stage : Stage
  builder : Nat
  reg : Bool
  mark : Bool
  fin : Bool
  dying : Option Nat
deriving DecidableEq, Repr

/-- Callbacks a thread is inside of.  `call`: called by `__request_stop`, with the locals `anyMore` and `__isRemoved`; `inline`:
called by `__try_add_callback` (stop_token.hpp:106-109, 154). -/
inductive UFrame where
  | call (c : Nat) (more removed : Bool)
  | inline (c : Nat)
deriving DecidableEq, Repr

/-- Where a thread is (stop_token.hpp:73-221). -/
inductive Pc where
  | user                                        -- in code of the user
  -- __request_stop (stop_token.hpp:73-131)
  | stopTry                                     -- :75
  | stopSig                                     -- :82, holds the lock
  | stopHead                                    -- :84, holds the lock
  | stopUnlock (c : Nat) (more : Bool)          -- :97, holds the lock
  | stopMark (c : Nat) (more : Bool)            -- :106
  | stopAfter (c : Nat) (more removed : Bool)   -- :111
  | stopRelock                                  -- :125
  | stopEnd                                     -- :128, holds the lock
  -- __try_add_callback (stop_token.hpp:141-179)
  | addTry (c : Nat)                            -- :151-160
  | addPush (c : Nat)                           -- :164-169, holds the lock
  | addUnlock (c : Nat)                         -- :172, holds the lock
  | addRet (c : Nat)                            -- :506
  -- __remove_callback (stop_token.hpp:181-221)
  | remLock (c : Nat)                           -- :182
  | remHave (c : Nat)                           -- :184, holds the lock
  | remFree (c : Nat)                           -- :192, holds the lock
  | remUnlock (c : Nat)                         -- :197, holds the lock
  | remCheck (c : Nat)                          -- :202
  | remWait (c : Nat)                           -- :214
  | remRet (c : Nat)                            -- :220
deriving DecidableEq, Repr

/-- A thread: where it is, and the callbacks it is inside of (stop_token.hpp:109, 154). -/
structure Thread where
  pc : Pc
  stack : List UFrame
deriving DecidableEq, Repr

/-- What can be observed: a stop is requested (stop_token.hpp:73), callbacks are registered, called and destroyed (stop_token.hpp:141-221). -/
inductive Event where
  | requested (t : Nat) (won : Bool)   -- request_stop returned
  | registered (c : Nat)               -- c is in the list
  | unlinked (c : Nat)                 -- c was removed from the list without being called
  | started (c t : Nat)                -- the function of c is called
  | ended (c t : Nat)                  -- and has returned
  | destroyed (c t : Nat)              -- the destructor of c returned
deriving DecidableEq, Repr

/-- `locked`: the thread that holds the lock bit; `stop`: the stop bit; `winner`: who set it (ghost); `sig`:
`__signallingThread_`; `queue`: the list at `__head_`, a callback is in it if its `__prev_` is not null; `busy`: the threads inside of `request_stop`, as
many times as they are (ghost: the source it is called on cannot be destroyed) (stop_token.hpp:301-303). -/
structure State where
  locked : Option Nat
  stop : Bool
  winner : Option Nat
  sig : Option Nat
  sources : Nat
  busy : List Nat
  queue : List Nat
  cbs : Nat → Option Rec
  next : Nat
  threads : Nat → Thread
  log : List Event

/-- A new `stop_source` (stop_token.hpp:410, 301-303). -/
def init : State := ⟨none, false, none, none, 1, [], [], fun _ => none, 0, fun _ => ⟨.user, []⟩, []⟩

/-- One thread moves (stop_token.hpp:73-221). -/
def setThread (s : State) (t : Nat) (x : Thread) : State :=
  { s with threads := fun u => if u = t then x else s.threads u }

/-- One thread moves inside of the library (stop_token.hpp:73-221). -/
def setPc (s : State) (t : Nat) (p : Pc) : State := setThread s t ⟨p, (s.threads t).stack⟩

/-- A callback object is changed or destroyed (stop_token.hpp:29-45). -/
def setCb (s : State) (c : Nat) (x : Option Rec) : State :=
  { s with cbs := fun d => if d = c then x else s.cbs d }

/-- What a thread does (stop_token.hpp:408-536). -/
inductive Act where
  | go            -- the next step of the library
  | request       -- stop_source::request_stop()
  | construct     -- stop_callback(token, f)
  | destroy (c : Nat)
  | ret           -- the callback returns
  | newSource
  | dropSource
deriving DecidableEq, Repr

/-- Every object in the list is alive, else walking it is undefined (the pointers `__next_`, `__prev_`, stop_token.hpp:87-90, 164-166, 187-189). -/
def listed (s : State) : Bool := s.queue.all (fun c => (s.cbs c).isSome)

/-- `*__cb->__isRemoved_ = true` (stop_token.hpp:209): the innermost call of that callback on the stack of the thread. -/
def markRemoved (c : Nat) : List UFrame → Option (List UFrame)
  | [] => none
  | .call d more removed :: st =>
    if d = c then some (.call d more true :: st) else (markRemoved c st).map (.call d more removed :: ·)
  | .inline d :: st => (markRemoved c st).map (.inline d :: ·)

/-- The next step of a thread inside of the library (stop_token.hpp:73-221, the lines are at `Pc`). -/
def advance (s : State) (t : Nat) : Pc → Res State
  | .user => .throw .logic
  | .stopTry =>
    -- __try_lock_and_signal_until_signalled (stop_token.hpp:238-255)
    if s.stop then .ok { setPc s t .user with log := .requested t false :: s.log, busy := s.busy.erase t }
    else if s.locked.isSome then .ok s
    else .ok { setPc s t .stopSig with stop := true, locked := some t, winner := some t }
  | .stopSig => .ok { setPc s t .stopHead with sig := some t }
  | .stopHead =>
    if listed s then
      match s.queue with
      | [] => .ok (setPc s t .stopEnd)
      | c :: q => .ok { setPc s t (.stopUnlock c (!q.isEmpty)) with queue := q }
    else .ub
  | .stopUnlock c more => .ok { setPc s t (.stopMark c more) with locked := none }
  | .stopMark c more =>
    match s.cbs c with
    | none => .ub
    | some r => .ok { setCb (setThread s t ⟨.user, .call c more false :: (s.threads t).stack⟩) c (some { r with mark := true }) with
        log := .started c t :: s.log }
  | .stopAfter c more removed =>
    let rest (s : State) : State :=
      if more then setPc s t .stopRelock else { setPc s t .user with log := .requested t true :: s.log, busy := s.busy.erase t }
    if removed then .ok (rest s)
    else match s.cbs c with
      | none => .ub
      | some r => .ok (rest (setCb s c (some { r with mark := false, fin := true })))
  | .stopRelock =>
    -- __lock (stop_token.hpp:257-269)
    if s.locked.isSome then .ok s else .ok { setPc s t .stopHead with locked := some t }
  | .stopEnd => .ok { setPc s t .user with locked := none, log := .requested t true :: s.log, busy := s.busy.erase t }
  | .addTry c =>
    match s.cbs c with
    | none => .ub
    | some r =>
      if s.stop then .ok
        { setCb (setThread s t ⟨.user, .inline c :: (s.threads t).stack⟩) c (some { r with stage := .inline }) with
          log := .started c t :: s.log }
      else if s.sources = 0 then .ok (setCb (setPc s t .user) c (some { r with stage := .built }))
      else if s.locked.isSome then .ok s
      else .ok { setPc s t (.addPush c) with locked := some t }
  | .addPush c =>
    match s.cbs c with
    | none => .ub
    | some r =>
      if listed s then .ok { setCb (setPc s t (.addUnlock c)) c (some { r with stage := .pushed }) with
        queue := c :: s.queue, log := .registered c :: s.log }
      else .ub
  | .addUnlock c => .ok { setPc s t (.addRet c) with locked := none }
  | .addRet c =>
    match s.cbs c with
    | none => .ub
    | some r => .ok (setCb (setPc s t .user) c (some { r with stage := .built, reg := true }))
  | .remLock c => if s.locked.isSome then .ok s else .ok { setPc s t (.remHave c) with locked := some t }
  | .remHave c =>
    match s.cbs c with
    | none => .ub
    | some _ =>
      if c ∈ s.queue then
        if listed s then .ok { setPc s t (.remFree c) with queue := s.queue.erase c, log := .unlinked c :: s.log }
        else .ub
      else .ok (setPc s t (.remUnlock c))
  | .remFree c => .ok { setPc s t (.remRet c) with locked := none }
  | .remUnlock c => .ok { setPc s t (.remCheck c) with locked := none }
  | .remCheck c =>
    if s.sig = some t then
      match s.cbs c with
      | none => .ub
      | some r =>
        if r.mark then
          match markRemoved c (s.threads t).stack with
          | none => .ub
          | some st => .ok (setThread s t ⟨.remRet c, st⟩)
        else .ok (setPc s t (.remRet c))
    else .ok (setPc s t (.remWait c))
  | .remWait c =>
    match s.cbs c with
    | none => .ub
    | some r => if r.fin then .ok (setPc s t (.remRet c)) else .ok s
  | .remRet c => .ok { setCb (setPc s t .user) c none with log := .destroyed c t :: s.log }

/-- One step of the thread `t` (stop_token.hpp:408-536). -/
def step (s : State) (t : Nat) : Act → Res State
  | .go => advance s t (s.threads t).pc
  | .request =>
    if (s.threads t).pc = .user ∧ s.sources ≠ 0 then .ok { setPc s t .stopTry with busy := t :: s.busy } else .throw .logic
  | .construct =>
    if (s.threads t).pc = .user then
      .ok { setCb (setPc s t (.addTry s.next)) s.next (some ⟨.trying, t, false, false, false, none⟩) with next := s.next + 1 }
    else .throw .logic
  | .destroy c =>
    -- ~stop_callback (stop_token.hpp:527-536)
    match s.cbs c with
    | none => .throw .logic
    | some r =>
      if (s.threads t).pc = .user ∧ r.stage = .built ∧ r.dying = none then
        if r.reg then .ok (setCb (setPc s t (.remLock c)) c (some { r with dying := some t }))
        else .ok { setCb s c none with log := .destroyed c t :: s.log }
      else .throw .logic
  | .ret =>
    if (s.threads t).pc = .user then
      match (s.threads t).stack with
      | [] => .throw .logic
      | .call c more removed :: st =>
        .ok { setThread s t ⟨.stopAfter c more removed, st⟩ with log := .ended c t :: s.log }
      | .inline c :: st =>
        match s.cbs c with
        | none => .ub
        | some r => .ok { setCb (setThread s t ⟨.user, st⟩) c (some { r with stage := .built }) with log := .ended c t :: s.log }
    else .throw .logic
  | .newSource =>
    if (s.threads t).pc = .user ∧ s.sources ≠ 0 then .ok { s with sources := s.sources + 1 } else .throw .logic
  | .dropSource =>
    if (s.threads t).pc = .user ∧ s.sources ≠ 0 ∧ (s.sources ≠ 1 ∨ s.busy = []) then .ok { s with sources := s.sources - 1 } else .throw .logic

end Verif.Stop
