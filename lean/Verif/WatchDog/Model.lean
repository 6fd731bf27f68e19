import Verif.Common.Res

/-!
# `Awl/WatchDog.h`: `watch_dog`

Three parties: the thread that owns the object, the thread of the watch dog, and whoever requests the stop of the token of the user.  The members are
constructed in the order of their declaration (WatchDog.h:57-67: source, token, timeout, thread, callback, log) and destroyed in the reverse order.
`std::stop_callback` is the atomic specification (C56): it is called once, at registration if the stop was requested before; its destructor waits
for a running call.  `sleep_for` is the specification that C57 proves in part: it returns only if the time is over or the stop was requested.  `m_log`
of the user returns.  A use of `m_log` outside of its lifetime is undefined.
-/

namespace Verif.WatchDog

/-- Where the owner is: before or behind the construction of the thread, the callback, `m_log`; and the destruction in reverse order (Awl/WatchDog.h:21-28, 57-67). -/
inductive Owner where
  | before | started | registered | live | logGone | callbackGone | joining | gone
deriving DecidableEq, Repr

/-- `thread_proc`, WatchDog.h:38-49. -/
inductive Watcher where
  | none | sleeping | woken | logging | stopping | done
deriving DecidableEq, Repr

/-- The members, Awl/WatchDog.h:57-67, and where the threads are. -/
structure State where
  owner : Owner
  watcher : Watcher
  /-- the time is over -/
  elapsed : Bool
  /-- stop requested: of `m_token`, `m_source` (`get_token()`), of the thread -/
  user : Bool
  source : Bool
  thread : Bool
  /-- number of calls of `m_log` that have returned (ghost) -/
  logs : Nat
deriving DecidableEq, Repr

/-- Before the constructor, Awl/WatchDog.h:21. -/
def init : State := ⟨.before, .none, false, false, false, false, 0⟩

/-- One step of one of the parties, Awl/WatchDog.h:21-55. -/
inductive Act where
  | owner     -- the next step of the owner: constructor, then destructor
  | watcher   -- the next step of the thread
  | elapse    -- the time is over
  | stop      -- the user requests the stop of `m_token`
deriving DecidableEq, Repr

/-- `m_callback` exists (Awl/WatchDog.h:25, 65). -/
def hasCallback : Owner → Bool
  | .registered | .live | .logGone => true
  | _ => false

/-- The next step of the owner; `throw .logic`: it waits, or there is nothing to do (Awl/WatchDog.h:21-28 and the implicit destructor). -/
def stepOwner (s : State) : Res State :=
  match s.owner with
  | .before => .ok { s with owner := .started, watcher := .sleeping }                      -- WatchDog.h:24
  | .started => .ok { s with owner := .registered, source := s.source || s.user }          -- :25, called at once if the stop was requested
  | .registered => .ok { s with owner := .live }                                           -- :26
  | .live => if s.watcher = .logging then .ub else .ok { s with owner := .logGone }        -- ~m_log
  | .logGone => .ok { s with owner := .callbackGone }                                      -- ~m_callback
  | .callbackGone => .ok { s with owner := .joining, thread := true }                      -- ~m_thread: request_stop
  | .joining => if s.watcher = .done then .ok { s with owner := .gone } else .throw .logic -- and join
  | .gone => .throw .logic

/-- The next step of the thread (Awl/WatchDog.h:38-49). -/
def stepWatcher (s : State) : Res State :=
  match s.watcher with
  | .none => .throw .logic
  | .sleeping => if s.elapsed || s.thread then .ok { s with watcher := .woken } else .throw .logic                    -- :40
  | .woken =>
    if s.thread then .ok { s with watcher := .stopping }                                                              -- :42
    else if s.owner = .live then .ok { s with watcher := .logging } else .ub                                          -- :45
  | .logging => .ok { s with watcher := .stopping, logs := s.logs + 1 }
  | .stopping => .ok { s with watcher := .done, source := true }                                                      -- :48
  | .done => .throw .logic

/-- One action, Awl/WatchDog.h:21-55. -/
def step (s : State) : Act → Res State
  | .owner => stepOwner s
  | .watcher => stepWatcher s
  | .elapse => if s.watcher = .none then .throw .logic else .ok { s with elapsed := true }
  | .stop => .ok { s with user := true, source := s.source || hasCallback s.owner }                                   -- :52-55

/-- A sequence of actions, Awl/WatchDog.h:21-55. -/
def run : State → List Act → Res State
  | s, [] => .ok s
  | s, a :: l => step s a >>= fun s => run s l

end Verif.WatchDog
