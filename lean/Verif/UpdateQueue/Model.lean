import Verif.Common.Res

/-!
# `Awl/UpdateQueue.h`

Any number of threads use one queue at the same time.  The model is a transition system: one action is one step of one
thread, between two steps of a thread any steps of other threads may happen.  The mutex is modelled (owner and recursion
depth of `std::recursive_mutex`), and so is the re-entrance that the comment at 145 speaks of: user code (the body of an
update, the copy constructor of an update's captures in `Push`, the destructors of the captures in `FreeData` and `Push`)
may call `Push` and `ClearPending` itself.

Thread 0 is the one that calls `ApplyUpdates` ("called by render thread", 84); it does not call it from inside an update.
A message is a number (its address).  The three intrusive lists are sequences of messages (justified by C12, C15: the
operations used are `push_back(message)`, `pop_front`, `push_back(list)` and move assignment to an empty list).
-/

namespace Verif.UpdateQueue

variable {U : Type}

/-- Where a thread is inside `Push` (64-82) or `ClearPending` (54-61) (Awl/UpdateQueue.h). -/
inductive Frame (U : Type) where
  /-- `Push`: about to lock the mutex (66) -/
  | pushLock (u : U)
  /-- `Push`: about to take a free block or to allocate one (70-77) -/
  | pushTake (u : U)
  /-- `Push`: copying the function into the message (72 if it did not throw, 79): user code runs (the copy constructor of the captures, the
  destructor of what the block held) -/
  | pushCopy (m : Nat) (u : U)
  /-- `Push`: about to put the message at the end of the pending ones (81) -/
  | pushLink (m : Nat) (u : U)
  | clearLock
  | clearSplice
  /-- leaving: about to unlock the mutex; the update, if it is `Push` that returns -/
  | unlock (u : Option U)

/-- Where the thread 0 is inside `ApplyUpdates` (85-96); `e` says whether an exception is on its way (Awl/UpdateQueue.h). -/
inductive Phase where
  | idle
  /-- `PrepareData` (122-129) -/
  | prepLock | prepMove | prepUnlock
  /-- the loop (92-95): about to compare the iterator with `end()` -/
  | at_ (i : Nat)
  /-- the function of the `i`-th message runs: user code -/
  | in_ (i : Nat)
  /-- `FreeData` (131-143) -/
  | freeLock (e : Bool)
  | freeAt (i : Nat) (e : Bool)
  /-- the function of the `i`-th message is being released: user code (destructors of the captures) -/
  | freeIn (i : Nat) (e : Bool)
  | freeUnlock (e : Bool)
deriving DecidableEq

/-- The queue and all the threads (Awl/UpdateQueue.h:145-155). -/
structure Sys (U : Type) where
  owner : Option Nat
  depth : Nat
  pending : List Nat
  free : List Nat
  rendering : List Nat
  func : Nat → Option U
  /-- messages allocated so far -/
  next : Nat
  stack : Nat → List (Frame U)
  phase : Phase

/-- A new queue, Awl/UpdateQueue.h:145-155. -/
def Sys.init : Sys U := ⟨none, 0, [], [], [], fun _ => none, 0, fun _ => [], .idle⟩

/-- The visible effects, in the order in which they happen (Awl/UpdateQueue.h:54-96). -/
inductive Item (U : Type) where
  | pushed (t : Nat) (u : U)
  | cleared
  /-- `ApplyUpdates` takes the pending updates -/
  | batch
  | applied (u : U)
  /-- the update that was applied last throws -/
  | threw
  /-- a call of `Push` is about to return -/
  | returned (t : Nat) (u : U)
  /-- a call of `Push` ends with an exception (thrown by the copy constructor of the captures) -/
  | pushThrew (t : Nat)
  /-- `ApplyUpdates` is through, `e`: an update threw -/
  | finished (e : Bool)
deriving DecidableEq

/-- The outcome of a step: it waits for the mutex (or is not possible), undefined behaviour, or the state and the effects; Awl/UpdateQueue.h:54-143. -/
inductive Out (U : Type) where
  | blocked
  | ub
  | ok (s : Sys U) (items : List (Item U))

/-- `throws`: whether the user code that is running in this thread ends with an exception (only meaningful there) (the calls of the public functions, Awl/UpdateQueue.h:54-96, and the next step inside a call). -/
inductive Act (U : Type) where
  | callPush (t : Nat) (u : U)
  | callClear (t : Nat)
  | callApply
  | run (t : Nat) (throws : Bool)

/-- Changes where thread `t` is, Awl/UpdateQueue.h:54-82. -/
def Sys.setStack (s : Sys U) (t : Nat) (fs : List (Frame U)) : Sys U :=
  { s with stack := fun k => if k = t then fs else s.stack k }

/-- The phase in which user code of thread 0 runs, or it is outside (Awl/UpdateQueue.h:94, 138). -/
def Phase.user : Phase → Bool
  | .idle => true
  | .in_ _ => true
  | .freeIn _ _ => true
  | _ => false

/-- Thread `t` may call a function of the queue: it is outside of the queue or user code runs in it (Awl/UpdateQueue.h:145). -/
def Sys.user (s : Sys U) (t : Nat) : Bool :=
  match s.stack t with
  | [] => if t = 0 then s.phase.user else true
  | .pushCopy _ _ :: _ => true
  | _ => false

/-- `std::recursive_mutex::lock` (Awl/UpdateQueue.h:56, 66, 124, 133). -/
def Sys.lock (s : Sys U) (t : Nat) : Option (Sys U) :=
  match s.owner with
  | none => some { s with owner := some t, depth := 1 }
  | some t' => if t' = t then some { s with depth := s.depth + 1 } else none

/-- `std::recursive_mutex::unlock`; unlocking a mutex of another thread is undefined (Awl/UpdateQueue.h:56, 66, 124, 133). -/
def Sys.unlock (s : Sys U) (t : Nat) : Option (Sys U) :=
  if s.owner = some t then
    (if s.depth = 1 then some { s with owner := none, depth := 0 } else some { s with depth := s.depth - 1 })
  else none

/-- A step of `Push` or `ClearPending` (Awl/UpdateQueue.h:54-82). -/
def stepFrame (s : Sys U) (t : Nat) (throws : Bool) (f : Frame U) (fs : List (Frame U)) : Out U :=
  match f with
  | .pushLock u =>
    match s.lock t with
    | none => .blocked
    | some s => .ok (s.setStack t (.pushTake u :: fs)) []
  | .pushTake u =>
    -- 70-77
    match s.free with
    | [] =>
      if throws then
        -- the copy constructor throws inside the new expression (72), which frees the block
        match s.unlock t with
        | none => .ub
        | some s => .ok (s.setStack t fs) [.pushThrew t]
      else .ok ({ s with next := s.next + 1 }.setStack t (.pushCopy s.next u :: fs)) []
    | m :: free => .ok ({ s with free := free }.setStack t (.pushCopy m u :: fs)) []
  | .pushCopy m u =>
    if throws then
      -- the assignment (79) throws, the exception leaves Push; the lock is released, the message is in no list any more
      match s.unlock t with
      | none => .ub
      | some s => .ok (s.setStack t fs) [.pushThrew t]
    else .ok ({ s with func := fun k => if k = m then some u else s.func k }.setStack t (.pushLink m u :: fs)) []
  | .pushLink m u => .ok ({ s with pending := s.pending ++ [m] }.setStack t (.unlock (some u) :: fs)) [.pushed t u]
  | .clearLock =>
    match s.lock t with
    | none => .blocked
    | some s => .ok (s.setStack t (.clearSplice :: fs)) []
  | .clearSplice =>
    .ok ({ s with free := s.free ++ s.pending, pending := [] }.setStack t (.unlock none :: fs)) [.cleared]
  | .unlock u =>
    match s.unlock t with
    | none => .ub
    | some s => .ok (s.setStack t fs) (match u with | some u => [.returned t u] | none => [])

/-- A step of `ApplyUpdates` (Awl/UpdateQueue.h:85-96, 122-143). -/
def stepPhase (s : Sys U) (throws : Bool) : Out U :=
  match s.phase with
  | .idle => .blocked
  | .prepLock =>
    match s.lock 0 with
    | none => .blocked
    | some s => .ok { s with phase := .prepMove } []
  | .prepMove => .ok { s with rendering := s.pending, pending := [], phase := .prepUnlock } [.batch]
  | .prepUnlock =>
    match s.unlock 0 with
    | none => .ub
    | some s => .ok { s with phase := .at_ 0 } []
  | .at_ i =>
    match s.rendering[i]? with
    | some m =>
      match s.func m with
      | some u => .ok { s with phase := .in_ i } [.applied u]
      | none => .ub   -- calling an empty std::function
    | none => .ok { s with phase := .freeLock false } []
  | .in_ i => if throws then .ok { s with phase := .freeLock true } [.threw] else .ok { s with phase := .at_ (i + 1) } []
  | .freeLock e =>
    match s.lock 0 with
    | none => .blocked
    | some s => .ok { s with phase := .freeAt 0 e } []
  | .freeAt i e =>
    match s.rendering[i]? with
    | some m => .ok { s with func := fun k => if k = m then none else s.func k, phase := .freeIn i e } []
    | none =>
      .ok { s with free := s.free ++ s.rendering, rendering := [], phase := .freeUnlock e } [.finished e]
  | .freeIn i e => if throws then .blocked else .ok { s with phase := .freeAt (i + 1) e } []
  | .freeUnlock _ =>
    match s.unlock 0 with
    | none => .ub
    | some s => .ok { s with phase := .idle } []

/-- One action (Awl/UpdateQueue.h:54-143). -/
def step (s : Sys U) : Act U → Out U
  | .callPush t u => if s.user t then .ok (s.setStack t (.pushLock u :: s.stack t)) [] else .blocked
  | .callClear t => if s.user t then .ok (s.setStack t (.clearLock :: s.stack t)) [] else .blocked
  | .callApply =>
    match s.phase, s.stack 0 with
    | .idle, [] => .ok { s with phase := .prepLock } []
    | _, _ => .blocked
  | .run t throws =>
    match s.stack t with
    | f :: fs => stepFrame s t throws f fs
    | [] => if t = 0 then stepPhase s throws else .blocked

/-- The executions: `Exec s items` says that some interleaving leads from the initial state to `s` with these effects (Awl/UpdateQueue.h:54-143). -/
inductive Exec : Sys U → List (Item U) → Prop where
  | init : Exec Sys.init []
  | step {s s' : Sys U} {items new : List (Item U)} (a : Act U) : Exec s items → step s a = .ok s' new →
      Exec s' (items ++ new)

/-! ## Accesses to shared memory -/

/-- The memory shared between the threads: the three lists with the links of their messages, and the function objects (Awl/UpdateQueue.h:145-155, 25). -/
inductive Loc where
  | pending | free | rendering
  | func (m : Nat)
deriving DecidableEq

/-- What a frame that is on top of the stack accesses in its next step; `true`: writes (Awl/UpdateQueue.h:60, 70-77, 81). -/
def Frame.next : Frame U → List (Loc × Bool)
  | .pushTake _ => [(.free, true)]
  | .pushLink _ _ => [(.pending, true)]
  | .clearSplice => [(.pending, true), (.free, true)]
  | _ => []

/-- What a frame accesses as long as it exists: the function object that is being assigned to (Awl/UpdateQueue.h:79). -/
def Frame.during : Frame U → List (Loc × Bool)
  | .pushCopy m _ => [(.func m, true)]
  | _ => []

/-- The function object of the `i`-th message that is being applied, Awl/UpdateQueue.h:94, 138. -/
def funcAt (s : Sys U) (i : Nat) (w : Bool) : List (Loc × Bool) :=
  match s.rendering[i]? with
  | some m => [(.func m, w)]
  | none => []

/-- What `ApplyUpdates` accesses: in its next step, and as long as it is there (the function object that runs, or is being
released) (Awl/UpdateQueue.h:92-95, 128, 135-142). -/
def phaseUses (s : Sys U) : List (Loc × Bool) :=
  match s.phase with
  | .prepMove => [(.pending, true), (.rendering, true)]
  | .at_ i => (.rendering, false) :: funcAt s i false
  | .in_ i => (.rendering, false) :: funcAt s i false
  | .freeAt i _ => (.rendering, true) :: (.free, true) :: funcAt s i true
  | .freeIn i _ => (.rendering, false) :: funcAt s i true
  | _ => []

/-- Everything thread `t` is accessing or about to access (Awl/UpdateQueue.h:54-143). -/
def uses (s : Sys U) (t : Nat) : List (Loc × Bool) :=
  (match s.stack t with | f :: _ => f.next | [] => []) ++ (s.stack t).flatMap Frame.during ++
    (if t = 0 then phaseUses s else [])

end Verif.UpdateQueue
