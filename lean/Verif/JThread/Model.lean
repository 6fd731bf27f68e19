import Verif.Common.Res

/-!
# `Extras/JThread/JThreadExtras/jthread.hpp`

`jthread` objects by address, threads by number, one stop state per started thread (the number of the stop state is the number of the thread
that is created together with it).  Any thread may act on any object; objects are not used by two threads at the same time (a user's data
race: the step is refused with `.throw .logic`, as is the use of an object that does not exist).

`std::terminate` is `.ub`.  `std::thread` is a specification: its destructor and its move assignment terminate if the thread is joinable; `join` waits
until the thread has ended and throws (`.throw .general`) if it is not joinable or is the calling thread.  An exception that leaves the destructor or the `noexcept`
move assignment of `jthread` terminates.  The stop state is C56; here it is a flag.
-/

namespace Verif.JThread

/-- `_thread` and `_stopSource`, jthread.hpp:78-79. -/
structure Obj where
  thread : Option Nat
  src : Option Nat
deriving DecidableEq, Repr

/-- What the thread does when `join` returns (jthread.hpp:125-131, 137-139, 146-148). -/
inductive Kont where
  | join
  | dtor
  | assign (from_ : Nat)
deriving DecidableEq, Repr

/-- The objects (jthread.hpp:78-79), the threads and their stop states. -/
structure State where
  objs : Nat → Option Obj
  /-- threads `1 … n` have been started; 0 is the main thread -/
  n : Nat
  ended : Nat → Bool
  stops : Nat → Bool
  /-- inside of `_thread.join()` of an object -/
  pc : Nat → Option (Nat × Kont)
  /-- the threads joined and detached, in order (ghost) -/
  joined : List Nat
  detached : List Nat

/-- No `jthread` (jthread.hpp:78-79) exists, only the main thread runs. -/
def init : State := ⟨fun _ => none, 0, fun _ => false, fun _ => false, fun _ => none, [], []⟩

/-- A changed object or thread (jthread.hpp:78-79). -/
def upd {β : Type} (f : Nat → β) (a : Nat) (b : β) : Nat → β := fun x => if x = a then b else f x

/-- What a thread does with the functions of jthread.hpp:34-69. -/
inductive Act where
  | empty (j : Nat)            -- jthread()
  | start (j : Nat)            -- jthread(cb, args...)
  | moveCtor (j i : Nat)       -- j from i
  | assign (j i : Nat)         -- j = std::move(i)
  | swap (j i : Nat)
  | stop (j : Nat)             -- request_stop
  | join (j : Nat)
  | detach (j : Nat)
  | destroy (j : Nat)
  | wake                       -- `_thread.join()` returns
  | finish                     -- the acting thread ends
deriving DecidableEq, Repr

/-- The object is used by a thread that waits (jthread.hpp:125, 137, 147). -/
def uses (s : State) (a j : Nat) : Prop := (∃ k, s.pc a = some (j, k)) ∨ ∃ i, s.pc a = some (i, .assign j)

/-- Some thread that waits uses the object (jthread.hpp:125, 137, 147). -/
def busy (s : State) (j : Nat) : Bool := (List.range (s.n + 1)).any fun a =>
  match s.pc a with
  | some (i, .assign k) => i == j || k == j
  | some (i, _) => i == j
  | none => false

/-- `_thread = std::move(t._thread); _stopSource = std::move(t._stopSource);`, jthread.hpp:128-129; both assignments are safe for `j = i`. -/
def doAssign (s : State) (j i : Nat) : Res State :=
  match s.objs j, s.objs i with
  | some o, some p =>
    if o.thread.isSome then .ub   -- std::thread::operator= terminates
    else if j = i then .ok s
    else .ok { s with objs := upd (upd s.objs j (some p)) i (some ⟨none, none⟩) }
  | _, _ => .throw .logic

/-- The rest of the destructor: the members are destroyed; `~thread` terminates if joinable (jthread.hpp:139, 78-79). -/
def doDestroy (s : State) (j : Nat) : Res State :=
  match s.objs j with
  | some o => if o.thread.isSome then .ub else .ok { s with objs := upd s.objs j none }
  | none => .throw .logic

/-- `request_stop`, jthread.hpp:67-69: a source without state ignores it. -/
def requestStop (s : State) : Option Nat → State
  | some x => { s with stops := upd s.stops x true }
  | none => s

/-- `_thread.join()` is entered; `own`: outcome if the thread would join itself (jthread.hpp:125, 137, 147). -/
def enterJoin (s : State) (a j : Nat) (o : Obj) (k : Kont) (own : Res State) : Res State :=
  if o.thread = some a then own else .ok { s with pc := upd s.pc a (some (j, k)) }

/-- `_thread.join()` returns: the thread it waits for has ended (jthread.hpp:125-131, 137-139, 147-148). -/
def wake (s : State) (a : Nat) : Res State :=
  match s.pc a with
  | some (j, k) =>
    match s.objs j with
    | some o =>
      match o.thread with
      | some t =>
        if s.ended t then
          let s := { s with objs := upd s.objs j (some { o with thread := none }), pc := upd s.pc a none, joined := s.joined ++ [t] }
          match k with
          | .join => .ok s
          | .dtor => doDestroy s j
          | .assign i => doAssign s j i
        else .throw .logic
      | none => .ub
    | none => .ub
  | none => .throw .logic

/-- The calls of a thread that runs (jthread.hpp:34-69). -/
def call (s : State) (a : Nat) : Act → Res State
  | .empty j => match s.objs j with | none => .ok { s with objs := upd s.objs j (some ⟨none, none⟩) } | some _ => .throw .logic    -- :90-92
  | .start j =>                                                                                                                    -- :94-119
    match s.objs j with
    | none => .ok { s with objs := upd s.objs j (some ⟨some (s.n + 1), some (s.n + 1)⟩), n := s.n + 1 }
    | some _ => .throw .logic
  | .moveCtor j i =>                                                                                                               -- :44
    match s.objs j, s.objs i with
    | none, some p => if busy s i then .throw .logic else .ok { s with objs := upd (upd s.objs j (some p)) i (some ⟨none, none⟩) }
    | _, _ => .throw .logic
  | .assign j i =>                                                                                                                 -- :122-131
    match s.objs j, s.objs i with
    | some o, some _ =>
      if busy s j || busy s i then .throw .logic
      else if o.thread.isSome then enterJoin (requestStop s o.src) a j o (.assign i) .ub
      else doAssign s j i
    | _, _ => .throw .logic
  | .swap j i =>                                                                                                                   -- :166-169
    match s.objs j, s.objs i with
    | some o, some p => if busy s j || busy s i then .throw .logic else .ok { s with objs := upd (upd s.objs j (some p)) i (some o) }
    | _, _ => .throw .logic
  | .stop j => match s.objs j with | some o => if busy s j then .throw .logic else .ok (requestStop s o.src) | none => .throw .logic
  | .join j =>                                                                                                                     -- :146-148
    match s.objs j with
    | some o =>
      if busy s j then .throw .logic
      else if o.thread.isSome then enterJoin s a j o .join (.throw .general) else .throw .general
    | none => .throw .logic
  | .detach j =>                                                                                                                   -- :149-151
    match s.objs j with
    | some o =>
      if busy s j then .throw .logic
      else match o.thread with
        | some t => .ok { s with objs := upd s.objs j (some { o with thread := none }), detached := s.detached ++ [t] }
        | none => .throw .general
    | none => .throw .logic
  | .destroy j =>                                                                                                                  -- :134-139
    match s.objs j with
    | some o =>
      if busy s j then .throw .logic
      else if o.thread.isSome then enterJoin (requestStop s o.src) a j o .dtor .ub
      else doDestroy s j
    | none => .throw .logic
  | .finish => if a = 0 then .throw .logic else .ok { s with ended := upd s.ended a true }
  | .wake => .throw .logic

/-- One step of the thread `a`, which was started, has not ended and does not wait (or is woken up) (jthread.hpp:90-169). -/
def step (s : State) (a : Nat) (x : Act) : Res State :=
  if x = .wake then wake s a
  else if s.n < a ∨ s.ended a = true ∨ (s.pc a).isSome then .throw .logic
  else call s a x

/-- A call that throws (or is refused) leaves the state as it was (jthread.hpp:90-169). -/
def runAll : State → List (Nat × Act) → Res State
  | s, [] => .ok s
  | s, (a, x) :: l =>
    match step s a x with
    | .ok s => runAll s l
    | .throw _ => runAll s l
    | .ub => .ub

end Verif.JThread
