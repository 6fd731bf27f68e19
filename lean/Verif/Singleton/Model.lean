import Verif.Common.Res

/-!
# `Awl/SharedSingleton.h`: `shared_singleton`, `ondemand_singleton`

The function has one static `weak_ptr`.  Instances are numbered as they are created; an instance lives while a `shared_ptr` to it exists (`holders`).
A call has two steps: the test of the `weak_ptr` (with `lock`), and, if an instance must be made, its construction and the assignment of the `weak_ptr`.  The
construction may throw, and does not call the function again.  Threads are named by numbers.
-/

namespace Verif.Singleton

/-- The static `weak_ptr` (SharedSingleton.h:35, 53), the instances and the threads inside of the function. -/
structure State where
  /-- the instance the `weak_ptr` refers to, alive or not; none: never assigned -/
  wp : Option Nat
  created : Nat
  holders : Nat → Nat
  /-- threads that are going to make an instance -/
  making : List Nat

/-- Before the first call (SharedSingleton.h:35, 53). -/
def init : State := ⟨none, 0, fun _ => 0, []⟩

/-- One counter is replaced (the numbers of the `shared_ptr`s, SharedSingleton.h:39, 55). -/
def upd {β : Type} (f : Nat → β) (i : Nat) (v : β) : Nat → β := fun j => if j = i then v else f j

/-- What a call returns (SharedSingleton.h:33, 51). -/
inductive Out where
  | busy                    -- not returned yet
  | ptr (p : Option Nat)    -- a pointer to the instance, or nullptr
  | failed                  -- the constructor threw
deriving DecidableEq, Repr

/-- The steps of the threads (SharedSingleton.h:33-66). -/
inductive Act where
  | enter (t : Nat)               -- the test of the `weak_ptr`
  | make (t : Nat) (ok : Bool)    -- the construction, which throws if not `ok`
  | drop (n : Nat)                -- a `shared_ptr` to the instance `n` is destroyed
deriving DecidableEq, Repr

/-- `make_singleton_instance` and `wp = p`, SharedSingleton.h:39-43, 60-62. -/
def construct (s : State) (t : Nat) (ok : Bool) : State × Out :=
  if ok then ({ s with wp := some s.created, created := s.created + 1, holders := upd s.holders s.created 1, making := s.making.erase t }, .ptr (some s.created))
  else ({ s with making := s.making.erase t }, .failed)

/-- `wp.lock()` for an assigned `weak_ptr` (SharedSingleton.h:46, 55). -/
def lock (s : State) (n : Nat) : State × Option Nat :=
  if s.holders n = 0 then (s, none) else ({ s with holders := upd s.holders n (s.holders n + 1) }, some n)

/-- The first step of `shared_singleton`, SharedSingleton.h:13-18, 33-47: `is_uninitialized` is true only for a `weak_ptr` that was never assigned. -/
def enterShared (s : State) (t : Nat) : State × Out :=
  match s.wp with
  | none => ({ s with making := t :: s.making }, .busy)
  | some n => let r := lock s n; (r.1, .ptr r.2)

/-- The first step of `ondemand_singleton`, SharedSingleton.h:51-66. -/
def enterDemand (s : State) (t : Nat) : State × Out :=
  match s.wp with
  | none => ({ s with making := t :: s.making }, .busy)
  | some n =>
    match lock s n with
    | (_, none) => ({ s with making := t :: s.making }, .busy)
    | (s, some n) => (s, .ptr (some n))

/-- One step of a thread (SharedSingleton.h:33-66); a thread that is inside of a call does not begin another. -/
def step (enter : State → Nat → State × Out) (s : State) : Act → Res (State × Out)
  | .enter t => if t ∈ s.making then .throw .logic else .ok (enter s t)
  | .make t ok => if t ∈ s.making then .ok (construct s t ok) else .throw .logic
  | .drop n => if s.holders n = 0 then .throw .logic else .ok ({ s with holders := upd s.holders n (s.holders n - 1) }, .busy)

/-- All threads; the results of the calls, last first (SharedSingleton.h:33-66). -/
def run (enter : State → Nat → State × Out) : State → List Act → Res (State × List Out)
  | s, [] => .ok (s, [])
  | s, a :: l => step enter s a >>= fun r => run enter r.1 l >>= fun q => .ok (q.1, r.2 :: q.2)

/-- Calls that do not overlap (of SharedSingleton.h:33-66). -/
inductive Call where
  | get (ok : Bool)
  | drop (n : Nat)
deriving DecidableEq, Repr

/-- One call from beginning to end (SharedSingleton.h:33-66). -/
def stepCall (enter : State → Nat → State × Out) (s : State) : Call → Res (State × Out)
  | .get ok =>
    match enter s 0 with
    | (s, .busy) => .ok (construct s 0 ok)
    | r => .ok r
  | .drop n => step enter s (.drop n)

/-- Calls one after the other (SharedSingleton.h:33-66). -/
def runCalls (enter : State → Nat → State × Out) : State → List Call → Res (State × List Out)
  | s, [] => .ok (s, [])
  | s, a :: l => stepCall enter s a >>= fun r => runCalls enter r.1 l >>= fun q => .ok (q.1, r.2 :: q.2)

end Verif.Singleton
