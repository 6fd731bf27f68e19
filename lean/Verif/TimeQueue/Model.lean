/-!
# The time queue: `Awl/Testing/TimeQueue.h`

Time is an integer.  `std::priority_queue` is the multiset of its elements and `top`, of which the standard says that no
element is ordered after it; which of several equal elements it is, is left open.
-/

namespace Verif.TimeQueue

/-- `Task` (Awl/Testing/TimeQueue.h:46-50); the handle is a number. -/
structure Task where
  deadline : Int
  handle : Nat
deriving DecidableEq, Repr

/-- `Compare = member_compare<&Task::targetTime>` (Awl/Testing/TimeQueue.h:52). -/
def less (a b : Task) : Bool := decide (a.deadline < b.deadline)

/-- `std::priority_queue::top` (Awl/Testing/TimeQueue.h:29, 54): an element with none ordered after it. -/
structure Queue where
  top : List Task → Option Task
  mem : ∀ l t, top l = some t → t ∈ l
  max : ∀ l t, top l = some t → ∀ x ∈ l, less t x = false
  some : ∀ l, l ≠ [] → top l ≠ none

/-- `push` (Awl/Testing/TimeQueue.h:20-23). -/
def push (q : List Task) (now timeout : Int) (h : Nat) : List Task := ⟨now + timeout, h⟩ :: q

/-- `co_await d` (Awl/Testing/TimeQueue.h:67-77): does the coroutine go on at once; otherwise the queue. -/
def await (q : List Task) (now d : Int) (h : Nat) : Option (List Task) := if d ≤ 0 then none else some (push q now d h)

/-- What the queue does: the clock is read, a coroutine is resumed or the thread sleeps (Awl/Testing/TimeQueue.h:25-42). -/
inductive Event where
  | resumed (t : Task) (now : Int)
  | slept (until' : Int)
deriving DecidableEq, Repr

/-- One turn of `loop` (Awl/Testing/TimeQueue.h:25-42); `now` is the clock reading, `spawn` what the resumed coroutine pushes
(timeouts with the clock reading at the time).  `none`: the queue is empty. -/
def turn (Q : Queue) (q : List Task) (now : Int) (spawn : List Task) : Option (Event × List Task) :=
  match Q.top q with
  | none => none
  | some t =>
    if t.deadline < now then some (.resumed t now, spawn ++ q.erase t)
    else some (.slept t.deadline, q)

/-- Turns of the loop: the clock readings and what the coroutines push (Awl/Testing/TimeQueue.h:25-42). -/
def loop (Q : Queue) : List Task → List (Int × List Task) → List Event × List Task
  | q, [] => ([], q)
  | q, (now, spawn) :: rest =>
    match turn Q q now spawn with
    | none => ([], q)
    | some (e, q') => let r := loop Q q' rest; (e :: r.1, r.2)

end Verif.TimeQueue
