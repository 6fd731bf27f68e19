import Verif.QuickList.IterModel

/-!
# The memory of an update queue: `Awl/UpdateQueue.h` at the level of links, blocks and function objects

`Verif/UpdateQueue` models the threads, and takes the three lists for sequences.  Here the lists are the linked ones of `Verif/QuickList`, so that the destructor can be modelled: it walks over the lists and deletes
the messages it visits, which are still linked (a plain `quick_link` has no destructor, Awl/QuickLink.h:65-66).

Simplifications.  One thread: all the accesses to the lists are ordered by the mutex, or by the thread that applies (C71).  A message is an address; the addresses of the sentinels of `pendingMessages`, `freeBlocks` and
`renderingMessages` (Awl/UpdateQueue.h:148-154) are 0, 1 and 2.  The captures of a `std::function` are an instance number: every copy of a function object makes a new one; only the copies the queue makes are counted.
-/

namespace Verif.QueueMem

open Verif.QuickList (Heap Iter upd)

/-- Where a call of `ApplyUpdates` is (Awl/UpdateQueue.h:85-96, 131-143). -/
inductive Phase where
  /-- the loop, before the comparison with `end()` (92) -/
  | at_ (i : Iter)
  /-- the function of the message `x` runs (94) -/
  | in_ (x : Nat) (i : Iter)
  /-- the loop of `FreeData`, before the comparison with `end()` (135) -/
  | free (i : Iter)
deriving DecidableEq

/-- The queue (Awl/UpdateQueue.h:145-154).  `func a` is the instance the function object of the message at `a` holds (25).  `next` instances have been made so far, `gone` are those destroyed, in order; `calls` are the
calls of `ApplyUpdates` that have not returned, the innermost first. -/
structure Queue where
  h : Heap
  func : Nat → Option Nat
  next : Nat
  gone : List Nat
  calls : List Phase

/-- A new queue: its three lists are constructed (Awl/UpdateQueue.h:148-154, Awl/QuickList.h:59-61). -/
def start : Res Queue := do
  let h ← QuickList.newList ⟨fun _ => false, fun _ => none, fun _ => none⟩ 0
  let h ← QuickList.newList h 1
  let h ← QuickList.newList h 2
  return ⟨h, fun _ => none, 0, [], []⟩

/-- The function object at `a` releases what it holds (Awl/UpdateQueue.h:25, 79, 138). -/
def Queue.drop (q : Queue) (a : Nat) : Queue :=
  { q with func := upd q.func a none, gone := q.gone ++ (q.func a).toList }

/-- The function object at `a`, which holds nothing, gets a copy (Awl/UpdateQueue.h:21, 79). -/
def Queue.copy (q : Queue) (a : Nat) : Queue :=
  { q with func := upd q.func a (some q.next), next := q.next + 1 }

/-- `Push` (Awl/UpdateQueue.h:64-82).  `a` is the address `new` returns if it is called; `t1` and `t2` say whether the copy in line 72 and that in line 79 throw.  In line 72 the new expression frees the memory again.
Line 79 makes the copy before the old value goes (the strong guarantee of `std::function::operator=`). -/
def push (q : Queue) (a : Nat) (t1 t2 : Bool) : Res Queue := do
  let e ← QuickList.isEmpty q.h 1
  if e && t1 then return q else
    let (q, m) ← (if e then do
        let h ← QuickList.newElem q.h a
        return (Queue.copy { q with h := h } a, a)
      else do
        let (h, m) ← QuickList.popFront q.h 1
        return ({ q with h := h }, m))
    if t2 then return q else
      let q := (q.drop m).copy m
      let h ← QuickList.pushBack q.h 0 m
      return { q with h := h }

/-- `ClearPending` (Awl/UpdateQueue.h:54-61). -/
def clearPending (q : Queue) : Res Queue := do
  let h ← QuickList.spliceBack q.h 1 0
  return { q with h := h }

/-- `ApplyUpdates` up to the first comparison: `PrepareData` (Awl/UpdateQueue.h:88, 122-129; 34-38; the assertion of Awl/QuickList.h:84 is not evaluated in release builds). -/
def apply (q : Queue) : Res Queue := do
  let h ← QuickList.moveAssignList q.h 2 0
  let i ← Iter.begin h 2 false
  return { q with h := h, calls := .at_ i :: q.calls }

/-- The innermost call of `ApplyUpdates` goes on (Awl/UpdateQueue.h:92-95, 135-142).  `throws`: the function that runs ends with an exception.  Calling an empty function is an error the model does not go on from. -/
def next (q : Queue) (throws : Bool) : Res Queue :=
  match q.calls with
  | [] => .ok q
  | .at_ i :: cs =>
    if i.eq (Iter.stop 2 false) then do
      let j ← Iter.begin q.h 2 false
      return { q with calls := .free j :: cs }
    else do
      let x ← i.deref
      match q.func x with
      | none => .ub
      | some _ => return { q with calls := .in_ x i :: cs }
  | .in_ _ i :: cs =>
    if throws then do
      let j ← Iter.begin q.h 2 false
      return { q with calls := .free j :: cs }
    else do
      let j ← i.inc q.h
      return { q with calls := .at_ j :: cs }
  | .free i :: cs =>
    if i.eq (Iter.stop 2 false) then do
      let h ← QuickList.spliceBack q.h 1 2
      return { q with h := h, calls := cs }
    else do
      let x ← i.deref
      let q := q.drop x
      let j ← i.inc q.h
      return { q with calls := .free j :: cs }

/-- The calls of the public functions, and the next step of a running `ApplyUpdates` (Awl/UpdateQueue.h:54-96). -/
inductive Op where
  | push (a : Nat) (t1 t2 : Bool)
  | clear
  | apply
  | next (throws : Bool)
deriving DecidableEq

/-- One step (Awl/UpdateQueue.h:54-143). -/
def step (q : Queue) : Op → Res Queue
  | .push a t1 t2 => push q a t1 t2
  | .clear => clearPending q
  | .apply => apply q
  | .next throws => next q throws

/-- A history (Awl/UpdateQueue.h:54-143). -/
def run : Queue → List Op → Res Queue
  | q, [] => .ok q
  | q, op :: ops => do
    let q ← step q op
    run q ops

/-- `delete p` (Awl/UpdateQueue.h:48): the function object of the message and the message end, the links of other messages are not touched. -/
def delete (q : Queue) (p : Nat) : Res Queue := do
  let h ← QuickList.kill q.h p
  return { q.drop p with h := h }

/-- The loop of `~MessageQueue` (Awl/UpdateQueue.h:42-49).  `none`: it has not ended after `fuel` steps. -/
def deleteAll (s : Nat) : Nat → Queue → Iter → Res (Option Queue)
  | 0, _, _ => .ok none
  | fuel + 1, q, i =>
    if i.eq (Iter.stop s false) then .ok (some q)
    else do
      let (i0, j) ← i.postInc q.h
      let x ← i0.deref
      let q ← delete q x
      deleteAll s fuel q j

/-- `~MessageQueue` and the end of the sentinel (Awl/UpdateQueue.h:40-50). -/
def endList (s fuel : Nat) (q : Queue) : Res (Option Queue) := do
  let i ← Iter.begin q.h s false
  let r ← deleteAll s fuel q i
  match r with
  | none => return none
  | some q =>
    let h ← QuickList.kill q.h s
    return some { q with h := h }

/-- The implicit destructor of `UpdateQueue`: the members in the reverse order of their declarations (Awl/UpdateQueue.h:148-154). -/
def destroy (fuel : Nat) (q : Queue) : Res (Option Queue) := do
  let r ← endList 2 fuel q
  match r with
  | none => return none
  | some q =>
    let r ← endList 1 fuel q
    match r with
    | none => return none
    | some q => endList 0 fuel q

end Verif.QueueMem
