import Verif.UpdateQueue.Model

/-! # What an update queue does, told from the sequence of visible effects only -/

namespace Verif.UpdateQueue

variable {U : Type}

/-- The updates pushed in the sequence, in order, with the thread. -/
def pushes (items : List (Item U)) : List (Nat × U) :=
  items.filterMap (fun | .pushed t u => some (t, u) | _ => none)

/-- The updates applied in the sequence, in order. -/
def applications (items : List (Item U)) : List U :=
  items.filterMap (fun | .applied u => some u | _ => none)

/-- The updates whose `Push` has returned in thread `t`, in order. -/
def returnsOf (t : Nat) (items : List (Item U)) : List U :=
  items.filterMap (fun | .returned t' u => if t' = t then some u else none | _ => none)

/-- The updates pushed by thread `t`, in order. -/
def pushesOf (t : Nat) (items : List (Item U)) : List U :=
  items.filterMap (fun | .pushed t' u => if t' = t then some u else none | _ => none)

/-- The updates that wait at the end of the sequence: pushed after the last moment at which the pending updates were taken
by `ApplyUpdates` or dropped by `ClearPending`. -/
def waiting1 (w : List (Nat × U)) : Item U → List (Nat × U)
  | .pushed t u => w ++ [(t, u)]
  | .cleared => []
  | .batch => []
  | _ => w

def waiting (items : List (Item U)) : List (Nat × U) := items.foldl waiting1 []

/-- Nothing is dropped in the sequence: no `ClearPending`, no update throws. -/
def NothingDropped (items : List (Item U)) : Prop := Item.cleared ∉ items ∧ Item.threw ∉ items

/-- The sequence lies within one call of `ApplyUpdates`, or between two of them. -/
def OneBatch (items : List (Item U)) : Prop := ∀ x ∈ items, x ≠ Item.batch ∧ ∀ e, x ≠ Item.finished e

/-- A piece of an execution: `Seg s n s'` says that some actions lead from `s` to `s'`, none of which is a call of
`ApplyUpdates`, and `n` of which are steps of `ApplyUpdates` itself (the rest: steps of other threads, and what the updates
do). -/
inductive Seg : Sys U → Nat → Sys U → Prop where
  | refl (s : Sys U) : Seg s 0 s
  | other {s s1 s2 : Sys U} {n : Nat} {items : List (Item U)} (a : Act U) : Seg s n s1 → step s1 a = .ok s2 items →
      (match a with | .callApply => False | .run t _ => t ≠ 0 ∨ s1.stack t ≠ [] | _ => True) → Seg s n s2
  | apply {s s1 s2 : Sys U} {n : Nat} {items : List (Item U)} (throws : Bool) : Seg s n s1 →
      step s1 (.run 0 throws) = .ok s2 items → s1.stack 0 = [] → Seg s (n + 1) s2

/-- No thread is inside a function of the queue. -/
def Quiet (s : Sys U) : Prop := (∀ t, s.stack t = []) ∧ s.phase = .idle

end Verif.UpdateQueue
