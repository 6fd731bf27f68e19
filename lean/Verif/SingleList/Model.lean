import Verif.QuickList.Model

/-!
# Single linked lists: `Awl/SingleLink.h`, `Awl/SingleList.h`, `Awl/SingleIterator.h`

At the level of the links, with the primitives of `Verif/QuickList/Model.lean` (`rd`, `wr`, `insertAfter`, `removeAfter`, `clear`, `empty`, `traverse`).  Lists (their
sentinels `Null`) and elements are addresses.  Reading a null pointer or an object that does not exist, and casting the sentinel to an element, is undefined behaviour;
the assertions are not evaluated (a release build).  `insert(iterator, a)` (`Awl/SingleList.h` 60) does not compile when it is used: an iterator has no `prev`.
-/

namespace Verif.SingleList

open Verif.QuickList (Ptr Links upd rd wr)

/-- Which objects exist, and their `pNext` (SingleLink.h:42). -/
structure St where
  al : Nat → Bool := fun _ => false
  next : Links := fun _ => none

/-- The calls (SingleList.h:28-77, 156-158). -/
inductive Op where
  | newList (s : Nat)        -- single_list(), SingleList.h:156-158
  | delList (s : Nat)        -- ~basic_single_list(), :34
  | newElem (a : Nat)        -- base_single_link(), SingleLink.h:29
  | delElem (a : Nat)        -- no destructor
  | push (s a : Nat)         -- push_front, SingleList.h:62-65
  | pop (s : Nat)            -- pop_front, :67-71
  | clear (s : Nat)          -- :77
deriving Repr, DecidableEq

/-- The cast of a link to an element of the list `s` (SingleList.h:44, 50, 70, SingleIterator.h:75). -/
def cast (s : Nat) : Ptr → Res Nat
  | none => .ub
  | some a => if a = s then .ub else .ok a

/-- `pop_front`, SingleList.h:67-71, 109-115. -/
def popFront (h : St) (s : Nat) : Res (Nat × St) := do
  let r ← rd h.al h.next (some s)
  let m ← Verif.QuickList.Single.removeAfter h.al h.next (some s)
  let a ← cast s r
  return (a, { h with next := m })

/-- `front`, SingleList.h:41-51. -/
def front (h : St) (s : Nat) : Res Nat := do
  let r ← rd h.al h.next (some s)
  cast s r

/-- `empty`, SingleList.h:73. -/
def empty (h : St) (s : Nat) : Res Bool := Verif.QuickList.Single.empty h.al h.next s

/-- `empty_or_contains_one`, SingleList.h:74. -/
def emptyOrOne (h : St) (s : Nat) : Res Bool := do
  let f ← rd h.al h.next (some s)
  let n ← rd h.al h.next f
  return n == some s

/-- `contains_one`, SingleList.h:75. -/
def containsOne (h : St) (s : Nat) : Res Bool := do
  let e ← empty h s
  if !e then emptyOrOne h s else return false

/-- The elements from `begin()` to `end()`, SingleList.h:54-58, SingleIterator.h; `none`: not ended after `fuel` steps. -/
def elements (h : St) (s : Nat) (fuel : Nat) : Res (Option (List Nat)) := do
  let f ← rd h.al h.next (some s)
  Verif.QuickList.Single.traverse h.al h.next s fuel f

/-- `size`, SingleList.h:80-93. -/
def size (h : St) (s : Nat) (fuel : Nat) : Res (Option Nat) := do
  let r ← elements h s fuel
  return r.map List.length

/-- `included`, SingleLink.h:22-25. -/
def included (h : St) (a : Nat) : Res Bool := do
  let n ← rd h.al h.next (some a)
  return n != none

/-- One call (SingleList.h:28-77, 156-158). -/
def step (h : St) : Op → Res St
  | .newList s => .ok ⟨upd h.al s true, upd h.next s (some s)⟩
  | .delList s => .ok { h with al := upd h.al s false }
  | .newElem a => .ok ⟨upd h.al a true, upd h.next a none⟩
  | .delElem a => .ok { h with al := upd h.al a false }
  | .push s a => do
    let m ← Verif.QuickList.Single.insertAfter h.al h.next (some s) (some a)
    return { h with next := m }
  | .pop s => do
    let r ← popFront h s
    return r.2
  | .clear s => do
    let m ← Verif.QuickList.Single.clear h.al h.next s
    return { h with next := m }

/-- A history of calls (SingleList.h:28-77, 156-158). -/
def run (h : St) : List Op → Res St
  | [] => .ok h
  | op :: ops => do
    let h ← step h op
    run h ops

end Verif.SingleList
