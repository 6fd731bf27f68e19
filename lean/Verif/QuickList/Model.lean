import Verif.Common.Res

/-!
# Intrusive double linked lists: `Awl/SingleLink.h`, `Awl/SingleList.h`, `Awl/QuickLink.h`, `Awl/QuickList.h`

The model is at the level of the links.  An object that carries a link (a list element or the sentinel `Null` of a
list) is an address, a `Nat`.  The heap says which objects are alive and holds the `forward_link` and the
`backward_link` of every object.  Following a null pointer or touching an object that is not alive is undefined
behaviour.

Simplifications: an address stands for the link sub-object of one link type (an element that derives from several
links has one address per link); `static_cast` between the link and the enclosing object is the identity.
-/

namespace Verif.QuickList

/-- A pointer to a link; `none` is `nullptr` (Awl/SingleLink.h:42, Awl/QuickLink.h:54). -/
abbrev Ptr := Option Nat

/-- The `pNext` members of one of the two single links (`Awl/SingleLink.h` 18-43) of all the objects. -/
abbrev Links := Nat → Ptr

/-- Functional update (the assignments of Awl/SingleLink.h:37, Awl/QuickLink.h:49). -/
def upd {β : Type} (m : Nat → β) (p : Nat) (v : β) : Nat → β := fun x => if x = p then v else m x

/-- The heap: which objects are alive, their `forward_link`s and their `backward_link`s
(`Awl/QuickLink.h` 16-58: `basic_quick_link` is a `forward_link` and a `backward_link`). -/
structure Heap where
  alive : Nat → Bool
  fwd : Links
  bwd : Links

/-! ## `base_single_link` -/

/-- `p->next()` (`Awl/SingleLink.h` 31-33). -/
def rd (al : Nat → Bool) (m : Links) : Ptr → Res Ptr
  | none => .ub
  | some p => if al p then .ok (m p) else .ub

/-- `p->set_next(v)` (`Awl/SingleLink.h` 35-38). -/
def wr (al : Nat → Bool) (m : Links) (p v : Ptr) : Res Links :=
  match p with
  | none => .ub
  | some p => if al p then .ok (upd m p v) else .ub

/-! ## `single_list`; `s` is the address of the sentinel `null()` -/

namespace Single

/-- `single_list::insert_after(p, a)` (`Awl/SingleList.h` 102-106). -/
def insertAfter (al : Nat → Bool) (m : Links) (p a : Ptr) : Res Links := do
  let n ← rd al m p
  let m ← wr al m a n
  wr al m p a

/-- `single_list::remove_after(p)` (`Awl/SingleList.h` 109-115); the returned pointer is not used by `quick_list`. -/
def removeAfter (al : Nat → Bool) (m : Links) (p : Ptr) : Res Links := do
  let r ← rd al m p
  let n ← rd al m r
  let m ← wr al m p n
  wr al m r none

/-- `single_list::attach(first, last)` (`Awl/SingleList.h` 117-122). -/
def attach (al : Nat → Bool) (m : Links) (s : Nat) (first last : Ptr) : Res Links := do
  let m ← wr al m (some s) first
  wr al m last (some s)

/-- `single_list::push_front(first, last)` (`Awl/SingleList.h` 126-133). -/
def pushFrontRange (al : Nat → Bool) (m : Links) (s : Nat) (first last : Ptr) : Res Links := do
  let oldFirst ← rd al m (some s)
  let m ← wr al m (some s) first
  wr al m last oldFirst

/-- `single_list::push_back(first, last, old_last)` (`Awl/SingleList.h` 135-140). -/
def pushBackRange (al : Nat → Bool) (m : Links) (s : Nat) (first last oldLast : Ptr) : Res Links := do
  let m ← wr al m oldLast first
  wr al m last (some s)

/-- `single_list::clear()` (`Awl/SingleList.h` 77). -/
def clear (al : Nat → Bool) (m : Links) (s : Nat) : Res Links := wr al m (some s) (some s)

/-- `single_list::empty()` (`Awl/SingleList.h` 73). -/
def empty (al : Nat → Bool) (m : Links) (s : Nat) : Res Bool := do
  let f ← rd al m (some s)
  return f == some s

/-- The loop `for (i = begin(); i != end(); ++i)` (`Awl/SingleList.h` 87-90, `Awl/SingleIterator.h`): the addresses of
the objects it visits.  `none` in the outcome means that the loop has not ended after `fuel` steps. -/
def traverse (al : Nat → Bool) (m : Links) (s : Nat) : Nat → Ptr → Res (Option (List Nat))
  | 0, _ => .ok none
  | fuel + 1, i =>
    if i = some s then .ok (some []) else
      match i with
      | none => .ub
      | some x => do
        let n ← rd al m (some x)
        let r ← traverse al m s fuel n
        return r.map (x :: ·)

end Single

/-! ## `basic_quick_link` -/

/-- `included()` (`Awl/QuickLink.h` 79-83). -/
def included (h : Heap) (a : Nat) : Res Bool := do
  let n ← rd h.alive h.fwd (some a)
  return n.isSome

/-- `exclude()` (`Awl/QuickLink.h` 85-92); the assertion is not evaluated in release builds. -/
def exclude (h : Heap) (a : Nat) : Res Heap := do
  let prev ← rd h.alive h.bwd (some a)
  let next ← rd h.alive h.fwd (some a)
  let f ← Single.removeAfter h.alive h.fwd prev
  let b ← Single.removeAfter h.alive h.bwd next
  return { h with fwd := f, bwd := b }

/-- `safe_exclude()` (`Awl/QuickLink.h` 94-100). -/
def safeExclude (h : Heap) (a : Nat) : Res Heap := do
  let inc ← included h a
  if inc then exclude h a else return h

/-- `predecessor()` (`Awl/QuickLink.h` 102-105). -/
def predecessor (h : Heap) (a : Nat) : Res Ptr := rd h.alive h.bwd (some a)

/-- `successor()` (`Awl/QuickLink.h` 107-110). -/
def successor (h : Heap) (a : Nat) : Res Ptr := rd h.alive h.fwd (some a)

/-- `p->insert_after(a)` (`Awl/QuickLink.h` 113-118). -/
def insertAfter (h : Heap) (p a : Nat) : Res Heap := do
  let next ← successor h p
  let f ← Single.insertAfter h.alive h.fwd (some p) (some a)
  let b ← Single.insertAfter h.alive h.bwd next (some a)
  return { h with fwd := f, bwd := b }

/-- `p->insert_before(a)` (`Awl/QuickLink.h` 121-126). -/
def insertBefore (h : Heap) (p a : Nat) : Res Heap := do
  let prev ← predecessor h p
  let f ← Single.insertAfter h.alive h.fwd prev (some a)
  let b ← Single.insertAfter h.alive h.bwd (some p) (some a)
  return { h with fwd := f, bwd := b }

/-! ## `basic_movable_link` -/

/-- `this->reinsert(std::move(other))` (`Awl/QuickLink.h` 182-190). -/
def reinsert (h : Heap) (this other : Nat) : Res Heap := do
  let inc ← included h other
  if inc then
    let prev ← predecessor h other
    let h ← exclude h other
    match prev with
    | none => .ub
    | some p => insertAfter h p this
  else return h

/-- The lifetime of a new element begins at `a`: both its links are null (`Awl/SingleLink.h` 29,
`Awl/QuickLink.h` 130).  Constructing an object over a living one is not modelled: undefined. -/
def newElem (h : Heap) (a : Nat) : Res Heap :=
  if h.alive a then .ub
  else .ok { alive := upd h.alive a true, fwd := upd h.fwd a none, bwd := upd h.bwd a none }

/-- The lifetime of the object at `a` ends without touching other objects (trivial destructor) (Awl/QuickLink.h:67-140 declares none). -/
def kill (h : Heap) (a : Nat) : Res Heap :=
  if h.alive a then .ok { h with alive := upd h.alive a false } else .ub

/-- Move constructor of `basic_movable_link` (`Awl/QuickLink.h` 167-170). -/
def moveConstruct (h : Heap) (this other : Nat) : Res Heap := do
  let h ← newElem h this
  reinsert h this other

/-- Move assignment of `basic_movable_link` (`Awl/QuickLink.h` 172-177). -/
def moveAssign (h : Heap) (this other : Nat) : Res Heap := do
  let h ← safeExclude h this
  reinsert h this other

/-! ## `quick_list`; a list is the address of its sentinel `Null` -/

/-- Constructor (`Awl/QuickList.h` 59-61). -/
def newList (h : Heap) (s : Nat) : Res Heap :=
  if h.alive s then .ub
  else .ok { alive := upd h.alive s true, fwd := upd h.fwd s (some s), bwd := upd h.bwd s (some s) }

/-- `empty()` (`Awl/QuickList.h` 110). -/
def isEmpty (h : Heap) (s : Nat) : Res Bool := Single.empty h.alive h.fwd s

/-- `front()` of a list that is asserted not to be empty (`Awl/QuickList.h` 92, `Awl/SingleList.h` 41-51). -/
def front (h : Heap) (s : Nat) : Res Ptr := rd h.alive h.fwd (some s)

/-- `back()` (`Awl/QuickList.h` 95). -/
def back (h : Heap) (s : Nat) : Res Ptr := rd h.alive h.bwd (some s)

/-- `push_front(a)` (`Awl/QuickList.h` 124). -/
def pushFront (h : Heap) (s a : Nat) : Res Heap := insertAfter h s a

/-- `push_back(a)` (`Awl/QuickList.h` 125). -/
def pushBack (h : Heap) (s a : Nat) : Res Heap := insertBefore h s a

/-- `remove(a)` (`Awl/QuickList.h` 210-214): excludes `a` and returns it. -/
def removeRet (h : Heap) (a : Ptr) : Res (Heap × Nat) :=
  match a with
  | none => .ub
  | some a => do
    let h ← exclude h a
    return (h, a)

/-- `pop_front()` (`Awl/QuickList.h` 127). -/
def popFront (h : Heap) (s : Nat) : Res (Heap × Nat) := do
  let a ← front h s
  removeRet h a

/-- `pop_back()` (`Awl/QuickList.h` 128). -/
def popBack (h : Heap) (s : Nat) : Res (Heap × Nat) := do
  let a ← back h s
  removeRet h a

/-- `clear()` (`Awl/QuickList.h` 162-166): only the sentinel is written. -/
def clear (h : Heap) (s : Nat) : Res Heap := do
  let f ← Single.clear h.alive h.fwd s
  let b ← Single.clear h.alive h.bwd s
  return { h with fwd := f, bwd := b }

/-- `push_front(quick_list & src)` (`Awl/QuickList.h` 130-144); `t` is the source. -/
def spliceFront (h : Heap) (s t : Nat) : Res Heap := do
  let e ← isEmpty h t
  if e then return h else
    let first ← rd h.alive h.fwd (some t)
    let last ← rd h.alive h.bwd (some t)
    let oldLast ← rd h.alive h.fwd (some s)
    let f ← Single.pushFrontRange h.alive h.fwd s first last
    let b ← Single.pushBackRange h.alive h.bwd s last first oldLast
    clear { h with fwd := f, bwd := b } t

/-- `push_back(quick_list & src)` (`Awl/QuickList.h` 146-160). -/
def spliceBack (h : Heap) (s t : Nat) : Res Heap := do
  let e ← isEmpty h t
  if e then return h else
    let first ← rd h.alive h.fwd (some t)
    let last ← rd h.alive h.bwd (some t)
    let oldLast ← rd h.alive h.bwd (some s)
    let f ← Single.pushBackRange h.alive h.fwd s first last oldLast
    let b ← Single.pushFrontRange h.alive h.bwd s last first
    clear { h with fwd := f, bwd := b } t

/-- `attach(src)` (`Awl/QuickList.h` 186-207). -/
def attach (h : Heap) (s t : Nat) : Res Heap := do
  let e ← isEmpty h t
  if e then clear h s else
    let first ← front h t
    let last ← back h t
    let f ← Single.attach h.alive h.fwd s first last
    let b ← Single.attach h.alive h.bwd s last first
    clear { h with fwd := f, bwd := b } t

/-- Move constructor of `quick_list` (`Awl/QuickList.h` 73-76); the links of the new sentinel are null at first. -/
def moveConstructList (h : Heap) (s t : Nat) : Res Heap := do
  let h ← newElem h s
  attach h s t

/-- Move assignment of `quick_list` (`Awl/QuickList.h` 80-89); the assertion is not evaluated in release builds. -/
def moveAssignList (h : Heap) (s t : Nat) : Res Heap :=
  if s ≠ t then attach h s t else .ok h

/-- Forward traversal with `begin()`, `end()` (`Awl/QuickList.h` 98, 101). -/
def forward (h : Heap) (s fuel : Nat) : Res (Option (List Nat)) := do
  let i ← rd h.alive h.fwd (some s)
  Single.traverse h.alive h.fwd s fuel i

/-- Backward traversal with `rbegin()`, `rend()` (`Awl/QuickList.h` 104, 107). -/
def backward (h : Heap) (s fuel : Nat) : Res (Option (List Nat)) := do
  let i ← rd h.alive h.bwd (some s)
  Single.traverse h.alive h.bwd s fuel i

/-- `size()` (`Awl/QuickList.h` 168-171, `Awl/SingleList.h` 80-93). -/
def size (h : Heap) (s fuel : Nat) : Res (Option Nat) := do
  let l ← forward h s fuel
  return l.map List.length

/-! ## Histories -/

/-- The operations a program performs on elements and lists.  `a` is an element, `s` and `t` are lists and `p` is the
element designated by an iterator (Awl/QuickList.h:59-171, Awl/QuickLink.h:79-190). -/
inductive Op where
  | newElem (a : Nat)
  | newList (s : Nat)
  | destroyList (s : Nat)
  | destroyElem (a : Nat)
  | pushFront (s a : Nat)
  | pushBack (s a : Nat)
  | popFront (s : Nat)
  | popBack (s : Nat)
  | insertIter (p a : Nat)
  | insertReverseIter (p a : Nat)
  | erase (a : Nat)
  | safeExclude (a : Nat)
  | included (a : Nat)
  | clear (s : Nat)
  | spliceFront (s t : Nat)
  | spliceBack (s t : Nat)
  | moveConstruct (this other : Nat)
  | moveAssign (this other : Nat)
  | moveConstructList (s t : Nat)
  | moveAssignList (s t : Nat)
  | empty (s : Nat)
deriving DecidableEq, Repr

/-- What an operation returns (Awl/QuickList.h:92-128, 168). -/
inductive Out where
  | unit
  | elem (a : Nat)
  | bool (b : Bool)
deriving DecidableEq, Repr

/-- Effect of an operation.  `destroyElem` is for elements whose destructor takes them out of their list, as `Observer` does:
`safe_exclude` followed by the end of its lifetime (`Awl/Observable.h` 47-50); the links themselves have no destructor
(deleting linked elements: `Verif/QueueMem`); `insert` and `erase` take iterators (`Awl/QuickList.h` 114-122). -/
def step (h : Heap) : Op → Res (Heap × Out)
  | .newElem a => do return (← newElem h a, .unit)
  | .newList s => do return (← newList h s, .unit)
  | .destroyList s => do return (← kill h s, .unit)
  | .destroyElem a => do
    let h ← safeExclude h a
    return (← kill h a, .unit)
  | .pushFront s a => do return (← pushFront h s a, .unit)
  | .pushBack s a => do return (← pushBack h s a, .unit)
  | .popFront s => do
    let (h, a) ← popFront h s
    return (h, .elem a)
  | .popBack s => do
    let (h, a) ← popBack h s
    return (h, .elem a)
  | .insertIter p a => do return (← insertAfter h p a, .unit)
  | .insertReverseIter p a => do return (← insertBefore h p a, .unit)
  | .erase a => do return (← exclude h a, .unit)
  | .safeExclude a => do return (← safeExclude h a, .unit)
  | .included a => do return (h, .bool (← included h a))
  | .clear s => do return (← clear h s, .unit)
  | .spliceFront s t => do return (← spliceFront h s t, .unit)
  | .spliceBack s t => do return (← spliceBack h s t, .unit)
  | .moveConstruct this other => do return (← moveConstruct h this other, .unit)
  | .moveAssign this other => do return (← moveAssign h this other, .unit)
  | .moveConstructList s t => do return (← moveConstructList h s t, .unit)
  | .moveAssignList s t => do return (← moveAssignList h s t, .unit)
  | .empty s => do return (h, .bool (← isEmpty h s))

/-- Effect of a history (of the operations of Awl/QuickList.h and Awl/QuickLink.h). -/
def run (h : Heap) : List Op → Res (Heap × List Out)
  | [] => .ok (h, [])
  | op :: ops => do
    let (h, o) ← step h op
    let (h, os) ← run h ops
    return (h, o :: os)

/-- Before anything is created (the lists of Awl/QuickList.h and their elements). -/
def emptyHeap : Heap := { alive := fun _ => false, fwd := fun _ => none, bwd := fun _ => none }

end Verif.QuickList
