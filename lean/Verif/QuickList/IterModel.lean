import Verif.QuickList.Model

/-!
# The iterators of `quick_list`: `Awl/DoubleIterator.h`

An iterator is a pointer to a link.  Simplification: `*i` is `static_cast<T *>` of that pointer (104-107), so it is the address itself; for `end()` the cast is undefined (the comment in line
39 says so), and the model only casts pointers that were compared with `end()` before.
-/

namespace Verif.QuickList

/-- `double_iterator` (Awl/DoubleIterator.h:13-15, 127).  `back` tells the `reverse_iterator`s, whose forward link is the backward link of the list (Awl/QuickList.h:52-56). -/
structure Iter where
  at_ : Ptr
  back : Bool
deriving DecidableEq, Repr

/-- `begin()` and `rbegin()` (Awl/QuickList.h:98, 104; Awl/SingleList.h:54-55). -/
def Iter.begin (h : Heap) (s : Nat) (back : Bool) : Res Iter := do
  let p ← rd h.alive (if back then h.bwd else h.fwd) (some s)
  return ⟨p, back⟩

/-- `end()` and `rend()` (Awl/QuickList.h:101, 107; Awl/SingleList.h:57-58). -/
def Iter.stop (s : Nat) (back : Bool) : Iter := ⟨some s, back⟩

/-- The iterator at an element (Awl/DoubleIterator.h:37). -/
def Iter.ofElem (a : Nat) (back : Bool) : Iter := ⟨some a, back⟩

/-- `++i` (Awl/DoubleIterator.h:48-53, 109-116). -/
def Iter.inc (h : Heap) (i : Iter) : Res Iter := do
  let p ← rd h.alive (if i.back then h.bwd else h.fwd) i.at_
  return ⟨p, i.back⟩

/-- `i++` (Awl/DoubleIterator.h:55-62): the iterator before and after. -/
def Iter.postInc (h : Heap) (i : Iter) : Res (Iter × Iter) := do
  let j ← i.inc h
  return (i, j)

/-- `--i` (Awl/DoubleIterator.h:64-69, 118-125). -/
def Iter.dec (h : Heap) (i : Iter) : Res Iter := do
  let p ← rd h.alive (if i.back then h.fwd else h.bwd) i.at_
  return ⟨p, i.back⟩

/-- `*i` (Awl/DoubleIterator.h:46, 104-107).  A null pointer is of no use. -/
def Iter.deref (i : Iter) : Res Nat :=
  match i.at_ with
  | none => .ub
  | some p => .ok p

/-- `i == j` (Awl/DoubleIterator.h:80-83). -/
def Iter.eq (i j : Iter) : Bool := i.at_ == j.at_

/-- The loop `for (i = …; i != end(); ) { T * p = *(i++); body(p); }`, as in Awl/Observable.h:111-117.  The body is a sequence of operations that depends on the element and on those visited before.
The result are the elements visited; `none` means that the loop has not ended after `fuel` steps. -/
def walk (body : List Nat → Nat → List Op) (s : Nat) : Nat → Heap → Iter → List Nat → Res (Option (Heap × List Nat))
  | 0, _, _, _ => .ok none
  | fuel + 1, h, i, vis =>
    if i.eq (Iter.stop s i.back) then .ok (some (h, vis))
    else do
      let (i0, j) ← i.postInc h
      let x ← i0.deref
      let (h, _) ← run h (body vis x)
      walk body s fuel h j (vis ++ [x])

/-- The loop `for (i = …; i != end(); ++i) body(*i);`, which advances after the body (Awl/DoubleIterator.h:48-53). -/
def walkLate (body : List Nat → Nat → List Op) (s : Nat) : Nat → Heap → Iter → List Nat → Res (Option (Heap × List Nat))
  | 0, _, _, _ => .ok none
  | fuel + 1, h, i, vis =>
    if i.eq (Iter.stop s i.back) then .ok (some (h, vis))
    else do
      let x ← i.deref
      let (h, _) ← run h (body vis x)
      let j ← i.inc h
      walkLate body s fuel h j (vis ++ [x])

end Verif.QuickList
