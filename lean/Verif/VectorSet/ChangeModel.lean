import Verif.VectorSet.Spec
import Verif.Compare.Model

/-!
# Changing an element of a `vector_set` through an iterator

The iterators of `vector_set` give references to the elements that may be assigned to (Awl/VectorSet.h:207-208, `T`, not
`const T`); the set does not get to know of it.  `position_changed` (Awl/RangeUtil.h:18-48, `Compare/Model.lean`) tells
the user whether the element has to be moved.
-/

namespace Verif.VectorSet

variable {α : Type}

/-- The element of the node with address `p` becomes `v`, Awl/VectorSet.h:164, 207-208. -/
def Elem.change (p : Nat) (v : α) (e : Elem α) : Elem α := if e.id = p then { e with val := v } else e

/-- The same for all nodes of a tree (Awl/VectorSet.h:105-165). -/
def Tree.change (p : Nat) (v : α) : Tree α → Tree α
  | .nil => .nil
  | .node c n l e r => .node c n (l.change p v) (e.change p v) (r.change p v)

/-- `*it = v`, Awl/VectorSet.h:164, 207-208, for the node with address `p`: the tree and the list have the same nodes. -/
def VSet.change (s : VSet α) (p : Nat) (v : α) : VSet α :=
  { s with root := s.root.change p v, list := s.list.map (Elem.change p v) }

/-- What a program does that changes an element of its set, where `it` is `begin()` advanced `i` times:
`*it = v; if (position_changed(s, comp, it)) { T x = *it; s.erase(it); s.insert(x); }` (Awl/RangeUtil.h:18-48,
Awl/VectorSet.h:517-520, 343-346). -/
def VSet.update (lt : α → α → Bool) (s : VSet α) (i : Nat) (v : α) : Res (VSet α) :=
  match s.list[i]? with
  | none => .ub
  | some e => do
    let s1 := s.change e.id v
    if ← Compare.positionChanged lt s1.forward i then do
      let s2 ← s1.eraseNode e.id
      let (s3, _, _) ← s2.insert lt v
      .ok s3
    else .ok s1

/-- The operations of a set (`Spec.Op`) and changes of elements (Awl/VectorSet.h:207-208). -/
inductive UOp (α : Type) where
  | op (o : Spec.Op α)
  | update (i : Nat) (v : α)

/-- One of them (Awl/VectorSet.h, as in `VSet.step`). -/
def VSet.ustep (lt : α → α → Bool) (s : VSet α) : UOp α → Res (VSet α × Spec.Out α)
  | .op o => s.step lt o
  | .update i v => do .ok (← s.update lt i v, .unit)

/-- A history of them (Awl/VectorSet.h, as in `VSet.run`). -/
def VSet.urun (lt : α → α → Bool) (s : VSet α) : List (UOp α) → Res (VSet α × List (Spec.Out α))
  | [] => .ok (s, [])
  | op :: ops => do
    let (s', o) ← s.ustep lt op
    let (s'', os) ← s'.urun lt ops
    .ok (s'', o :: os)

end Verif.VectorSet

namespace Verif.VectorSet.Spec

variable {α : Type}

/-- The mathematical set: an element that is changed is taken out, and the new value is put in unless there is an
equivalent one. -/
def ustep (lt : α → α → Bool) (S : List α) : UOp α → Res (List α × Out α)
  | .op o => step lt S o
  | .update i v =>
    if i < S.length then
      let R := S.eraseIdx i
      .ok (if R.any (fun a => eqv lt a v) then R else R.filter (fun a => lt a v) ++ v :: R.filter (fun a => lt v a), .unit)
    else .ub

/-- A history and everything it reported. -/
def urun (lt : α → α → Bool) (S : List α) : List (UOp α) → Res (List α × List (Out α))
  | [] => .ok (S, [])
  | op :: ops => do
    let (S', o) ← ustep lt S op
    let (S'', os) ← urun lt S' ops
    .ok (S'', o :: os)

end Verif.VectorSet.Spec
