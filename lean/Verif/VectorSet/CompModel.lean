import Verif.VectorSet.Spec

/-!
# Sets with their comparators: `Awl/VectorSet.h` 222-318

Every set has a comparator object of its own (1207), which is copied, moved and assigned along with the elements.  Two sets of the same type may have different
orders.

Simplification: an exception loses the state; allocators are not modelled (C131).
-/

namespace Verif.VectorSet.Comp

open Verif.VectorSet

variable {γ α : Type}

/-- The type of the comparators (Awl/VectorSet.h:1207): the order that a comparator object computes, if calling it does not throw (as calling an empty `std::function` does), and what is left
of an object when it is moved from. -/
structure Comparators (γ α : Type) where
  order : γ → Option (α → α → Bool)
  moved : γ → γ

/-- The sets that exist, each with its comparator (`m_comp`, `m_root`, `m_list`, Awl/VectorSet.h:1207-1211). -/
abbrev World (γ α : Type) := Nat → Option (γ × VSet α)

/-- One set is replaced (objects of Awl/VectorSet.h:222-297). -/
def World.set (w : World γ α) (i : Nat) (x : Option (γ × VSet α)) : World γ α := fun k => if k = i then x else w k

/-- Whether the operation calls the comparator if there is something to compare with (Awl/VectorSet.h:621, 679). -/
def compares : Spec.Op α → Bool
  | .eraseAt _ => false
  | .clear => false
  | .size => false
  | .empty => false
  | _ => true

/-- An operation of a set with its comparator (Awl/VectorSet.h:343-548); in an empty set nothing is compared (Awl/VectorSet.h:617, 675). -/
def onSet (K : Comparators γ α) (c : γ) (s : VSet α) (op : Spec.Op α) : Res (VSet α × Spec.Out α) :=
  match K.order c with
  | some lt => s.step lt op
  | none => if compares op && !s.isEmpty then .throw (.user 0) else s.step (fun _ _ => false) op

/-- `CopyElements` (Awl/VectorSet.h:1191-1197) with the comparator `c`. -/
def copyElements (K : Comparators γ α) (c : γ) (s : VSet α) (vs : List α) : Res (VSet α) :=
  match K.order c with
  | some lt => s.insertAll lt vs
  | none => if vs.length < 2 then s.insertAll (fun _ _ => false) vs else .throw (.user 0)

/-- The operations of a program (Awl/VectorSet.h:222-318, 343-548). -/
inductive COp (γ α : Type) where
  | new (i : Nat) (c : γ)
  | copyNew (i j : Nat)
  | moveNew (i j : Nat)
  | copyTo (i j : Nat)
  | moveTo (i j : Nat)
  | on (i : Nat) (op : Spec.Op α)
  | equal (i j : Nat)
  | destroy (i : Nat)

/-- One operation.  Assigning a set to itself is the subject of C11, and left out here (Awl/VectorSet.h:222-318). -/
def step (K : Comparators γ α) (w : World γ α) : COp γ α → Res (World γ α × Spec.Out α)
  | .new i c =>
    -- 226-229
    match w i with
    | some _ => .ub
    | none => .ok (w.set i (some (c, VSet.empty)), .unit)
  | .copyNew i j =>
    -- 231-234
    match w i, w j with
    | none, some (c, s) => do
      let s' ← copyElements K c VSet.empty s.forward
      .ok (w.set i (some (c, s')), .unit)
    | _, _ => .ub
  | .moveNew i j =>
    -- 236-240
    match w i, w j with
    | none, some (c, s) =>
      let m := VSet.empty.moveAssign s
      .ok ((w.set i (some (c, m.1))).set j (some (K.moved c, m.2)), .unit)
    | _, _ => .ub
  | .copyTo i j =>
    -- 278-285
    match w i, w j with
    | some (_, t), some (c, s) =>
      if i = j then .ub
      else do
        let s' ← copyElements K c t.clear s.forward
        .ok (w.set i (some (c, s')), .unit)
    | _, _ => .ub
  | .moveTo i j =>
    -- 287-297
    match w i, w j with
    | some (_, t), some (c, s) =>
      if i = j then .ub
      else
        let m := t.moveAssign s
        .ok ((w.set i (some (c, m.1))).set j (some (K.moved c, m.2)), .unit)
    | _, _ => .ub
  | .on i op =>
    match w i with
    | none => .ub
    | some (c, s) => do
      let (s', out) ← onSet K c s op
      .ok (w.set i (some (c, s')), out)
  | .equal i j =>
    -- 299-318, the comparator is that of the left one
    match w i, w j with
    | some (c, s), some (_, t) => do
      let b ← (match K.order c with
        | some lt => s.eq lt t
        | none => if s.size = t.size ∧ s.size ≠ 0 then .throw (.user 0) else .ok (s.size == t.size))
      .ok (w, .bool b)
    | _, _ => .ub
  | .destroy i =>
    match w i with
    | none => .ub
    | some _ => .ok (w.set i none, .unit)

/-- A history and everything it reports (Awl/VectorSet.h:222-548). -/
def run (K : Comparators γ α) (w : World γ α) : List (COp γ α) → Res (World γ α × List (Spec.Out α))
  | [] => .ok (w, [])
  | op :: ops => do
    let (w', o) ← step K w op
    let (w'', os) ← run K w' ops
    .ok (w'', o :: os)

end Verif.VectorSet.Comp
