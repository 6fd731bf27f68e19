import Verif.VectorSet.CompModel

/-!
# What is expected of sets with orders of their own

A set is an order and the elements, in that order.  What is copied or moved brings its order along.  A set that was moved from is empty and keeps its order (`keeps`), or has
none: then it may be asked whether it is empty, cleared, assigned to and destroyed, and nothing else is expected of it.
-/

namespace Verif.VectorSet.Comp

open Verif.VectorSet
open Verif.VectorSet.Spec (eqv)

variable {γ α : Type}

/-- The order, if it has one, and the elements. -/
abbrev Ideal (α : Type) := Nat → Option (Option (α → α → Bool) × List α)

def Ideal.set (w : Ideal α) (i : Nat) (x : Option (Option (α → α → Bool) × List α)) : Ideal α := fun k => if k = i then x else w k

/-- What may be asked of a set without an order. -/
def bare : Spec.Op α → Res (Spec.Out α)
  | .clear => .ok .unit
  | .size => .ok (.num 0)
  | .empty => .ok (.bool true)
  | _ => .ub

/-- Equivalent at all positions. -/
def same (lt : α → α → Bool) : List α → List α → Bool
  | [], [] => true
  | x :: xs, y :: ys => eqv lt x y && same lt xs ys
  | _, _ => false

/-- `orders` says which order a comparator stands for. -/
def ideal (orders : γ → Option (α → α → Bool)) (keeps : Bool) (w : Ideal α) : COp γ α → Res (Ideal α × Spec.Out α)
  | .new i c =>
    match w i, orders c with
    | none, some lt => .ok (w.set i (some (some lt, [])), .unit)
    | _, _ => .ub
  | .copyNew i j =>
    match w i, w j with
    | none, some x => .ok (w.set i (some x), .unit)
    | _, _ => .ub
  | .moveNew i j =>
    match w i, w j with
    | none, some x => .ok ((w.set i (some x)).set j (some (if keeps then x.1 else none, [])), .unit)
    | _, _ => .ub
  | .copyTo i j =>
    match w i, w j with
    | some _, some x => if i = j then .ub else .ok (w.set i (some x), .unit)
    | _, _ => .ub
  | .moveTo i j =>
    match w i, w j with
    | some _, some x => if i = j then .ub else .ok ((w.set i (some x)).set j (some (if keeps then x.1 else none, [])), .unit)
    | _, _ => .ub
  | .on i op =>
    match w i with
    | some (some lt, S) => do
      let (S', out) ← Spec.step lt S op
      .ok (w.set i (some (some lt, S')), out)
    | some (none, _) => do
      let out ← bare op
      .ok (w, out)
    | none => .ub
  | .equal i j =>
    match w i, w j with
    | some (some lt, S), some (_, T) => .ok (w, .bool (same lt S T))
    | _, _ => .ub
  | .destroy i =>
    match w i with
    | none => .ub
    | some _ => .ok (w.set i none, .unit)

def idealRun (orders : γ → Option (α → α → Bool)) (keeps : Bool) (w : Ideal α) : List (COp γ α) → Res (Ideal α × List (Spec.Out α))
  | [] => .ok (w, [])
  | op :: ops => do
    let (w', o) ← ideal orders keeps w op
    let (w'', os) ← idealRun orders keeps w' ops
    .ok (w'', o :: os)

end Verif.VectorSet.Comp
