import Verif.ObservableSet.Model

/-!
# What the notifications of a set mean

An observer keeps its own idea of the contents: a plain mathematical set, `α → Prop`.  Nothing here mentions trees,
sequences of subscribers or the order of the elements.
-/

namespace Verif.ObservableSet

open Verif.VectorSet (Spec.eqv)
open Verif.VectorSet.Spec (eqv)

variable {α : Type}

/-- The contents after an event. -/
def applyEvent (S : α → Prop) : Event α → (α → Prop)
  | .added v => fun a => S a ∨ a = v
  | .removing v => fun a => S a ∧ a ≠ v
  | .clearing => fun _ => False

/-- The event makes sense for these contents: only a key that is not there is added, only an element that is there is
removed. -/
def Valid (lt : α → α → Bool) (S : α → Prop) : Event α → Prop
  | .added v => ∀ a, S a → eqv lt a v = false
  | .removing v => S v
  | .clearing => True

/-- The events make sense one after another and lead from the contents `S` to the contents `T`. -/
def Replays (lt : α → α → Bool) (S : α → Prop) : List (Event α) → (α → Prop) → Prop
  | [], T => ∀ a, S a ↔ T a
  | e :: es, T => Valid lt S e ∧ Replays lt (applyEvent S e) es T

/-- The event tells of a change: an element that is there now was added, one that is still there is going to be removed, a set that is not empty is going to be cleared. -/
def Tells (n : Note α) : Prop :=
  match n.event with
  | .added v => v ∈ n.seen
  | .removing v => v ∈ n.seen
  | .clearing => n.seen ≠ []

/-- The events that observer `a` received. -/
def eventsOf (a : Nat) (notes : List (Note α)) : List (Event α) :=
  notes.filterMap (fun n => if n.observer = a then some n.event else none)

/-- What observer `a` knows: the contents shown when it was last subscribed and the events received since. -/
def knows1 (a : Nat) (k : Option (List α × List (Event α))) : Item α → Option (List α × List (Event α))
  | .started b S => if b = a then some (S, []) else k
  | .note n => if n.observer = a then k.map (fun p => (p.1, p.2 ++ [n.event])) else k

def knows (a : Nat) (items : List (Item α)) : Option (List α × List (Event α)) := items.foldl (knows1 a) none

/-- The events that an operation on a set with contents `S` has to send, each with the contents that the observer sees:
after an insertion, before a removal. -/
def expected (lt : α → α → Bool) (S S' : List α) : VectorSet.Spec.Op α → List (Event α × List α)
  | .insert v => if S.any (fun a => eqv lt a v) then [] else [(.added v, S')]
  | .eraseKey k => match S.find? (fun a => eqv lt a k) with
    | some x => [(.removing x, S)]
    | none => []
  | .eraseAt i => match S[i]? with
    | some x => [(.removing x, S)]
    | none => []
  | .clear => if S.isEmpty then [] else [(.clearing, S)]
  | _ => []

end Verif.ObservableSet
