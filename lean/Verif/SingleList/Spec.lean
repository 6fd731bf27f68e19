import Verif.SingleList.Model

/-! # What a user of single linked lists sees: each list is a stack of elements -/

namespace Verif.SingleList

/-- The lists that exist with their elements, and the elements that exist; `true`: removed from its list by `clear` or by the end of the list, and not added to a list since. -/
structure Spec where
  lists : Nat → Option (List Nat) := fun _ => none
  elems : Nat → Option Bool := fun _ => none

/-- The element is in a list. -/
def Spec.InList (A : Spec) (a : Nat) : Prop := ∃ s l, A.lists s = some l ∧ a ∈ l

def set {β : Type} (f : Nat → β) (i : Nat) (x : β) : Nat → β := fun j => if j = i then x else f j

def drop (e : Nat → Option Bool) (l : List Nat) : Nat → Option Bool := fun a => if a ∈ l then some true else e a

def Spec.step (A : Spec) : Op → Spec
  | .newList s => { A with lists := set A.lists s (some []) }
  | .delList s => { lists := set A.lists s none, elems := drop A.elems ((A.lists s).getD []) }
  | .newElem a => { A with elems := set A.elems a (some false) }
  | .delElem a => { A with elems := set A.elems a none }
  | .push s a => { lists := set A.lists s (some (a :: (A.lists s).getD [])), elems := set A.elems a (some false) }
  | .pop s => { A with lists := set A.lists s (some ((A.lists s).getD []).tail) }
  | .clear s => { lists := set A.lists s (some []), elems := drop A.elems ((A.lists s).getD []) }

/-- What a call requires: new objects are new, the others exist; an element is in one list at most and is not destroyed in a list; nothing is removed from an empty list. -/
def Spec.Allowed (A : Spec) : Op → Prop
  | .newList s => A.lists s = none ∧ A.elems s = none
  | .delList s => A.lists s ≠ none
  | .newElem a => A.lists a = none ∧ A.elems a = none
  | .delElem a => A.elems a ≠ none ∧ ¬ A.InList a
  | .push s a => A.lists s ≠ none ∧ A.elems a ≠ none ∧ ¬ A.InList a
  | .pop s => ∃ a l, A.lists s = some (a :: l)
  | .clear s => A.lists s ≠ none

def Spec.run (A : Spec) : List Op → Spec
  | [] => A
  | op :: ops => Spec.run (A.step op) ops

def Spec.AllowedAll (A : Spec) : List Op → Prop
  | [] => True
  | op :: ops => A.Allowed op ∧ Spec.AllowedAll (A.step op) ops

end Verif.SingleList
