import Verif.QuickList.Model

/-!
# What a family of lists is, without links

A state of the specification holds one mathematical list per living list object, and says for every living element
whether it is in a list (`linked`), in no list (`free`) or was dropped by `clear()` or by destroying its list
(`stale`: its link was not reset, the header forbids everything but inserting it again).
-/

namespace Verif.QuickList

inductive ESt where
  /-- no element at this address -/
  | none
  | free
  | linked
  | stale
deriving DecidableEq, Repr

structure Abs where
  lists : Nat → Option (List Nat)
  st : Nat → ESt

namespace Abs

def empty : Abs := { lists := fun _ => Option.none, st := fun _ => .none }

/-- The contents of list `s` become `L`. -/
def setList (σ : Abs) (s : Nat) (L : List Nat) : Abs := { σ with lists := upd σ.lists s (some L) }

/-- There is no list at `s` any more. -/
def dropList (σ : Abs) (s : Nat) : Abs := { σ with lists := upd σ.lists s Option.none }

def setSt (σ : Abs) (a : Nat) (x : ESt) : Abs := { σ with st := upd σ.st a x }

/-- All the elements of `L` become stale. -/
def setStale (σ : Abs) (L : List Nat) : Abs := { σ with st := fun x => if x ∈ L then .stale else σ.st x }

/-- There is an element at `a` and it is in no list. -/
def Avail (σ : Abs) (a : Nat) : Prop := σ.st a = .free ∨ σ.st a = .stale

/-- Nothing lives at `a`. -/
def Unused (σ : Abs) (a : Nat) : Prop := σ.st a = .none ∧ σ.lists a = Option.none

end Abs

open Abs

/-- `SpecStep σ op σ' o`: in state `σ` a program may perform `op`; the state becomes `σ'` and the result is `o`. -/
inductive SpecStep : Abs → Op → Abs → Out → Prop where
  | newElem {σ a} : σ.Unused a → SpecStep σ (.newElem a) (σ.setSt a .free) .unit
  | newList {σ s} : σ.Unused s → SpecStep σ (.newList s) (σ.setList s []) .unit
  | destroyList {σ s L} : σ.lists s = some L →
      SpecStep σ (.destroyList s) ((σ.dropList s).setStale L) .unit
  | destroyFree {σ a} : σ.st a = .free → SpecStep σ (.destroyElem a) (σ.setSt a .none) .unit
  | destroyLinked {σ s X a Y} : σ.lists s = some (X ++ a :: Y) →
      SpecStep σ (.destroyElem a) ((σ.setList s (X ++ Y)).setSt a .none) .unit
  | pushFront {σ s L a} : σ.lists s = some L → σ.Avail a →
      SpecStep σ (.pushFront s a) ((σ.setList s (a :: L)).setSt a .linked) .unit
  | pushBack {σ s L a} : σ.lists s = some L → σ.Avail a →
      SpecStep σ (.pushBack s a) ((σ.setList s (L ++ [a])).setSt a .linked) .unit
  | popFront {σ s a L} : σ.lists s = some (a :: L) →
      SpecStep σ (.popFront s) ((σ.setList s L).setSt a .free) (.elem a)
  | popBack {σ s L a} : σ.lists s = some (L ++ [a]) →
      SpecStep σ (.popBack s) ((σ.setList s L).setSt a .free) (.elem a)
  | insertIter {σ s X p Y a} : σ.lists s = some (X ++ p :: Y) → σ.Avail a →
      SpecStep σ (.insertIter p a) ((σ.setList s (X ++ p :: a :: Y)).setSt a .linked) .unit
  | insertReverseIter {σ s X p Y a} : σ.lists s = some (X ++ p :: Y) → σ.Avail a →
      SpecStep σ (.insertReverseIter p a) ((σ.setList s (X ++ a :: p :: Y)).setSt a .linked) .unit
  | erase {σ s X a Y} : σ.lists s = some (X ++ a :: Y) →
      SpecStep σ (.erase a) ((σ.setList s (X ++ Y)).setSt a .free) .unit
  | safeExcludeLinked {σ s X a Y} : σ.lists s = some (X ++ a :: Y) →
      SpecStep σ (.safeExclude a) ((σ.setList s (X ++ Y)).setSt a .free) .unit
  | safeExcludeFree {σ a} : σ.st a = .free → SpecStep σ (.safeExclude a) σ .unit
  | includedYes {σ a} : σ.st a = .linked → SpecStep σ (.included a) σ (.bool true)
  | includedNo {σ a} : σ.st a = .free → SpecStep σ (.included a) σ (.bool false)
  | clear {σ s L} : σ.lists s = some L → SpecStep σ (.clear s) ((σ.setList s []).setStale L) .unit
  | spliceFront {σ s t L M} : s ≠ t → σ.lists s = some L → σ.lists t = some M →
      SpecStep σ (.spliceFront s t) ((σ.setList s (M ++ L)).setList t []) .unit
  | spliceBack {σ s t L M} : s ≠ t → σ.lists s = some L → σ.lists t = some M →
      SpecStep σ (.spliceBack s t) ((σ.setList s (L ++ M)).setList t []) .unit
  | moveConstructLinked {σ b s X a Y} : σ.Unused b → σ.lists s = some (X ++ a :: Y) →
      SpecStep σ (.moveConstruct b a) (((σ.setList s (X ++ b :: Y)).setSt a .free).setSt b .linked) .unit
  | moveConstructFree {σ b a} : σ.Unused b → σ.st a = .free →
      SpecStep σ (.moveConstruct b a) (σ.setSt b .free) .unit
  /-- assignment of a linked element to an element in no list -/
  | moveAssignFreeLinked {σ b s X a Y} : σ.st b = .free → σ.lists s = some (X ++ a :: Y) →
      SpecStep σ (.moveAssign b a) (((σ.setList s (X ++ b :: Y)).setSt a .free).setSt b .linked) .unit
  /-- assignment between elements of two lists -/
  | moveAssignTwoLists {σ s t X a Y Z b W} : s ≠ t → σ.lists s = some (X ++ a :: Y) → σ.lists t = some (Z ++ b :: W) →
      SpecStep σ (.moveAssign b a)
        ((((σ.setList t (Z ++ W)).setList s (X ++ b :: Y)).setSt a .free).setSt b .linked) .unit
  /-- assignment within one list, the target comes first -/
  | moveAssignBefore {σ s X b Y a Z} : σ.lists s = some (X ++ b :: (Y ++ a :: Z)) →
      SpecStep σ (.moveAssign b a) (((σ.setList s (X ++ (Y ++ b :: Z))).setSt a .free).setSt b .linked) .unit
  /-- assignment within one list, the source comes first -/
  | moveAssignAfter {σ s X a Y b Z} : σ.lists s = some (X ++ a :: (Y ++ b :: Z)) →
      SpecStep σ (.moveAssign b a) (((σ.setList s (X ++ b :: (Y ++ Z))).setSt a .free).setSt b .linked) .unit
  | moveAssignLinkedFree {σ s X b Y a} : σ.lists s = some (X ++ b :: Y) → σ.st a = .free →
      SpecStep σ (.moveAssign b a) ((σ.setList s (X ++ Y)).setSt b .free) .unit
  | moveAssignFreeFree {σ a b} : σ.st b = .free → σ.st a = .free → SpecStep σ (.moveAssign b a) σ .unit
  | moveConstructList {σ s t L} : σ.Unused s → σ.lists t = some L →
      SpecStep σ (.moveConstructList s t) ((σ.setList s L).setList t []) .unit
  | moveAssignList {σ s t L} : s ≠ t → σ.lists s = some [] → σ.lists t = some L →
      SpecStep σ (.moveAssignList s t) ((σ.setList s L).setList t []) .unit
  | moveAssignListSelf {σ s L} : σ.lists s = some L → SpecStep σ (.moveAssignList s s) σ .unit
  | empty {σ s L} : σ.lists s = some L → SpecStep σ (.empty s) σ (.bool L.isEmpty)

/-- A history the specification allows. -/
inductive SpecRun : Abs → List Op → Abs → List Out → Prop where
  | nil {σ} : SpecRun σ [] σ []
  | cons {σ σ' σ'' op ops o os} : SpecStep σ op σ' o → SpecRun σ' ops σ'' os → SpecRun σ (op :: ops) σ'' (o :: os)

end Verif.QuickList
