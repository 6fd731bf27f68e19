import Verif.Observable.Model

/-! # Subscriptions without links -/

namespace Verif.Observable

open Verif.QuickList

/-- All the observers in `L` become unsubscribed. -/
def setFree (σ : Abs) (L : List Nat) : Abs := { σ with st := fun x => if x ∈ L then .free else σ.st x }

/-- What each operation means: `lists s` are the observers subscribed to `s` in the order of subscription, `st a` says
whether there is an observer at `a` and whether it is subscribed. -/
inductive OSpecStep : Abs → OOp → Abs → Out → Prop where
  | newObserver {σ a} : σ.Unused a → OSpecStep σ (.newObserver a) (σ.setSt a .free) .unit
  | newObservable {σ s} : σ.Unused s → OSpecStep σ (.newObservable s) (σ.setList s []) .unit
  | subscribe {σ s L a} : σ.lists s = some L → σ.st a = .free →
      OSpecStep σ (.subscribe s a) ((σ.setList s (L ++ [a])).setSt a .linked) .unit
  | unsubscribe {σ s X a Y} : σ.lists s = some (X ++ a :: Y) →
      OSpecStep σ (.unsubscribe a) ((σ.setList s (X ++ Y)).setSt a .free) .unit
  | unsubscribeSafeYes {σ s X a Y} : σ.lists s = some (X ++ a :: Y) →
      OSpecStep σ (.unsubscribeSafe a) ((σ.setList s (X ++ Y)).setSt a .free) .unit
  | unsubscribeSafeNo {σ a} : σ.st a = .free → OSpecStep σ (.unsubscribeSafe a) σ .unit
  | isSubscribedYes {σ a} : σ.st a = .linked → OSpecStep σ (.isSubscribed a) σ (.bool true)
  | isSubscribedNo {σ a} : σ.st a = .free → OSpecStep σ (.isSubscribed a) σ (.bool false)
  | destroyObserverYes {σ s X a Y} : σ.lists s = some (X ++ a :: Y) →
      OSpecStep σ (.destroyObserver a) ((σ.setList s (X ++ Y)).setSt a .none) .unit
  | destroyObserverNo {σ a} : σ.st a = .free → OSpecStep σ (.destroyObserver a) (σ.setSt a .none) .unit
  | destroyObservable {σ s L} : σ.lists s = some L →
      OSpecStep σ (.destroyObservable s) (setFree (σ.dropList s) L) .unit
  /-- a new observer takes over the subscription -/
  | moveConstructYes {σ b s X a Y} : σ.Unused b → σ.lists s = some (X ++ a :: Y) →
      OSpecStep σ (.moveConstructObserver b a) (((σ.setList s (X ++ b :: Y)).setSt a .free).setSt b .linked) .unit
  | moveConstructNo {σ b a} : σ.Unused b → σ.st a = .free →
      OSpecStep σ (.moveConstructObserver b a) (σ.setSt b .free) .unit
  /-- assignment to an observer that is not subscribed -/
  | moveAssignYes {σ b s X a Y} : σ.st b = .free → σ.lists s = some (X ++ a :: Y) →
      OSpecStep σ (.moveAssignObserver b a) (((σ.setList s (X ++ b :: Y)).setSt a .free).setSt b .linked) .unit
  /-- assignment to an observer of another observable -/
  | moveAssignTwo {σ s t X a Y Z b W} : s ≠ t → σ.lists s = some (X ++ a :: Y) → σ.lists t = some (Z ++ b :: W) →
      OSpecStep σ (.moveAssignObserver b a)
        ((((σ.setList t (Z ++ W)).setList s (X ++ b :: Y)).setSt a .free).setSt b .linked) .unit
  | moveAssignNo {σ a b} : σ.st b = .free → σ.st a = .free → OSpecStep σ (.moveAssignObserver b a) σ .unit
  | moveAssignDrop {σ s X b Y a} : σ.lists s = some (X ++ b :: Y) → σ.st a = .free →
      OSpecStep σ (.moveAssignObserver b a) ((σ.setList s (X ++ Y)).setSt b .free) .unit
  | moveConstructObservable {σ s t L} : σ.Unused s → σ.lists t = some L →
      OSpecStep σ (.moveConstructObservable s t) ((σ.setList s L).setList t []) .unit
  | moveAssignObservable {σ s t L M} : s ≠ t → σ.lists s = some L → σ.lists t = some M →
      OSpecStep σ (.moveAssignObservable s t) ((setFree (σ.setList s M) L).setList t []) .unit

inductive OSpecRun : Abs → List OOp → Abs → List Out → Prop where
  | nil {σ} : OSpecRun σ [] σ []
  | cons {σ σ' σ'' op ops o os} : OSpecStep σ op σ' o → OSpecRun σ' ops σ'' os → OSpecRun σ (op :: ops) σ'' (o :: os)

end Verif.Observable
