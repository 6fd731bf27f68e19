import Verif.ForeignSet.Model
import Verif.ObservableSet.MirrorsModel

/-!
# Programs with several sets and several `foreign_set`s: `Awl/ForeignSet.h`, `Awl/ObservableSet.h`

A `foreign_set` has no destructor, copy or move operations of its own, so that its move operations are the implicit ones (an `Observer` cannot be copied): they move the base `Observer`, that is, the place in
the list of the source, the groups with their subscribers, and the two key getters.  A getter may be a `std::function`, which is empty after it was moved from; then the
`foreign_set` that was moved from cannot handle any event, since each handler begins with a call of a getter.

Simplifications: those of `Verif.ForeignSet.Model`; the `foreign_set`s have no subscribers of their own (C21 and C149 are about those), all of them have the same getters, and all the
sets the same order; if a handler throws, the state is lost (C149 is about that).
-/

namespace Verif.ForeignSet

open Verif.VectorSet
open Verif.ObservableSet

variable {α κ φ : Type}

/-- A `foreign_set` apart from its place in the list of a source (Awl/ForeignSet.h:230-233): its groups, and whether its getters were lost. -/
structure View (α : Type) where
  groups : List (OSet α)
  bare : Bool

/-- The sets and the `foreign_set`s that exist (objects of Awl/ObservableSet.h:22-332 and Awl/ForeignSet.h:17-234). -/
structure FState (α : Type) where
  sets : State α
  views : Nat → Option (View α)

/-- One of them is replaced (a notion of the model; objects of Awl/ForeignSet.h:17-234). -/
def setView (vs : Nat → Option (View α)) (k : Nat) (v : Option (View α)) : Nat → Option (View α) := fun l => if l = k then v else vs l

/-- The handlers (Awl/ForeignSet.h:173-228).  `OnAdded` and `OnRemoving` begin with the getter of the foreign key (177, 200), `OnClearing` calls none. -/
def View.on (K : Keys α κ φ) (v : View α) (e : Event α) : Res (View α) :=
  match e, v.bare with
  | .clearing, _ => do
    let (gs, _) ← foreignOn K v.groups .clearing
    .ok ⟨gs, v.bare⟩
  | _, true => .throw .general
  | e, false => do
    let (gs, _) ← foreignOn K v.groups e
    .ok ⟨gs, false⟩

/-- The calls that a set makes (Awl/Observable.h:111-117); an object that does not exist cannot be called. -/
def deliver (K : Keys α κ φ) : List (Note α) → (Nat → Option (View α)) → Res (Nat → Option (View α))
  | [], vs => .ok vs
  | n :: ns, vs =>
    match vs n.observer with
    | none => .ub
    | some v => do
      let v' ← v.on K n.event
      deliver K ns (setView vs n.observer (some v'))

/-- The operations of a program (Awl/ForeignSet.h:70-87, the implicit ones, and Awl/ObservableSet.h:49-287). -/
inductive FOp (α : Type) where
  | source (op : Op α)
  | newView (k : Nat)
  | newFrom (k i : Nat)
  | moveView (k l : Nat)
  | assignView (k l : Nat)
  | destroyView (k : Nat)
  /-- `UnsubscribeSelf`, a public member of the base class -/
  | detach (k : Nat)
  /-- `Subscribe` of the set, with a `foreign_set` as the observer -/
  | join (k i : Nat)

/-- One operation.  `lossy`: the getters are empty after a move.  `source` is anything but subscribing and unsubscribing (Awl/ForeignSet.h:17-87, Awl/ObservableSet.h:49-287). -/
def FState.step (K : Keys α κ φ) (lossy : Bool) (lt : α → α → Bool) (st : FState α) : FOp α → Res (FState α)
  | .source op =>
    match op with
    | .subscribe _ _ => .ub
    | .unsubscribe _ _ => .ub
    | op => do
      let (s, _, items) ← st.sets.step lt op
      let vs ← deliver K (notesOf items) st.views
      .ok ⟨s, vs⟩
  | .newView k =>
    -- 70-74
    match st.views k with
    | some _ => .ub
    | none => .ok ⟨st.sets, setView st.views k (some ⟨[], false⟩)⟩
  | .newFrom k i =>
    -- 77-87
    match st.views k, st.sets.sets i with
    | none, some o => do
      let gs ← attach K o.set.forward
      let (s, _, _) ← st.sets.step lt (.subscribe i k)
      .ok ⟨s, setView st.views k (some ⟨gs, false⟩)⟩
    | _, _ => .ub
  | .moveView k l =>
    match st.views k, st.views l with
    | none, some v => .ok ⟨st.sets.takePlace k l, setView (setView st.views k (some v)) l (some ⟨[], lossy || v.bare⟩)⟩
    | _, _ => .ub
  | .assignView k l =>
    match st.views k, st.views l with
    | some _, some v =>
      -- Awl/Observable.h:23-27, Awl/ObservableSet.h:79-90, Awl/VectorSet.h:287-297: an object assigned to itself is emptied and is subscribed to nothing
      if k = l then .ok ⟨st.sets.leave k, setView st.views k (some ⟨[], lossy || v.bare⟩)⟩
      else .ok ⟨(st.sets.leave k).takePlace k l, setView (setView st.views k (some v)) l (some ⟨[], lossy || v.bare⟩)⟩
    | _, _ => .ub
  | .destroyView k =>
    -- Awl/Observable.h:47-50
    match st.views k with
    | none => .ub
    | some _ => .ok ⟨st.sets.leave k, setView st.views k none⟩
  | .detach k =>
    -- Awl/Observable.h:34-37
    match st.views k with
    | none => .ub
    | some _ => if st.sets.subscribed k then .ok ⟨st.sets.leave k, st.views⟩ else .ub
  | .join k i =>
    -- Awl/Observable.h:84-87
    match st.views k, st.sets.sets i with
    | some _, some _ => do
      let (s, _, _) ← st.sets.step lt (.subscribe i k)
      .ok ⟨s, st.views⟩
    | _, _ => .ub

/-- A history (Awl/ForeignSet.h:17-87, Awl/ObservableSet.h:49-287). -/
def FState.run (K : Keys α κ φ) (lossy : Bool) (lt : α → α → Bool) (st : FState α) : List (FOp α) → Res (FState α)
  | [] => .ok st
  | op :: ops => do
    let st' ← st.step K lossy lt op
    st'.run K lossy lt ops

/-- Before any object is constructed (Awl/ForeignSet.h:70, Awl/ObservableSet.h:49). -/
def FState.init : FState α := ⟨State.init, fun _ => none⟩

end Verif.ForeignSet
