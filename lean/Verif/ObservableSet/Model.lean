import Verif.VectorSet.Spec

/-!
# `Awl/ObservableSet.h`, `Awl/MirrorSet.h`

An `observable_set` is a `vector_set` (the red-black tree model of `Verif/VectorSet/Model.lean`) together with the list of
its subscribers.  The subscribers of this model only watch: their callbacks do not touch the set or the subscriptions
(what `Observable::Notify` does with other callbacks is C16, C17).  `Notify` calls each subscriber once in the order of
subscription (C16).
-/

namespace Verif.ObservableSet

open Verif.VectorSet

variable {α : Type}

/-- A call of the interface `INotifySetChanged` (`Awl/ObservableSet.h` 15-20). -/
inductive Event (α : Type) where
  | added (v : α)
  | removing (v : α)
  | clearing
deriving DecidableEq

/-- A call as an observer experiences it: who is called, with what, and what a pass over the notifying set from inside of
the callback shows (Awl/ObservableSet.h:15-20, 305, 311, 316, 326; what is seen is a pass over the set, 131-135). -/
structure Note (α : Type) where
  observer : Nat
  event : Event α
  seen : List α

/-- `Awl/ObservableSet.h` 329-331: the set and the observable (the subscribers in order of subscription). -/
structure OSet (α : Type) where
  set : VSet α
  subs : List Nat

/-- `m_observable.Notify(...)` (`Awl/ObservableSet.h` 301-327) while the set is `o`. -/
def notify (o : OSet α) (e : Event α) : List (Note α) := o.subs.map (fun a => ⟨a, e, o.set.forward⟩)

/-- The default constructor (49) (Awl/ObservableSet.h). -/
def OSet.empty : OSet α := ⟨VSet.empty, []⟩

/-- `insert` (143-155); `emplace` (157-163) forwards to the same `insert` (Awl/ObservableSet.h). -/
def OSet.insert (lt : α → α → Bool) (o : OSet α) (v : α) : Res (OSet α × Spec.Out α × List (Note α)) := do
  let (s, e, isNew) ← o.set.insert lt v
  let o' := { o with set := s }
  .ok (o', .inserted e.val isNew, if isNew then notify o' (.added e.val) else [])

/-- `erase(iterator)` (244-248): the iterator designates the node `e` (Awl/ObservableSet.h). -/
def OSet.eraseIter (o : OSet α) (e : Elem α) : Res (OSet α × List (Note α)) := do
  let notes := notify o (.removing e.val)
  let s ← o.set.eraseNode e.id
  .ok ({ o with set := s }, notes)

/-- `erase(key)` (250-262) (Awl/ObservableSet.h). -/
def OSet.eraseKey (lt : α → α → Bool) (o : OSet α) (k : α) : Res (OSet α × Spec.Out α × List (Note α)) := do
  match ← o.set.find (lt k) (fun a => lt a k) with
  | some e => do
    let (o', notes) ← o.eraseIter e
    .ok (o', .num 1, notes)
  | none => .ok (o, .num 0, [])

/-- `clear` (264-271) (Awl/ObservableSet.h). -/
def OSet.clear (o : OSet α) : OSet α × List (Note α) :=
  if !o.set.isEmpty then ({ o with set := o.set.clear }, notify o .clearing) else (o, [])

/-- The operations on one set; the queries (165-241) go to the inner set (Awl/ObservableSet.h). -/
def OSet.step (lt : α → α → Bool) (o : OSet α) : Spec.Op α → Res (OSet α × Spec.Out α × List (Note α))
  | .insert v => o.insert lt v
  | .eraseKey k => o.eraseKey lt k
  | .eraseAt i =>
    match o.set.list[i]? with
    | some e => do
      let (o', notes) ← o.eraseIter e
      .ok (o', .unit, notes)
    | none => .ub
  | .clear => .ok (o.clear.1, .unit, o.clear.2)
  | op => do
    let (s, out) ← o.set.step lt op
    .ok ({ o with set := s }, out, [])

/-! ## Several sets -/

/-- The operations of a program on a family of sets and observers.  Sets and observers are named by numbers (Awl/ObservableSet.h:49-297). -/
inductive Op (α : Type) where
  | create (i : Nat)
  /-- the constructors from an initializer list (66-73) -/
  | createFrom (i : Nat) (vs : List α)
  | on (i : Nat) (op : Spec.Op α)
  | subscribe (i a : Nat)
  | unsubscribe (i a : Nat)
  | moveConstruct (i j : Nat)
  | moveAssign (i j : Nat)
  | migrate (i j : Nat)
  | destroy (i : Nat)

/-- What happens, as a list: calls of observers, and the moments of subscription together with what the set shows then (Awl/ObservableSet.h:289-292, 301-327). -/
inductive Item (α : Type) where
  | started (a : Nat) (S : List α)
  | note (n : Note α)

/-- The sets that exist (objects of Awl/ObservableSet.h:22-332). -/
abbrev World (α : Type) := Nat → Option (OSet α)

/-- One set is replaced (a notion of the model, the objects are those of Awl/ObservableSet.h:22-332). -/
def World.set (w : World α) (i : Nat) (o : Option (OSet α)) : World α := fun k => if k = i then o else w k

/-- `migrate` (93-105) between two different sets: the target, the source and the calls (Awl/ObservableSet.h). -/
def migrate (o p : OSet α) : OSet α × OSet α × List (Note α) :=
  let (o1, n1) := o.clear
  let n2 := notify p .clearing
  let m := o1.set.moveAssign p.set
  let o2 := { o1 with set := m.1 }
  let p2 := { p with set := m.2.clear }
  (o2, p2, n1 ++ n2 ++ (o2.set.forward.map (fun v => notify o2 (.added v))).flatten)

/-- `s.migrate(std::move(s))` (93-105): the inner set is move assigned to itself and cleared (Awl/ObservableSet.h). -/
def selfMigrate (o : OSet α) : OSet α × List (Note α) :=
  let (o1, n1) := o.clear
  let n2 := notify o1 .clearing
  let o2 := { o1 with set := o1.set.selfMoveAssign.clear }
  (o2, n1 ++ n2 ++ (o2.set.forward.map (fun v => notify o2 (.added v))).flatten)

/-- Move assignment (79-90) between two different sets.  The observers of the target are unsubscribed
(`Awl/Observable.h` 77-82, C18) and those of the source are taken over (C15). -/
def moveAssign (o p : OSet α) : OSet α × OSet α × List (Note α) :=
  let n := if !o.set.isEmpty then notify o .clearing else []
  let m := o.set.moveAssign p.set
  (⟨m.1, p.subs⟩, ⟨m.2, []⟩, n)

/-- `s = std::move(s)` (79-90): the inner set is move assigned to itself, all the observers are unsubscribed (Awl/ObservableSet.h). -/
def selfMoveAssign (o : OSet α) : OSet α × List (Note α) :=
  let n := if !o.set.isEmpty then notify o .clearing else []
  (⟨o.set.selfMoveAssign, []⟩, n)

/-- One operation.  Using a set that does not exist, creating one over an existing one, subscribing an observer twice and
unsubscribing an observer that is not subscribed are undefined (`subscribed a` says whether `a` is subscribed anywhere) (Awl/ObservableSet.h:49-297). -/
def step (lt : α → α → Bool) (subscribed : Nat → Bool) (w : World α) :
    Op α → Res (World α × Spec.Out α × List (Item α))
  | .create i => if (w i).isSome then .ub else .ok (w.set i (some OSet.empty), .unit, [])
  | .createFrom i vs =>
    if (w i).isSome then .ub else do
      let s ← VSet.empty.insertAll lt vs
      .ok (w.set i (some ⟨s, []⟩), .unit, [])
  | .on i op =>
    match w i with
    | none => .ub
    | some o => do
      let (o', out, notes) ← o.step lt op
      .ok (w.set i (some o'), out, notes.map .note)
  | .subscribe i a =>
    match w i with
    | none => .ub
    | some o =>
      if subscribed a then .ub
      else .ok (w.set i (some { o with subs := o.subs ++ [a] }), .unit, [.started a o.set.forward])
  | .unsubscribe i a =>
    match w i with
    | none => .ub
    | some o => if a ∈ o.subs then .ok (w.set i (some { o with subs := o.subs.filter (· ≠ a) }), .unit, []) else .ub
  | .moveConstruct i j =>
    match w i, w j with
    | none, some p =>
      -- the defaulted move constructor (64): the inner set (240-245 of VectorSet.h) and the observers are handed over
      let m := VSet.empty.moveAssign p.set
      .ok ((w.set i (some ⟨m.1, p.subs⟩)).set j (some ⟨m.2, []⟩), .unit, [])
    | _, _ => .ub
  | .moveAssign i j =>
    match w i, w j with
    | some o, some p =>
      if i = j then
        let (o', notes) := selfMoveAssign o
        .ok (w.set i (some o'), .unit, notes.map .note)
      else
        let (o', p', notes) := moveAssign o p
        .ok ((w.set i (some o')).set j (some p'), .unit, notes.map .note)
    | _, _ => .ub
  | .migrate i j =>
    match w i, w j with
    | some o, some p =>
      if i = j then
        let (o', notes) := selfMigrate o
        .ok (w.set i (some o'), .unit, notes.map .note)
      else
        let (o', p', notes) := migrate o p
        .ok ((w.set i (some o')).set j (some p'), .unit, notes.map .note)
    | _, _ => .ub
  | .destroy i =>
    match w i with
    | none => .ub
    | some o =>
      -- 107-113; the subscribers are notified and then unsubscribed by ~Observable
      let notes := if !o.set.isEmpty then notify o .clearing else []
      .ok (w.set i none, .unit, notes.map .note)

/-- A program state: the sets, and who is subscribed (to which set), which `step` needs only as a test (Awl/ObservableSet.h:329-331). -/
structure State (α : Type) where
  sets : World α
  /-- the sets created so far (a finite list of names, so that "subscribed anywhere" is computable) -/
  names : List Nat

/-- Whether `a` is subscribed to some set (Awl/ObservableSet.h:289-297, 331). -/
def State.subscribed (st : State α) (a : Nat) : Bool :=
  st.names.any (fun i => match st.sets i with | some o => decide (a ∈ o.subs) | none => false)

/-- The names of the sets that the operation constructs (Awl/ObservableSet.h:49-73). -/
def Op.newName : Op α → List Nat
  | .create i => [i]
  | .createFrom i _ => [i]
  | .moveConstruct i _ => [i]
  | _ => []

/-- One operation of a program (Awl/ObservableSet.h:49-297). -/
def State.step (lt : α → α → Bool) (st : State α) (op : Op α) : Res (State α × Spec.Out α × List (Item α)) := do
  let (w, out, items) ← ObservableSet.step lt st.subscribed st.sets op
  .ok (⟨w, op.newName ++ st.names⟩, out, items)

/-- A history: the final state and everything that happened (Awl/ObservableSet.h:49-297). -/
def State.run (lt : α → α → Bool) (st : State α) : List (Op α) → Res (State α × List (Item α))
  | [] => .ok (st, [])
  | op :: ops => do
    let (st', _, items) ← st.step lt op
    let (st'', items') ← st'.run lt ops
    .ok (st'', items ++ items')

/-- Before any set is constructed (Awl/ObservableSet.h:49). -/
def State.init : State α := ⟨fun _ => none, []⟩

/-! ## `mirror_set` -/

/-- `mirror_set::OnAdded`, `OnRemoving`, `OnClearing` (`Awl/MirrorSet.h` 183-202): the new state of the mirror's own
`observable_set` and the calls made to the mirror's subscribers. -/
def mirrorOn (lt : α → α → Bool) (m : OSet α) : Event α → Res (OSet α × List (Note α))
  | .added v => do
    let (m', out, notes) ← m.insert lt v
    match out with
    | .inserted _ true => .ok (m', notes)
    | _ => .throw .logic
  | .removing v => do
    let (m', out, notes) ← m.eraseKey lt v
    match out with
    | .num 0 => .throw .logic
    | _ => .ok (m', notes)
  | .clearing => .ok m.clear

/-- The events that one observer receives (`Awl/MirrorSet.h`:183-202). -/
def mirrorRun (lt : α → α → Bool) (m : OSet α) : List (Event α) → Res (OSet α × List (Note α))
  | [] => .ok (m, [])
  | e :: es => do
    let (m', notes) ← mirrorOn lt m e
    let (m'', notes') ← mirrorRun lt m' es
    .ok (m'', notes ++ notes')

/-- `reflect(src)` (`Awl/MirrorSet.h` 62-85): the elements of the source are added one by one in its order, after that
the mirror is subscribed to it. -/
def reflect (lt : α → α → Bool) (m : OSet α) (src : VSet α) : Res (OSet α × List (Note α)) :=
  mirrorRun lt m (src.forward.map .added)

end Verif.ObservableSet
