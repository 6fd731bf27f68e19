import Verif.ForeignSet.Model

/-!
# The observers of the groups of a `foreign_set`

A group that `find` (or an iteration) gives is an `observable_set`, so a program can subscribe observers to it.  The handlers of `Awl/ForeignSet.h` are those of
`Verif/ForeignSet/Model.lean`; here they also give the calls of the observers of the groups.

Simplifications: those of `Verif/ForeignSet/Model.lean`; the observers only watch (their callbacks touch neither the sets nor the subscriptions).
-/

namespace Verif.ForeignSet.Watch

open Verif.VectorSet
open Verif.VectorSet.Spec (eqv)
open Verif.ObservableSet

variable {α κ φ : Type}

/-- `~observable_set` of a group (Awl/ObservableSet.h:107-113): the calls; after that `~Observable` (Awl/Observable.h:61-64) unsubscribes the observers. -/
def destroyed (g : OSet α) : List (Note α) := if !g.set.isEmpty then notify g .clearing else []

/-- `OnAdded` (Awl/ForeignSet.h:173-194) with the calls of the observers of the groups.  A new group has none. -/
def onAdded (K : Keys α κ φ) (gs : List (OSet α)) (v : α) : Res (List (OSet α) × List (Event (List α)) × List (Note α)) := do
  match ← findGroup K gs (K.fk v) with
  | some i =>
    match gs[i]? with
    | none => .ub
    | some g => do
      let (g', _, notes) ← g.insert K.byPk v
      .ok (gs.set i g', [], notes)
  | none => do
    let (g, _, notes) ← OSet.empty.insert K.byPk v
    let gs' ← insertGroup K gs g
    .ok (gs', [.added g.set.forward], notes)

/-- `OnRemoving` (Awl/ForeignSet.h:196-223) with the calls of the observers of the groups: the last element is not erased, its group is destroyed (211). -/
def onRemoving (K : Keys α κ φ) (gs : List (OSet α)) (v : α) : Res (List (OSet α) × List (Event (List α)) × List (Note α)) := do
  match ← findGroup K gs (K.fk v) with
  | none => .ub
  | some i =>
    match gs[i]? with
    | none => .ub
    | some g =>
      if g.set.size = 1 then do
        let k ← frontKey K g
        match ← findGroup K gs k with
        | some j =>
          match gs[j]? with
          | some h => .ok (gs.eraseIdx j, [.removing g.set.forward], destroyed h)
          | none => .ub
        | none => .ok (gs, [], [])
      else do
        let (g', out, notes) ← g.eraseKey K.byPk v
        match out with
        | .num 1 => .ok (gs.set i g', [], notes)
        | _ => .ub

/-- `OnClearing` (Awl/ForeignSet.h:225-228): `vector_set::clear` (Awl/VectorSet.h:537-546) destroys the groups from the first to the last one.  `~foreign_set` does the same
with its member `m_set` (Awl/ForeignSet.h:230; Awl/ObservableSet.h:107-113, Awl/VectorSet.h:273-276). -/
def onClearing (gs : List (OSet α)) : List (OSet α) × List (Event (List α)) × List (Note α) :=
  if gs.isEmpty then (gs, [], []) else ([], [.clearing], (gs.map destroyed).flatten)

/-- An event of the source (Awl/ForeignSet.h:173-228). -/
def on (K : Keys α κ φ) (gs : List (OSet α)) : Event α → Res (List (OSet α) × List (Event (List α)) × List (Note α))
  | .added v => onAdded K gs v
  | .removing v => onRemoving K gs v
  | .clearing => .ok (onClearing gs)

/-- What a program does: the source changes, an observer is subscribed to a group, an observer is unsubscribed (Awl/ForeignSet.h:136-140, 173-228; Awl/ObservableSet.h:289-297). -/
inductive Op (α φ : Type) where
  | event (e : Event α)
  | watch (k : φ) (a : Nat)
  | unwatch (a : Nat)

/-- Whether the observer is in the list of some group (`IsSubscribed`, Awl/Observable.h:29-32). -/
def subscribed (gs : List (OSet α)) (a : Nat) : Bool := gs.any (fun g => decide (a ∈ g.subs))

/-- `fs.find(k)->Subscribe(a)` (Awl/ForeignSet.h:136-140, Awl/ObservableSet.h:289-292).  Without a group `*end()` is undefined; an observer that is in a list may not be put
into another one, its links would be overwritten (Awl/QuickList.h:125). -/
def watch (K : Keys α κ φ) (gs : List (OSet α)) (k : φ) (a : Nat) : Res (List (OSet α) × List (Item α)) := do
  match ← findGroup K gs k with
  | none => .ub
  | some i =>
    match gs[i]? with
    | none => .ub
    | some g =>
      if subscribed gs a then .ub
      else .ok (gs.set i { g with subs := g.subs ++ [a] }, [.started a g.set.forward])

/-- `Unsubscribe(a)` and `a.UnsubscribeSelf()` (Awl/ObservableSet.h:294-297, Awl/Observable.h:34-37, 89-92): the observer is excluded from the list it is in. -/
def unwatch (gs : List (OSet α)) (a : Nat) : Res (List (OSet α)) :=
  if subscribed gs a then .ok (gs.map (fun g => { g with subs := g.subs.filter (· ≠ a) })) else .ub

/-- One operation (Awl/ForeignSet.h:136-140, 173-228). -/
def step (K : Keys α κ φ) (gs : List (OSet α)) : Op α φ → Res (List (OSet α) × List (Item α))
  | .event e => do
    let (gs', _, notes) ← on K gs e
    .ok (gs', notes.map .note)
  | .watch k a => watch K gs k a
  | .unwatch a => do
    let gs' ← unwatch gs a
    .ok (gs', [])

/-- A program (Awl/ForeignSet.h:136-140, 173-228). -/
def run (K : Keys α κ φ) (gs : List (OSet α)) : List (Op α φ) → Res (List (OSet α) × List (Item α))
  | [] => .ok (gs, [])
  | op :: ops => do
    let (gs', items) ← step K gs op
    let (gs'', items') ← run K gs' ops
    .ok (gs'', items ++ items')

end Verif.ForeignSet.Watch
