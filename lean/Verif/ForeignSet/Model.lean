import Verif.ObservableSet.Spec

/-!
# `Awl/ForeignSet.h`

A `foreign_set` is an observer of a source set.  It keeps one group (an `observable_set` of pointers to the source's
elements, ordered by primary key) for each foreign key, and the groups in an `observable_set` ordered by the foreign key of
their first element.

Simplifications: a pointer to a source element is represented by the element itself (the nodes of the source do not move,
C63, and the keys of an element do not change while it is in the source).  The outer `vector_set` is represented by the
sequence of its elements, which is what it is observationally by C05; the groups are full models.  Keys are compared with
`<` of the key types: `ltP` for primary, `ltF` for foreign keys.
-/

namespace Verif.ForeignSet

open Verif.VectorSet
open Verif.VectorSet.Spec (eqv)
open Verif.ObservableSet

variable {α κ φ : Type}

/-- The key getters and the orders of the keys (`Awl/ForeignSet.h` 27-29). -/
structure Keys (α κ φ : Type) where
  pk : α → κ
  fk : α → φ
  ltP : κ → κ → Bool
  ltF : φ → φ → Bool

/-- `PrimaryCompare` (`Awl/ForeignSet.h` 28, `Awl/KeyCompare.h`). -/
def Keys.byPk (K : Keys α κ φ) (a b : α) : Bool := K.ltP (K.pk a) (K.pk b)

/-- `ValueSetCompare::GetForeignKey` (Awl/ForeignSet.h:56-60): `front()` of an empty set does not exist. -/
def frontKey (K : Keys α κ φ) (g : OSet α) : Res φ :=
  match g.set.forward.head? with
  | some x => .ok (K.fk x)
  | none => .ub

/-- The keys of the groups, `GetForeignKey` of each (Awl/ForeignSet.h:39-60). -/
def frontKeys (K : Keys α κ φ) : List (OSet α) → Res (List φ)
  | [] => .ok []
  | g :: gs => do
    let k ← frontKey K g
    let ks ← frontKeys K gs
    .ok (k :: ks)

/-- `m_set.find(key)` (Awl/ForeignSet.h:136-140, 177, 200): the place of the group, if any.  The search may look at any group, so no group may be
empty. -/
def findGroup (K : Keys α κ φ) (gs : List (OSet α)) (k : φ) : Res (Option Nat) := do
  let ks ← frontKeys K gs
  .ok (ks.findIdx? (fun k' => eqv K.ltF k' k))

/-- `m_set.insert(std::move(vs))` (Awl/ForeignSet.h:190): nothing happens if there is a group with this key. -/
def insertGroup (K : Keys α κ φ) (gs : List (OSet α)) (g : OSet α) : Res (List (OSet α)) := do
  let ks ← frontKeys K gs
  let k ← frontKey K g
  match ks.findIdx? (fun k' => eqv K.ltF k' k) with
  | some _ => .ok gs
  | none =>
    let p := (ks.filter (fun k' => K.ltF k' k)).length
    .ok (gs.take p ++ g :: gs.drop p)

/-- `OnAdded` (Awl/ForeignSet.h:173-194): the groups, and the events sent to the subscribers of the `foreign_set` (the group is given by its
contents at that moment). -/
def onAdded (K : Keys α κ φ) (gs : List (OSet α)) (v : α) : Res (List (OSet α) × List (Event (List α))) := do
  match ← findGroup K gs (K.fk v) with
  | some i =>
    match gs[i]? with
    | none => .ub
    | some g => do
      let (g', _, _) ← g.insert K.byPk v
      .ok (gs.set i g', [])
  | none => do
    let (g, _, _) ← OSet.empty.insert K.byPk v
    let gs' ← insertGroup K gs g
    .ok (gs', [.added g.set.forward])

/-- `OnRemoving` (Awl/ForeignSet.h:196-223).  `*m_set.end()` and `vs.erase(vs.end())` are undefined. -/
def onRemoving (K : Keys α κ φ) (gs : List (OSet α)) (v : α) : Res (List (OSet α) × List (Event (List α))) := do
  match ← findGroup K gs (K.fk v) with
  | none => .ub
  | some i =>
    match gs[i]? with
    | none => .ub
    | some g =>
      if g.set.size = 1 then do
        -- m_set.erase(vs): the group with the foreign key of vs
        let k ← frontKey K g
        match ← findGroup K gs k with
        | some j => .ok (gs.eraseIdx j, [.removing g.set.forward])
        | none => .ok (gs, [])
      else do
        let (g', out, _) ← g.eraseKey K.byPk v
        match out with
        | .num 1 => .ok (gs.set i g', [])
        | _ => .ub

/-- `OnClearing` (Awl/ForeignSet.h:225-228). -/
def onClearing (gs : List (OSet α)) : List (OSet α) × List (Event (List α)) :=
  if gs.isEmpty then (gs, []) else ([], [.clearing])

/-- An event of the source (Awl/ForeignSet.h:173-228). -/
def foreignOn (K : Keys α κ φ) (gs : List (OSet α)) : Event α → Res (List (OSet α) × List (Event (List α)))
  | .added v => onAdded K gs v
  | .removing v => onRemoving K gs v
  | .clearing => .ok (onClearing gs)

/-- The events that the source sends (Awl/ForeignSet.h:173-228). -/
def foreignRun (K : Keys α κ φ) (gs : List (OSet α)) : List (Event α) → Res (List (OSet α))
  | [] => .ok gs
  | e :: es => do
    let (gs', _) ← foreignOn K gs e
    foreignRun K gs' es

/-- The constructor from a source set (Awl/ForeignSet.h:76-87): the elements of the source in its order; after that the `foreign_set` is
subscribed. -/
def attach (K : Keys α κ φ) (src : List α) : Res (List (OSet α)) := foreignRun K [] (src.map .added)

/-- `find(key)` (Awl/ForeignSet.h:136-140) as the user sees it: the elements of the group, in its order. -/
def lookup (K : Keys α κ φ) (gs : List (OSet α)) (k : φ) : Res (Option (List α)) := do
  match ← findGroup K gs k with
  | none => .ok none
  | some i =>
    match gs[i]? with
    | none => .ub
    | some g => .ok (some g.set.forward)

end Verif.ForeignSet
