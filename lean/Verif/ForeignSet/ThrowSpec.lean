import Verif.ForeignSet.ThrowModel

/-!
# What a program may expect of a `foreign_set` when observers throw

The source is a list of elements, in no particular order.  Each observer is described by the elements it knows (`some L`, a `foreign_set`) or by nothing
(`none`, another observer).  Nothing here mentions groups or trees.
-/

namespace Verif.ForeignSet.Throw.Spec

open Verif.VectorSet
open Verif.VectorSet.Spec (eqv)

variable {α κ φ : Type}

structure St (α : Type) where
  src : List α
  known : List (Option (List α))
deriving DecidableEq

/-- The observers from number `i` on are called in order; each `foreign_set` changes what it knows with `f`.  The second part is the observer that throws.
`grows` says that a `foreign_set` needs memory. -/
def handle (t : Nat → Bool) (grows : Bool) (f : List α → List α) : Nat → List (Option (List α)) → List (Option (List α)) × Option Nat
  | _, [] => ([], none)
  | i, none :: ks =>
    if t i then (none :: ks, some i) else (none :: (handle t grows f (i + 1) ks).1, (handle t grows f (i + 1) ks).2)
  | i, some L :: ks =>
    if grows && t i then (some L :: ks, some i) else (some (f L) :: (handle t grows f (i + 1) ks).1, (handle t grows f (i + 1) ks).2)

/-- Every `foreign_set` that the removal of the key `k` reaches knows an element with this key. -/
def ready (lt : α → α → Bool) (k : α) (t : Nat → Bool) : Nat → List (Option (List α)) → Bool
  | _, [] => true
  | i, none :: ks => t i || ready lt k t (i + 1) ks
  | i, some L :: ks => L.any (fun a => eqv lt a k) && ready lt k t (i + 1) ks

/-- The result of an operation that calls the observers. -/
def result : Option Nat → Res Bool
  | none => .ok true
  | some i => .throw (.user i)

/-- One operation; `none`: a `foreign_set` is told about the removal of an element it does not know. -/
def step (lt : α → α → Bool) (s : St α) : Op α κ φ → Option (St α × Res Bool)
  | .insert v t =>
    if s.src.any (fun a => eqv lt a v) then some (s, .ok false)
    else
      let r := handle t true (v :: ·) 0 s.known
      some (⟨v :: s.src, r.1⟩, result r.2)
  | .erase k t =>
    if s.src.any (fun a => eqv lt a k) then
      if ready lt k t 0 s.known then
        let r := handle t false (List.filter (fun a => !eqv lt a k)) 0 s.known
        some (⟨if r.2.isNone then s.src.filter (fun a => !eqv lt a k) else s.src, r.1⟩, result r.2)
      else none
    else some (s, .ok false)
  | .clear t =>
    if s.src.isEmpty then some (s, .ok false)
    else
      let r := handle t false (fun _ => []) 0 s.known
      some (⟨if r.2.isNone then [] else s.src, r.1⟩, result r.2)
  | .attach _ t =>
    match (List.range s.src.length).find? t with
    | some j => some (s, .throw (.user j))
    | none => some (⟨s.src, s.known ++ [some s.src]⟩, .ok true)
  | .subscribe => some (⟨s.src, s.known ++ [none]⟩, .ok true)
  | .detach i => some (⟨s.src, s.known.eraseIdx i⟩, .ok true)

def run (lt : α → α → Bool) : St α → List (Op α κ φ) → Option (St α × List (Res Bool))
  | s, [] => some (s, [])
  | s, op :: ops =>
    match step lt s op with
    | none => none
    | some (s', r) => (run lt s' ops).map (fun q => (q.1, r :: q.2))

/-- The groups show exactly the elements of `L`: looking up a foreign key gives a group exactly when some element of `L` has the key; the group contains exactly
the elements of `L` with the key, in the order of their primary keys; the groups are in the order of the foreign keys and none is empty. -/
def Groups (K : Keys α κ φ) (L : List α) (gs : List (ObservableSet.OSet α)) : Prop :=
  (∀ k, (∃ M, lookup K gs k = .ok (some M) ∧ M ≠ [] ∧ M.Pairwise (fun a b => K.byPk a b = true) ∧ ∀ x, x ∈ M ↔ x ∈ L ∧ eqv K.ltF (K.fk x) k = true)
    ∨ (lookup K gs k = .ok none ∧ ∀ x ∈ L, eqv K.ltF (K.fk x) k = false))
  ∧ (gs.map (fun g => g.set.forward)).Pairwise (fun A B => ∀ x ∈ A, ∀ y ∈ B, K.ltF (K.fk x) (K.fk y) = true)
  ∧ ∀ g ∈ gs, g.set.forward ≠ []

/-- An observer and what it knows. -/
def Shows : Watcher α κ φ → Option (List α) → Prop
  | .foreign K gs, some L => Groups K L gs
  | .other, none => True
  | _, _ => False

/-- The program: every inserted value is in `P`; the keys of every `foreign_set` are strictly ordered, and values of `P` with the same primary key are equivalent
for the source. -/
def Program (lt : α → α → Bool) (P : α → Prop) (ops : List (Op α κ φ)) : Prop :=
  (∀ v t, Op.insert v t ∈ ops → P v) ∧
  ∀ K t, Op.attach K t ∈ ops → StrictWeak K.ltP ∧ StrictWeak K.ltF ∧ ∀ a b, P a → P b → eqv K.ltP (K.pk a) (K.pk b) = true → eqv lt a b = true

end Verif.ForeignSet.Throw.Spec
