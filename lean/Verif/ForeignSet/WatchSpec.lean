import Verif.ForeignSet.WatchModel
import Verif.ObservableSet.Spec

/-!
# What an observer of the elements with a foreign key may expect

The source is a mathematical set of elements and each observer has the foreign key it watches.  Nothing here mentions groups, trees or lists of observers.
-/

namespace Verif.ForeignSet.Watch.Spec

open Verif.VectorSet.Spec (eqv)
open Verif.ObservableSet

variable {α κ φ : Type}

structure World (α φ : Type) where
  has : α → Prop
  watches : Nat → φ → Prop

/-- The elements with the foreign key `k`. -/
def World.at (K : Keys α κ φ) (w : World α φ) (k : φ) (x : α) : Prop := w.has x ∧ eqv K.ltF (K.fk x) k = true

/-- Nothing undefined: the source adds a new primary key, removes an element it has; a program watches a key that some element has, with an observer that does not
watch yet, and stops an observer that watches. -/
def Allowed (K : Keys α κ φ) (w : World α φ) : Op α φ → Prop
  | .event e => Valid K.byPk w.has e
  | .watch k a => (∃ x, w.at K k x) ∧ ∀ k', ¬ w.watches a k'
  | .unwatch a => ∃ k, w.watches a k

/-- What is true afterwards.  An observer does not watch any longer once there is no element with its key. -/
def next (K : Keys α κ φ) (w : World α φ) : Op α φ → World α φ
  | .event e => ⟨applyEvent w.has e, fun a k => w.watches a k ∧ ∃ x, applyEvent w.has e x ∧ eqv K.ltF (K.fk x) k = true⟩
  | .watch k a => ⟨w.has, fun b l => w.watches b l ∨ (b = a ∧ l = k)⟩
  | .unwatch a => ⟨w.has, fun b l => w.watches b l ∧ b ≠ a⟩

def Legal (K : Keys α κ φ) (w : World α φ) : List (Op α φ) → Prop
  | [] => True
  | op :: ops => Allowed K w op ∧ Legal K (next K w op) ops

def after (K : Keys α κ φ) (w : World α φ) : List (Op α φ) → World α φ
  | [] => w
  | op :: ops => after K (next K w op) ops

def start : World α φ := ⟨fun _ => False, fun _ _ => False⟩

/-- What the observers of the key `k` are told about an event of the source: an element with the key that is added; one that is removed, if there are more; the end of the
last one and the end of all the elements as a clearing. -/
def Due (K : Keys α κ φ) (w : World α φ) (k : φ) : Event α → List (Event α) → Prop
  | .added v, es => (eqv K.ltF (K.fk v) k = true ∧ es = [.added v]) ∨ (eqv K.ltF (K.fk v) k = false ∧ es = [])
  | .removing v, es =>
    (eqv K.ltF (K.fk v) k = true ∧ (∃ x, w.at K k x ∧ x ≠ v) ∧ es = [.removing v]) ∨
    (eqv K.ltF (K.fk v) k = true ∧ (∀ x, w.at K k x → x = v) ∧ es = [.clearing]) ∨
    (eqv K.ltF (K.fk v) k = false ∧ es = [])
  | .clearing, es => es = [.clearing]

/-- The contents that an observer of the key `k` finds when it looks from inside of the call. -/
def Shown (K : Keys α κ φ) (w : World α φ) (k : φ) : Event α → α → Prop
  | .added v, x => (w.has x ∨ x = v) ∧ eqv K.ltF (K.fk x) k = true
  | _, x => w.at K k x

end Verif.ForeignSet.Watch.Spec
