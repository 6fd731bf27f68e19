import Verif.VectorSet.PtrThrowModel

/-! # `vector_set` with exceptions: what is expected (C146) -/

namespace Verif.VectorSet.Heap

open Verif.VectorSet.Spec (Op Out)

variable {α : Type}

/-- The nodes below `p`, in order: the parent pointers lead back, the counters count the nodes. -/
inductive InOrder (node : Nat → Option (Cell α)) : (parent p : Option Nat) → List Nat → Prop
  | nil (parent : Option Nat) : InOrder node parent none []
  | node {parent : Option Nat} {a : Nat} {c : Cell α} {L R : List Nat} (here : node a = some c) (up : c.parent = parent)
      (left : InOrder node (some a) c.left L) (right : InOrder node (some a) c.right R) (count : c.count = L.length + R.length) :
      InOrder node parent (some a) (L ++ a :: R)

/-- The memory holds the elements `S`, and the nodes in `lost` besides, which do not belong to the set. -/
def HoldsBut (m : Mem α) (lost : List Nat) (S : List α) : Prop :=
  ∃ ids : List Nat, ids.Nodup ∧ (∀ i ∈ ids, i ∉ lost) ∧ InOrder m.node none m.root ids ∧ (∀ i, m.node i ≠ none ↔ i ∈ ids ∨ i ∈ lost) ∧
    QuickList.forward m.links 0 (ids.length + 1) = .ok (some (ids.map (· + 1))) ∧
    QuickList.backward m.links 0 (ids.length + 1) = .ok (some (ids.map (· + 1)).reverse) ∧
    (∀ a, m.links.alive a = true ↔ a = 0 ∨ ∃ i, (i ∈ ids ∨ i ∈ lost) ∧ a = i + 1) ∧
    ids.map (fun i => (m.node i).map Cell.value) = S.map some

/-- Nothing of what was in the memory has changed: every node, every link and the root are what they were. -/
def Untouched (m m' : Mem α) : Prop :=
  m'.root = m.root ∧ (∀ p c, m.node p = some c → m'.node p = some c) ∧
    ∀ a, m.links.alive a = true → m'.links.alive a = true ∧ m'.links.fwd a = m.links.fwd a ∧ m'.links.bwd a = m.links.bwd a

/-- What a call means for the mathematical set. -/
def Call.op : Call α → Op α
  | .plain op => op
  | .emplace v => .insert v

/-- The calls that may make an element. -/
def Call.makes : Call α → Bool
  | .plain (.insert _) => true
  | .emplace _ => true
  | _ => false

/-- The mathematical set, if the calls marked with `true` throw: they leave it as it is. -/
def specRunT (lt : α → α → Bool) (S : List α) : List (Op α) → List Bool → Res (List α × List (Option (Out α)))
  | op :: ops, thrown :: l =>
    if thrown then do
      let (S', os) ← specRunT lt S ops l
      .ok (S', none :: os)
    else do
      let (S', o) ← Spec.step lt S op
      let (S'', os) ← specRunT lt S' ops l
      .ok (S'', some o :: os)
  | [], [] => .ok (S, [])
  | _, _ => .throw .logic

/-- The exceptions in calls that make an element. -/
def failures : List (Call α) → List (Option (Out α)) → Nat
  | c :: cs, o :: os => (if c.makes && o.isNone then 1 else 0) + failures cs os
  | _, _ => 0

end Verif.VectorSet.Heap
