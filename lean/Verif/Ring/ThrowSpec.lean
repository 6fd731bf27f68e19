import Verif.Ring.ThrowModel
import Verif.Ring.Spec

/-! # A bounded deque whose calls may throw (C147) -/

namespace Verif.Ring

variable {α : Type}

/-- The elements `l` after `i` of them, beginning with the one at `start`, have been moved away. -/
def movedAway (husk : α → α) (start i : Nat) (l : List α) : List α :=
  l.mapIdx fun p x => if start ≤ p ∧ p < start + i then husk x else x

/-- The deque, and what has been lost: buffers and elements. -/
structure Deque (α : Type) where
  cap : Nat
  elems : List α
  lostBlocks : Nat
  lostElems : List α
deriving DecidableEq

/-- What is expected of a call that may throw.  `none` if it is not allowed, and also if the constructor throws in a push: what happens then
is said elsewhere (`c147_push_violated`). -/
def throwStep (husk : α → α) (d : Deque α) : Op α → Nat → Option (Bool × Deque α)
  | .reserve n, k =>
    if n = 0 then none
    else if k = 0 then some (true, d)
    else if k - 1 < min n d.elems.length then
      some (true, ⟨d.cap, movedAway husk (d.elems.length - min n d.elems.length) (k - 1) d.elems, d.lostBlocks + 1,
        d.lostElems ++ (d.elems.drop (d.elems.length - min n d.elems.length)).take (k - 1)⟩)
    else some (false, { d with cap := n, elems := d.elems.drop (d.elems.length - n) })
  | .pushBack x, k => if k = 0 then none else (dequeStep (d.cap, d.elems) (.pushBack x)).map fun p => (false, { d with cap := p.1, elems := p.2 })
  | .pushFront x, k => if k = 0 then none else (dequeStep (d.cap, d.elems) (.pushFront x)).map fun p => (false, { d with cap := p.1, elems := p.2 })
  | op, _ => (dequeStep (d.cap, d.elems) op).map fun p => (false, { d with cap := p.1, elems := p.2 })

/-- A program that catches the exceptions of its calls. -/
def throwRun (husk : α → α) : Deque α → List (Op α × Nat) → Option (List Bool × Deque α)
  | d, [] => some ([], d)
  | d, (op, k) :: l => (throwStep husk d op k).bind fun p => (throwRun husk p.2 l).map fun q => (p.1 :: q.1, q.2)

/-- The calls that have not thrown. -/
def returned : List (Op α × Nat) → List Bool → List (Op α)
  | (op, _) :: l, t :: ts => if t then returned l ts else op :: returned l ts
  | _, _ => []

end Verif.Ring
