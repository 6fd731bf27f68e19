import Verif.VectorSet.Model
import Verif.Common.Order

/-!
# Specification of a sorted set

The abstract state is the sequence of elements in increasing order.  Nothing here mentions trees, counters, colours or
addresses.
-/

namespace Verif.VectorSet.Spec

variable {α : Type}

/-- Two keys are equivalent: neither is less than the other. -/
def eqv (lt : α → α → Bool) (a b : α) : Bool := !lt a b && !lt b a

/-- Operations of the public interface. -/
inductive Op (α : Type) where
  | insert (v : α)
  | eraseKey (k : α)
  /-- `erase(it)`, where `it` points to the i-th element -/
  | eraseAt (i : Nat)
  | clear
  | size
  | empty
  | contains (k : α)
  | find (k : α)
  | lowerBound (k : α)
  | upperBound (k : α)

/-- What an operation reports to the caller.  An iterator is represented by the element it points to; `none` is
`end()`. -/
inductive Out (α : Type) where
  | unit
  | bool (b : Bool)
  | num (n : Nat)
  | iter (o : Option α)
  | inserted (stored : α) (isNew : Bool)
deriving DecidableEq

/-- The mathematical set.  The outcome is `ub` only where the caller breaks a precondition (erasing `end()`). -/
def step (lt : α → α → Bool) (S : List α) : Op α → Res (List α × Out α)
  | .insert v =>
    match S.find? (fun a => eqv lt a v) with
    | some a => .ok (S, .inserted a false)
    | none => .ok (S.filter (fun a => lt a v) ++ v :: S.filter (fun a => lt v a), .inserted v true)
  | .eraseKey k => .ok (S.filter (fun a => !eqv lt a k), .num (if S.any (fun a => eqv lt a k) then 1 else 0))
  | .eraseAt i => if i < S.length then .ok (S.eraseIdx i, .unit) else .ub
  | .clear => .ok ([], .unit)
  | .size => .ok (S, .num S.length)
  | .empty => .ok (S, .bool S.isEmpty)
  | .contains k => .ok (S, .bool (S.any (fun a => eqv lt a k)))
  | .find k => .ok (S, .iter (S.find? (fun a => eqv lt a k)))
  | .lowerBound k => .ok (S, .iter (S.find? (fun a => !lt a k)))
  | .upperBound k => .ok (S, .iter (S.find? (fun a => lt k a)))

/-- A history of operations and everything it reported. -/
def run (lt : α → α → Bool) (S : List α) : List (Op α) → Res (List α × List (Out α))
  | [] => .ok (S, [])
  | op :: ops => do
    let (S', o) ← step lt S op
    let (S'', os) ← run lt S' ops
    .ok (S'', o :: os)

end Verif.VectorSet.Spec

namespace Verif.VectorSet

variable {α : Type}

/-- The same operations on the modelled `vector_set`.  An iterator to the i-th element is obtained by advancing
`begin()` i times. -/
def VSet.step (lt : α → α → Bool) (s : VSet α) : Spec.Op α → Res (VSet α × Spec.Out α)
  | .insert v => do
    let (s', e, isNew) ← s.insert lt v
    .ok (s', .inserted e.val isNew)
  | .eraseKey k => do
    let (s', n) ← s.eraseKey (lt k) (fun a => lt a k)
    .ok (s', .num n)
  | .eraseAt i =>
    match s.list[i]? with
    | some e => do .ok (← s.eraseNode e.id, .unit)
    | none => .ub
  | .clear => .ok (s.clear, .unit)
  | .size => .ok (s, .num s.size)
  | .empty => .ok (s, .bool s.isEmpty)
  | .contains k => .ok (s, .bool (s.contains (lt k) (fun a => lt a k)))
  | .find k => do
    let o ← s.find (lt k) (fun a => lt a k)
    .ok (s, .iter (o.map Elem.val))
  | .lowerBound k => .ok (s, .iter ((s.lowerBound (lt k) (fun a => lt a k)).map Elem.val))
  | .upperBound k => do
    let o ← s.upperBound (lt k) (fun a => lt a k)
    .ok (s, .iter (o.map Elem.val))

def VSet.run (lt : α → α → Bool) (s : VSet α) : List (Spec.Op α) → Res (VSet α × List (Spec.Out α))
  | [] => .ok (s, [])
  | op :: ops => do
    let (s', o) ← s.step lt op
    let (s'', os) ← s'.run lt ops
    .ok (s'', o :: os)

/-- The states that a program can reach through the public interface. -/
def Reachable (lt : α → α → Bool) (s : VSet α) : Prop :=
  ∃ ops outs, VSet.empty.run lt ops = .ok (s, outs)

end Verif.VectorSet
