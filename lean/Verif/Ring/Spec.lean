import Verif.Ring.Model

/-!
# Specification of a bounded double-ended queue

Independent of the ring's buffer: the state is a capacity and a list.
-/

namespace Verif.Ring

variable {α : Type}

/-- What a user of a bounded deque expects from each call; `none` when the call is not allowed (pop of an empty
deque, capacity zero).  A push on a full deque discards the element at the other end; `reserve` keeps the newest
(rightmost) elements that fit. -/
def dequeStep : Nat × List α → Op α → Option (Nat × List α)
  | (c, l), .pushBack x => some (c, if l.length < c then l ++ [x] else l.drop 1 ++ [x])
  | (c, l), .pushFront x => some (c, x :: (if l.length < c then l else l.dropLast))
  | (c, l), .popBack => if l = [] then none else some (c, l.dropLast)
  | (c, l), .popFront => if l = [] then none else some (c, l.drop 1)
  | (c, _), .clear => some (c, [])
  | (_, l), .reserve n => if n = 0 then none else some (n, l.drop (l.length - n))

/-- A history of calls. -/
def dequeRun : Nat × List α → List (Op α) → Option (Nat × List α)
  | s, [] => some s
  | s, o :: os => (dequeStep s o).bind fun s' => dequeRun s' os

open Classical in
/-- Everything the public interface shows of a ring: capacity, size, empty, full, the element at each valid index,
front, back, and the forward and backward passes. -/
structure Shows (r : Ring α) (c : Nat) (l : List α) : Prop where
  capacity : r.capacity = c
  size : r.size = l.length
  empty : r.empty = true ↔ l = []
  full : r.full = true ↔ l.length = c
  get : ∀ (i : Nat) (h : i < l.length), r.get i = .ok l[i]
  front : ∀ h : l ≠ [], r.front = .ok (l.head h)
  back : ∀ h : l ≠ [], r.back = .ok (l.getLast h)
  forward : r.elems = .ok l
  backward : r.relems = .ok l.reverse

end Verif.Ring
