import Verif.IntervalMap.Model

/-!
# Iterators of `interval_map`: `Tests/Experimental/IntervalMap.h`

An iterator of the `std::map` is the list of the nodes from its node on.  Assertions are off.  `begin() const`, `cbegin()`, `end() const` and `cend()` (191-196) make an `iterator`
from a pointer to a constant map and do not compile, so only iterators of maps that are not constant are modelled.
-/

namespace Verif.IntervalMap

variable {V : Type}

/-- `MyIterator` (Tests/Experimental/IntervalMap.h:174-178): `m_i` and `m_offset`. -/
structure Iter (V : Type) where
  rest : Map V
  offset : Int
deriving Repr, DecidableEq

/-- `begin()` (Tests/Experimental/IntervalMap.h:190). -/
def Iter.begin (m : Map V) : Iter V := ⟨m, 0⟩

/-- `end()` (Tests/Experimental/IntervalMap.h:194). -/
def Iter.end : Iter V := ⟨[], 0⟩

/-- A sum or a difference is converted to the key type (Tests/Experimental/IntervalMap.h:74, 145): for the types that do not wrap the arithmetic itself is undefined. -/
def toKey (K : KeyType) (x : Int) : Res Int :=
  if K.lo ≤ x ∧ x ≤ K.hi then .ok x else if K.wraps then .ok (K.lo + (x - K.lo) % (K.hi - K.lo + 1)) else .ub

/-- `operator*` (Tests/Experimental/IntervalMap.h:70-77): the key and the value. -/
def Iter.deref (K : KeyType) (it : Iter V) : Res (Int × V) :=
  match it.rest with
  | [] => .ub
  | e :: _ =>
    match toKey K (e.left + it.offset) with
    | .ok k => .ok (k, e.value)
    | .throw x => .throw x
    | .ub => .ub

/-- `move_next` (Tests/Experimental/IntervalMap.h:141-157), called by `++`. -/
def Iter.next (K : KeyType) (it : Iter V) : Res (Iter V) :=
  match it.rest with
  | [] => .ub
  | e :: m =>
    match toKey K (e.right - e.left) with
    | .ok length =>
      if it.offset = length then .ok ⟨m, 0⟩
      else
        match nextKey K it.offset with
        | .ok o => .ok ⟨e :: m, o⟩
        | .throw x => .throw x
        | .ub => .ub
    | .throw x => .throw x
    | .ub => .ub

/-- `move_prev` (Tests/Experimental/IntervalMap.h:159-162), called by `--`. -/
def Iter.prev (_it : Iter V) : Res (Iter V) := .throw .runtime

/-- `for (i = begin(); i != end(); ++i) visit(*i);`, at most `n` turns from `it` on: what was visited and the iterator (Tests/Experimental/IntervalMap.h:70-121). -/
def visit (K : KeyType) : Nat → Iter V → Res (List (Int × V) × Iter V)
  | 0, it => .ok ([], it)
  | n + 1, it =>
    if it.rest.isEmpty ∧ it.offset = 0 then .ok ([], it)
    else do
      let x ← it.deref K
      let it ← it.next K
      let (l, it) ← visit K n it
      .ok (x :: l, it)

/-- `*rbegin()` (Tests/Experimental/IntervalMap.h:198): `std::reverse_iterator` dereferences the iterator before. -/
def rfirst (K : KeyType) (_m : Map V) : Res (Int × V) := do
  let it ← (Iter.end (V := V)).prev
  it.deref K

end Verif.IntervalMap
