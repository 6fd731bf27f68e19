import Verif.Common.Res

/-!
# `interval_map`: `Tests/Experimental/IntervalMap.h`

Keys are of an integral type with the values `lo … hi`; the comparator is `std::less`.  `std::map` is the list of its nodes
in the order of the keys; an iterator is the key of its node.
-/

namespace Verif.IntervalMap

/-- The integral type of keys.  `wraps`: the type is unsigned, or narrower than `int`, so `key + 1` is reduced modulo the
size of the type; for the other signed types an overflow is undefined (Tests/Experimental/IntervalMap.h:442, 456). -/
structure KeyType where
  lo : Int
  hi : Int
  wraps : Bool

/-- A node of `RightMap` (Tests/Experimental/IntervalMap.h:41-49): the right key, and `RightValue`. -/
structure Entry (V : Type) where
  right : Int
  left : Int
  value : V
deriving Repr, DecidableEq

/-- `m_map` (Tests/Experimental/IntervalMap.h:467), the nodes in the order of the keys. -/
abbrev Map (V : Type) := List (Entry V)

variable {V : Type}

/-- The outcome of a function that modifies the map: undefined, or the map and the exception, if one was thrown (Tests/Experimental/IntervalMap.h:234-371). -/
inductive Out (V : Type) where
  | ok (m : Map V)
  | throw (m : Map V) (e : Exn)
  | ub
deriving Repr, DecidableEq

/-! ## `std::map` -/

/-- `std::map::lower_bound`; `none` is `end()` (Tests/Experimental/IntervalMap.h:243, 299, 415). -/
def lower (m : Map V) (k : Int) : Option (Entry V) := m.find? (fun e => decide (k ≤ e.right))

/-- `std::next` of the iterator to `k`; `none` is `end()` (Tests/Experimental/IntervalMap.h:282, 319, 360). -/
def next (m : Map V) (k : Int) : Option (Entry V) := m.find? (fun e => decide (k < e.right))

/-- `std::prev` of the iterator to `k`; `none` if it is `begin()` (Tests/Experimental/IntervalMap.h:347-349). -/
def prev (m : Map V) (k : Int) : Option (Entry V) := m.reverse.find? (fun e => decide (e.right < k))

/-- `erase(iterator)` (Tests/Experimental/IntervalMap.h:256, 355, 366). -/
def erase (m : Map V) (k : Int) : Map V := m.filter (fun e => decide (e.right ≠ k))

/-- `erase(first, last)`; undefined if `last` comes before `first` (Tests/Experimental/IntervalMap.h:333). -/
def eraseRange (m : Map V) (first : Int) : Option (Entry V) → Option (Map V)
  | none => some (m.filter (fun e => decide (e.right < first)))
  | some last =>
    if last.right < first then none
    else some (m.filter (fun e => decide (e.right < first ∨ last.right ≤ e.right)))

/-- The place of a new node in the order of the keys (Tests/Experimental/IntervalMap.h:260, 270, 336). -/
def insertSorted (x : Entry V) : Map V → Map V
  | [] => [x]
  | e :: m => if x.right < e.right then x :: e :: m else e :: insertSorted x m

/-- `emplace`; `none` if the key is there already (Tests/Experimental/IntervalMap.h:260, 270, 336). -/
def emplace (m : Map V) (x : Entry V) : Option (Map V) :=
  if m.any (fun e => decide (e.right = x.right)) then none else some (insertSorted x m)

/-- `it->second.leftKey = l` (Tests/Experimental/IntervalMap.h:312, 353, 364). -/
def setLeft (m : Map V) (k l : Int) : Map V :=
  m.map (fun e => if e.right = k then { e with left := l } else e)

/-! ## `interval_map` -/

/-- `next_key` (Tests/Experimental/IntervalMap.h:439-451). -/
def nextKey (K : KeyType) (k : Int) : Res Int :=
  if k < K.hi then .ok (k + 1) else if K.wraps then .throw .runtime else .ub

/-- `previous_key` (Tests/Experimental/IntervalMap.h:453-465). -/
def previousKey (K : KeyType) (k : Int) : Res Int :=
  if K.lo < k then .ok (k - 1) else if K.wraps then .throw .runtime else .ub

/-- `at` (Tests/Experimental/IntervalMap.h:206-219) with `find_interval` and `after_left`. -/
def at' (m : Map V) (k : Int) : Res V :=
  match lower m k with
  | some e => if e.left ≤ k then .ok e.value else .throw .outOfRange
  | none => .throw .outOfRange

/-- `contains` (Tests/Experimental/IntervalMap.h:221-226). -/
def contains (m : Map V) (k : Int) : Bool :=
  match lower m k with
  | some e => decide (e.left ≤ k)
  | none => false

/-- The first part of `assign` (Tests/Experimental/IntervalMap.h:242-295): the interval `a` lies in.  The result is the map
and `remove_begin`, `none` being `end()`. -/
def cutA (K : KeyType) (m : Map V) (a b : Int) (k : Map V → Option (Entry V) → Out V) : Out V :=
  match lower m a with
  | none => k m none
  | some e =>
    if e.left < a then
      let m1 := erase m e.right
      match previousKey K a with
      | .throw x => .throw m1 x
      | .ub => .ub
      | .ok r =>
        match emplace m1 ⟨r, e.left, e.value⟩ with
        | none => .throw m1 .runtime
        | some m2 =>
          if b < e.right then
            match nextKey K b with
            | .throw x => .throw m2 x
            | .ub => .ub
            | .ok l =>
              match emplace m2 ⟨e.right, l, e.value⟩ with
              | none => .throw m2 .runtime
              | some m3 => k m3 none
          else k m2 (next m2 r)
    else k m (some e)

/-- The second part (Tests/Experimental/IntervalMap.h:297-334): the interval `b` lies in, and the intervals between. -/
def cutB (K : KeyType) (m : Map V) (b : Int) (removeBegin : Option (Entry V)) (k : Map V → Out V) : Out V :=
  match removeBegin with
  | none => k m
  | some rb =>
    let remove := fun (m : Map V) (last : Option (Entry V)) =>
      match eraseRange m rb.right last with
      | none => Out.ub
      | some m => k m
    match lower m b with
    | none => remove m none
    | some e =>
      if e.left ≤ b then
        match nextKey K b with
        | .throw x => .throw m x
        | .ub => .ub
        | .ok l =>
          if l ≤ e.right then remove (setLeft m e.right l) (some e)
          else remove m (next m e.right)
      else remove m (some e)

/-- Merging with the previous interval (Tests/Experimental/IntervalMap.h:347-357): the map, and the left key of the new
interval. -/
def mergeLeft [DecidableEq V] (m : Map V) (a b : Int) (v : V) : Map V × Int :=
  match prev m b with
  | some p => if p.value = v then (erase (setLeft m b p.left) p.right, p.left) else (m, a)
  | none => (m, a)

/-- Merging with the next interval (Tests/Experimental/IntervalMap.h:359-368). -/
def mergeRight [DecidableEq V] (m : Map V) (l b : Int) (v : V) : Map V :=
  match next m b with
  | some n => if n.value = v then erase (setLeft m n.right l) b else m
  | none => m

/-- The third part (Tests/Experimental/IntervalMap.h:336-369): insert the interval, and merge it with its neighbours. -/
def insertMerge [DecidableEq V] (m : Map V) (a b : Int) (v : V) : Out V :=
  match emplace m ⟨b, a, v⟩ with
  | none => .throw m .runtime
  | some m => .ok (mergeRight (mergeLeft m a b v).1 (mergeLeft m a b v).2 b v)

/-- `assign` (Tests/Experimental/IntervalMap.h:234-371). -/
def assign [DecidableEq V] (K : KeyType) (m : Map V) (a b : Int) (v : V) : Out V :=
  if a ≤ b then cutA K m a b fun m rb => cutB K m b rb fun m => insertMerge m a b v else .ok m

/-- A history of calls of `assign`; it ends with the first exception (Tests/Experimental/IntervalMap.h:234-371). -/
def run [DecidableEq V] (K : KeyType) : Map V → List (Int × Int × V) → Out V
  | m, [] => .ok m
  | m, (a, b, v) :: h =>
    match assign K m a b v with
    | .ok m => run K m h
    | out => out

end Verif.IntervalMap
