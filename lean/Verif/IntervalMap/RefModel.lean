import Verif.IntervalMap.Model

/-!
# `interval_map::assign` with a reference to a value of the map: `Tests/Experimental/IntervalMap.h`

`m.assign(a, b, m.at(k))`: the third argument is bound to the value in a node of the map itself, and read when the new
interval is inserted.
-/

namespace Verif.IntervalMap

variable {V : Type}

/-- The node that `at(k)` refers to (Tests/Experimental/IntervalMap.h:206-219, 228-232), by its right key. -/
def nodeOf (m : Map V) (k : Int) : Option Int :=
  match lower m k with
  | some e => if e.left ≤ k then some e.right else none
  | none => none

/-- The node with the right key `r` is erased in the first part of `assign` (Tests/Experimental/IntervalMap.h:243-256).  A
node with the same key that is inserted afterwards is another one. -/
def erasedA (m : Map V) (a r : Int) : Bool :=
  match lower m a with
  | some e => decide (e.left < a ∧ e.right = r)
  | none => false

/-- `std::forward<U>(value)` (Tests/Experimental/IntervalMap.h:336) for a reference to the node with the right key `r` of
the map `m` at the time of the call, `m2` being the map now: `none` if the node is gone. -/
def readRef (m m2 : Map V) (a r : Int) : Option V :=
  if erasedA m a r then none else (m2.find? (fun e => decide (e.right = r))).map Entry.value

/-- The third part of `assign` (Tests/Experimental/IntervalMap.h:336-369) with a reference: reading a value of an erased node
is undefined. -/
def insertRef [DecidableEq V] (m m2 : Map V) (a b r : Int) : Out V :=
  match readRef m m2 a r with
  | some v => insertMerge m2 a b v
  | none => .ub

/-- `assign(a, b, at(k))` (Tests/Experimental/IntervalMap.h:234-371). -/
def assignRef [DecidableEq V] (K : KeyType) (m : Map V) (a b k : Int) : Out V :=
  match nodeOf m k with
  | none => .throw m .outOfRange
  | some r =>
    if a ≤ b then
      cutA K m a b fun m1 rb => cutB K m1 b rb fun m2 => insertRef m m2 a b r
    else .ok m

end Verif.IntervalMap
