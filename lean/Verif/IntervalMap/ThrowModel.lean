import Verif.IntervalMap.Model

/-!
# `interval_map::assign` with exceptions: `Tests/Experimental/IntervalMap.h`

As the model of `assign`, but every operation on values and every allocation of a node may throw.  Moving a value, comparing
and copying keys (of an integral type) and erasing nodes do not throw.
-/

namespace Verif.IntervalMap

/-- The places where `assign` calls something that may throw (Tests/Experimental/IntervalMap.h:260, 270, 336, 351, 362). -/
inductive Point where
  /-- line 260: allocating the node of the part on the left of `a` -/
  | head
  /-- line 270: copying the value for the part on the right of `b` -/
  | tailCopy
  /-- line 270: allocating its node -/
  | tailNode
  /-- line 336: copying (or moving) the new value -/
  | copy
  /-- line 336: allocating the node of the new interval -/
  | node
  /-- line 351: comparing the value with that of the interval on the left -/
  | eqLeft
  /-- line 362: comparing it with that of the interval on the right -/
  | eqRight
deriving Repr, DecidableEq

/-- Which of them throw, and what (Tests/Experimental/IntervalMap.h:234-371). -/
abbrev Faults := Point → Option Exn

variable {V : Type}

/-- Do something that may throw, with the map as it is (Tests/Experimental/IntervalMap.h:260, 270, 336, 351, 362). -/
def guarded (F : Faults) (p : Point) (m : Map V) (k : Out V) : Out V :=
  match F p with
  | some x => .throw m x
  | none => k

/-- The first part of `assign` (Tests/Experimental/IntervalMap.h:242-295). -/
def cutAX (K : KeyType) (F : Faults) (m : Map V) (a b : Int) (k : Map V → Option (Entry V) → Out V) : Out V :=
  match lower m a with
  | none => k m none
  | some e =>
    if e.left < a then
      let m1 := erase m e.right
      match previousKey K a with
      | .throw x => .throw m1 x
      | .ub => .ub
      | .ok r =>
        guarded F .head m1
          (match emplace m1 ⟨r, e.left, e.value⟩ with
          | none => .throw m1 .runtime
          | some m2 =>
            if b < e.right then
              match nextKey K b with
              | .throw x => .throw m2 x
              | .ub => .ub
              | .ok l =>
                guarded F .tailCopy m2 <| guarded F .tailNode m2 <|
                  match emplace m2 ⟨e.right, l, e.value⟩ with
                  | none => .throw m2 .runtime
                  | some m3 => k m3 none
            else k m2 (next m2 r))
    else k m (some e)

/-- Merging with the next interval (Tests/Experimental/IntervalMap.h:359-368). -/
def mergeRightX [DecidableEq V] (F : Faults) (m : Map V) (l b : Int) (v : V) : Out V :=
  match next m b with
  | some n => guarded F .eqRight m (if n.value = v then .ok (erase (setLeft m n.right l) b) else .ok m)
  | none => .ok m

/-- Merging with the previous interval (Tests/Experimental/IntervalMap.h:346-357), then with the next one. -/
def mergeX [DecidableEq V] (F : Faults) (m : Map V) (a b : Int) (v : V) : Out V :=
  match prev m b with
  | some p =>
    guarded F .eqLeft m
      (if p.value = v then mergeRightX F (erase (setLeft m b p.left) p.right) p.left b v else mergeRightX F m a b v)
  | none => mergeRightX F m a b v

/-- The third part (Tests/Experimental/IntervalMap.h:336-369). -/
def insertMergeX [DecidableEq V] (F : Faults) (m : Map V) (a b : Int) (v : V) : Out V :=
  guarded F .copy m <| guarded F .node m <|
    match emplace m ⟨b, a, v⟩ with
    | none => .throw m .runtime
    | some m => mergeX F m a b v

/-- `assign` (Tests/Experimental/IntervalMap.h:234-371). -/
def assignX [DecidableEq V] (K : KeyType) (F : Faults) (m : Map V) (a b : Int) (v : V) : Out V :=
  if a ≤ b then cutAX K F m a b fun m rb => cutB K m b rb fun m => insertMergeX F m a b v else .ok m

/-- A call of `assign` (Tests/Experimental/IntervalMap.h:234-235), and what throws in it. -/
structure Call (V : Type) where
  a : Int
  b : Int
  v : V
  F : Faults

/-- A history of calls; the caller catches the exceptions and goes on with the map as it is.  `none`: undefined
(Tests/Experimental/IntervalMap.h:234-371). -/
def runX [DecidableEq V] (K : KeyType) : Map V → List (Call V) → Option (Map V)
  | m, [] => some m
  | m, c :: h =>
    match assignX K c.F m c.a c.b c.v with
    | .ok m => runX K m h
    | .throw m _ => runX K m h
    | .ub => none

end Verif.IntervalMap
