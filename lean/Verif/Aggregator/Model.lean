import Verif.Common.Res

/-!
# `aggregator`: `Awl/Aggregator.h`

The values have one type `V` in the model (a sum of the types `Ts...`).  The handler does not use the aggregator itself.
-/

namespace Verif.Aggregator

/-- An `aggregator` (Awl/Aggregator.h:72-76), and the arguments of the calls of the handler, the last call first. -/
structure Agg (V : Type) where
  values : List (Option V)
  cancelled : Bool
  calls : List (List V)

/-- The constructor (Awl/Aggregator.h:29-31), for `n` values. -/
def new (V : Type) (n : Nat) : Agg V := ⟨List.replicate n none, false, []⟩

/-- `all` (Awl/Aggregator.h:44-57). -/
def Agg.all {V : Type} (s : Agg V) : Bool := !s.values.any (·.isNone)

/-- `call` (Awl/Aggregator.h:66-70): the values are moved out; the `optional`s stay engaged and hold moved-from values:
`moved v` is what `v` is after the move (`v` itself for numbers, an empty string for strings, ...).  An empty `optional` is
not dereferenced, see `set`. -/
def Agg.call {V : Type} (moved : V → V) (s : Agg V) : Agg V :=
  { s with values := s.values.map (·.map moved), calls := s.values.filterMap id :: s.calls }

/-- `set<i>` (Awl/Aggregator.h:33-42); `i` is less than the number of values, the compiler checks it. -/
def Agg.set {V : Type} (moved : V → V) (s : Agg V) (i : Nat) (v : V) : Agg V :=
  let s := { s with values := s.values.set i (some v) }
  if s.all && !s.cancelled then s.call moved else s

/-- `cancel` (Awl/Aggregator.h:59-62). -/
def Agg.cancel {V : Type} (s : Agg V) : Agg V := { s with cancelled := true }

/-- The calls that change an aggregator (Awl/Aggregator.h:33-42, 59-62). -/
inductive Op (V : Type) where
  | set (i : Nat) (v : V)
  | cancel

/-- One call (Awl/Aggregator.h:33-42, 59-62). -/
def Agg.step {V : Type} (moved : V → V) (s : Agg V) : Op V → Agg V
  | .set i v => s.set moved i v
  | .cancel => s.cancel

/-- A history of calls of `set` and `cancel` (Awl/Aggregator.h:33-62). -/
def Agg.run {V : Type} (moved : V → V) (s : Agg V) (ops : List (Op V)) : Agg V := ops.foldl (Agg.step moved) s

end Verif.Aggregator
