import Verif.Coro.GetModel
import Verif.Coro.Spec

namespace Verif.Coro

/-- What structured programs do that also call `get`. -/
inductive Moves (s s' : State) : Prop where
  | op (o : Op) : Structured s o → step s o = .ok s' → Moves s s'
  | get (c x : Nat) : Accessible s x → get s c x = .ok s' → Moves s s'

/-- The states that they reach. -/
inductive ReachG : State → Prop where
  | init : ReachG init
  | step (s s' : State) : ReachG s → Moves s s' → ReachG s'

/-- What these programs can do from a state on. -/
inductive Later (s : State) : State → Prop where
  | refl : Later s s
  | step (s' s'' : State) : Later s s' → Moves s' s'' → Later s s''

/-- The variable `x` holds the task `t`, which can have a value. -/
def Holds (s : State) (x t : Nat) : Prop :=
  ∃ v ∈ s.vars, v.name = x ∧ v.handle = some t ∧ ∃ fr, s.frames t = some fr ∧ fr.kind = .process

end Verif.Coro
