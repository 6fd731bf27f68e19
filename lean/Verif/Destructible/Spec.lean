import Verif.Destructible.Model

/-! # What C184 means: the program alone says which object a variable has, and what the objects tell

Programs are read backwards, the last step first. -/

namespace Verif.Destructible

/-- A step that copies no variable. -/
def Plain : Op → Prop
  | .copy _ _ | .assign _ _ => False
  | _ => True

def isMake : Op → Bool
  | .make _ true => true
  | _ => false

/-- The object of a variable is the one made when it was defined last. -/
def objOf : List Op → Nat → Option Nat
  | [], _ => none
  | .make w' true :: past, w => if w' = w then some (past.countP isMake) else objOf past w
  | _ :: past, w => objOf past w

/-- Constructors run where variables are defined, destructors where `Destroy` is called, and nowhere else. -/
def events : List Op → List Event
  | [] => []
  | .make _ true :: past => .ctor (past.countP isMake) :: events past
  | .destroy w :: past => ((objOf past w).map Event.dtor).toList ++ events past
  | _ :: past => events past

end Verif.Destructible
