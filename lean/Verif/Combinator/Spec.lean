import Verif.Combinator.Model

/-! # What is expected of `y_combinator`: a recursive function -/

namespace Verif.Combinator

/-- The body of a function that calls itself by its name: there is one functor, and all calls use its members. -/
def interp (self : S → G → A → Option (Except Exn R × S × G)) : Prog S G A R → S → G → Option (Except Exn R × S × G)
  | .done r, s, g => some (r, s, g)
  | .own k, s, g => interp self (k s) s g
  | .setOwn s' k, _, g => interp self k s' g
  | .glob k, s, g => interp self (k g) s g
  | .setGlob g' k, s, _ => interp self k s g'
  | .call a k, s, g =>
    match self s g a with
    | none => none
    | some (r, s', g') => interp self (k r) s' g'

/-- The recursive function with this body.  `none`: it has not returned with `n` nested calls. -/
def recursive (body : A → Prog S G A R) : Nat → S → G → A → Option (Except Exn R × S × G)
  | 0, _, _, _ => none
  | n + 1, s, g, a => interp (recursive body n) (body a) s g

/-- The program does not write to the members of its functor. -/
def Prog.Keeps : Prog S G A R → Prop
  | .done _ => True
  | .own k => ∀ s, (k s).Keeps
  | .setOwn _ _ => False
  | .glob k => ∀ g, (k g).Keeps
  | .setGlob _ k => k.Keeps
  | .call _ k => ∀ r, (k r).Keeps

end Verif.Combinator
