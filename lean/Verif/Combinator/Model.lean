import Verif.Common.Res

/-!
# `y_combinator` (Awl/Combinator.h)

`y_combinator<R, Args...>(f)` makes a `std::function` out of a functor that gets the function to call itself with as its first argument.

Simplified: the arguments are one value (they are passed by value through `std::function`, Combinator.h 17); the functor does not copy the function
it gets.  The body of the functor is a program that may read and write the members of the functor (what a lambda captured by value), read and write
variables outside of it (captured by reference), call itself, and return or throw.
-/

namespace Verif.Combinator

/-- What the body of a functor does: `S` its members, `G` the variables outside, `A` the arguments, `R` the result (the parameter `f` of Combinator.h 13). -/
inductive Prog (S G A R : Type) where
  | done (r : Except Exn R)
  | own (k : S → Prog S G A R)
  | setOwn (s : S) (k : Prog S G A R)
  | glob (k : G → Prog S G A R)
  | setGlob (g : G) (k : Prog S G A R)
  | call (a : A) (k : Except Exn R → Prog S G A R)

/-- Combinator.h 15: the closure `action`; it captured a copy of the functor. -/
structure Action (S : Type) where
  f : S
deriving DecidableEq

/-- Combinator.h 17: the closure inside of the `std::function`; it captured a copy of the functor and a copy of `action`. -/
structure Fn (S : Type) where
  f : S
  action : Action S
deriving DecidableEq

/-- Combinator.h 15-21: a call `action(action)`; the functor is copied from that in the closure `action` that is called. -/
def Action.apply (self action : Action S) : Fn S := ⟨self.f, action⟩

/-- Combinator.h 13-24 -/
def yCombinator (f : S) : Fn S :=
  let action : Action S := ⟨f⟩
  action.apply action

/-- The body of the functor runs: `s` are the members of the functor that is called, `self` is its first argument (the call of `f`, Combinator.h 19). -/
def runBody (invoke : Fn S → G → A → Option (Except Exn R × G × Fn S)) : Prog S G A R → S → Fn S → G → Option (Except Exn R × G × S)
  | .done r, s, _, g => some (r, g, s)
  | .own k, s, self, g => runBody invoke (k s) s self g
  | .setOwn s' k, _, self, g => runBody invoke k s' self g
  | .glob k, s, self, g => runBody invoke (k g) s self g
  | .setGlob g' k, s, self, _ => runBody invoke k s self g'
  | .call a k, s, self, g =>
    match invoke self g a with
    | none => none
    | some (r, g', self') => runBody invoke (k r) s self' g'

/-- Combinator.h 17-20: the function is called with `a`.  `none`: it has not returned with `n` nested calls. -/
def invoke (body : A → Prog S G A R) : Nat → Fn S → G → A → Option (Except Exn R × G × Fn S)
  | 0, _, _, _ => none
  | n + 1, fn, g, a =>
    match runBody (invoke body n) (body a) fn.f (fn.action.apply fn.action) g with
    | none => none
    | some (r, g', s) => some (r, g', { fn with f := s })

end Verif.Combinator
