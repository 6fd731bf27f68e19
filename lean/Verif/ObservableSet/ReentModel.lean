import Verif.ObservableSet.Model

/-!
# Observers that change the set

`Awl/ObservableSet.h`, with observers that call `insert`, `erase` and `clear` of the set that is calling them.  What they do is
arbitrary: it may depend on all the calls that were made so far.  The operations are nested in each other; `depth` is how deep
they may be, and a deeper nesting is reported as `none`.

`OnAdded` and `OnRemoving` are given a reference to the element in the set: calling an observer with a reference to an element that is not there any
more is undefined (it reads it).  Simplifications: subscriptions do not change meanwhile (C16, C17 are about that), and the results of the operations are dropped.
-/

namespace Verif.ObservableSet

open Verif.VectorSet

variable {α : Type}

/-- What the last of the calls made so far does to the set (Awl/ObservableSet.h:15-20). -/
abbrev React (α : Type) := List (Note α) → List (Spec.Op α)

/-- The set and all the calls made so far; `none` if the operations are nested too deeply (Awl/ObservableSet.h:22-332). -/
abbrev Now (α : Type) := Option (OSet α × List (Note α))

/-- Sequential composition (a notion of the model; of the statements of Awl/ObservableSet.h:244-271). -/
def next (x : Res (Now α)) (f : OSet α → List (Note α) → Res (Now α)) : Res (Now α) :=
  match x with
  | .ok none => .ok none
  | .ok (some (o, log)) => f o log
  | .throw e => .throw e
  | .ub => .ub

/-- The operations one after another (Awl/ObservableSet.h:143-271). -/
def runOps (exec : OSet α → List (Note α) → Spec.Op α → Res (Now α)) : List (Spec.Op α) → OSet α → List (Note α) → Res (Now α)
  | [], o, log => .ok (some (o, log))
  | op :: ops, o, log => next (exec o log op) (runOps exec ops)

/-- The reference to the element is valid: `ref` is the address of its node (Awl/ObservableSet.h:305, 321). -/
def live (s : VSet α) : Option Nat → Bool
  | none => true
  | some p => s.list.any (fun e => e.id == p)

/-- `m_observable.Notify` (`Awl/ObservableSet.h` 301-327, `Awl/Observable.h` 111-117): the observers one after another, and what they do. -/
def callAll (exec : OSet α → List (Note α) → Spec.Op α → Res (Now α)) (react : React α) (e : Event α) (ref : Option Nat) :
    List Nat → OSet α → List (Note α) → Res (Now α)
  | [], o, log => .ok (some (o, log))
  | a :: as, o, log =>
    if live o.set ref then
      next (runOps exec (react (log ++ [⟨a, e, o.set.forward⟩])) o (log ++ [⟨a, e, o.set.forward⟩])) (callAll exec react e ref as)
    else .ub

/-- `erase(iterator)` (Awl/ObservableSet.h:244-248). -/
def eraseWith (exec : OSet α → List (Note α) → Spec.Op α → Res (Now α)) (react : React α) (o : OSet α) (log : List (Note α)) (e : Elem α) : Res (Now α) :=
  next (callAll exec react (.removing e.val) (some e.id) o.subs o log) fun o' log' => do
    let s ← o'.set.eraseNode e.id
    .ok (some ({ o' with set := s }, log'))

/-- One operation (Awl/ObservableSet.h:143-163, 244-271); the queries do nothing. -/
def rstep (lt : α → α → Bool) (react : React α) : Nat → OSet α → List (Note α) → Spec.Op α → Res (Now α)
  | 0 => fun _ _ _ => .ok none
  | depth + 1 => fun o log op =>
    match op with
    | .insert v => do
      let (s, e, isNew) ← o.set.insert lt v
      if isNew then callAll (rstep lt react depth) react (.added e.val) (some e.id) o.subs { o with set := s } log
      else .ok (some ({ o with set := s }, log))
    | .eraseKey k => do
      match ← o.set.find (lt k) (fun a => lt a k) with
      | some e => eraseWith (rstep lt react depth) react o log e
      | none => .ok (some (o, log))
    | .eraseAt i =>
      match o.set.list[i]? with
      | some e => eraseWith (rstep lt react depth) react o log e
      | none => .ub
    | .clear =>
      if !o.set.isEmpty then
        next (callAll (rstep lt react depth) react .clearing none o.subs o log) fun o' log' => .ok (some ({ o' with set := o'.set.clear }, log'))
      else .ok (some (o, log))
    | _ => .ok (some (o, log))

end Verif.ObservableSet
