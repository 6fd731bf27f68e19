import Verif.Generator.Model

/-! # Specification of generators -/

namespace Verif.Generator

/-- The first `n` things the body does: values, and at most one end. -/
def trace {σ α : Type} (body : σ → Next σ α) : Nat → σ → List (Ans α)
  | 0, _ => []
  | n + 1, s =>
    match body s with
    | .yield a s' => .got a :: trace body n s'
    | .ret => [.ended]
    | .throw e => [.thrown e]
    | .ub => []

/-- What the resumptions of the coroutine gave, in order. -/
def seen {α : Type} (log : List (Nat × Ans α)) (h : Nat) : List (Ans α) :=
  ((log.filter (fun x => decide (x.1 = h))).map (·.2)).reverse

/-- The last thing the coroutine gave. -/
def last {α : Type} (log : List (Nat × Ans α)) (h : Nat) : Option (Ans α) := (seen log h).getLast?

/-- The body gives the values `l` and then ends, with the exception `e` if there is one. -/
inductive Gives {σ α : Type} (body : σ → Next σ α) : σ → List α → Option Exn → Prop
  | ret (s : σ) : body s = .ret → Gives body s [] none
  | throw (s : σ) (e : Exn) : body s = .throw e → Gives body s [] (some e)
  | yield (s s' : σ) (a : α) (l : List α) (e : Option Exn) : body s = .yield a s' → Gives body s' l e → Gives body s (a :: l) e

/-- `map` that stops at the first exception. -/
def mapTrace {α β : Type} (f : α → Except Exn β) : List (Ans α) → List (Ans β)
  | [] => []
  | .got a :: l =>
    match f a with
    | .ok b => .got b :: mapTrace f l
    | .error e => [.thrown e]
  | .ended :: _ => [.ended]
  | .thrown e :: _ => [.thrown e]
  | _ :: _ => []

end Verif.Generator
