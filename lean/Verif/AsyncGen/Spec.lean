import Verif.AsyncGen.Model

/-! # Specification of asynchronous generators -/

namespace Verif.AsyncGen

variable {σ α : Type}

/-- Started at `x` the body gives `l` and is then at `some s`, or has ended. -/
inductive Trace (body : σ → Next σ α) (x : σ) : List (Ans α) → Option σ → Prop
  | start : Trace body x [] (some x)
  | await (l : List (Ans α)) (s s' : σ) : Trace body x l (some s) → body s = .await s' → Trace body x l (some s')
  | got (l : List (Ans α)) (s s' : σ) (a : α) : Trace body x l (some s) → body s = .yield a s' → Trace body x (l ++ [.got a]) (some s')
  | ret (l : List (Ans α)) (s : σ) : Trace body x l (some s) → body s = .ret → Trace body x (l ++ [.ended]) none
  | throw (l : List (Ans α)) (s : σ) (e : Exn) : Trace body x l (some s) → body s = .throw e → Trace body x (l ++ [.thrown e]) none

/-- What the producer `h` gave, in order. -/
def seen (told : List (Nat × Nat × Ans α)) (h : Nat) : List (Ans α) :=
  ((told.filter (fun x => decide (x.2.1 = h))).map (·.2.2)).reverse

/-- The producers the consumer `c` awaited, last first. -/
def asks (asked : List (Nat × Nat)) (c : Nat) : List Nat := (asked.filter (fun x => decide (x.1 = c))).map (·.2)

/-- The producers that resumed the consumer `c`, last first. -/
def answers (told : List (Nat × Nat × Ans α)) (c : Nat) : List Nat := (told.filter (fun x => decide (x.1 = c))).map (·.2.1)

end Verif.AsyncGen
