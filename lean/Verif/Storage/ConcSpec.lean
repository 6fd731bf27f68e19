import Verif.Storage.ConcModel

/-! # Specification of C156: what is seen of the steps from outside -/

namespace Verif.Storage.Conc

/-- What was done, in order, and where it led. -/
inductive Exec (next : Next) (fmt : Format (List UInt8)) (m : Mem) (fs : Nat → Files) : List Label → State → Prop
  | start : Exec next fmt m fs [] (init m fs)
  | more {ls s l s'} : Exec next fmt m fs ls s → step next fmt s l = some s' → Exec next fmt m fs (ls ++ [l]) s'

/-- The value, by what was written to it. -/
def valueAfter (m : Mem) (ls : List Label) : Mem :=
  ls.foldl (fun m l => match l with | .write _ a b => fun x => if x = a then b else m x | _ => m) m

/-- The thread that is about to change the value, between its `lock` and its `unlock`. -/
def changing (ls : List Label) : Option Nat :=
  ls.foldl (fun h l => match l with | .lock i => some i | .unlock _ => none | _ => h) none

/-- What a thread did to its files. -/
def ioOf (j : Nat) (ls : List Label) : Prog :=
  ls.filterMap (fun l => match l with | .io k p => if k = j then some p else none | _ => none)

/-- The beginning of what is read of a value that does not change. -/
inductive Reads (next : Next) (m : Mem) : List UInt8 → Prop
  | nil : Reads next m []
  | more {xs a} : Reads next m xs → next xs = some a → Reads next m (xs ++ [m a])

/-- All that is read of it. -/
def Whole (next : Next) (m : Mem) (xs : List UInt8) : Prop := Reads next m xs ∧ next xs = none

/-- `xs` is the value at a moment of `ls2`, which comes after `ls1`, when no thread was about to change it and the thread `j` had not
written to its files yet. -/
def SeenDuring (next : Next) (m : Mem) (j : Nat) (ls1 ls2 : List Label) (xs : List UInt8) : Prop :=
  ∃ a b, ls2 = a ++ b ∧ changing (ls1 ++ .call j :: a) = none ∧ Whole next (valueAfter m (ls1 ++ .call j :: a)) xs ∧ ioOf j a = []

/-- The steps `Save` of thread `j` takes while it has the mutex. -/
def inside (j : Nat) : Label → Bool
  | .look k | .measured k | .read k | .release k => k == j
  | _ => false

end Verif.Storage.Conc
