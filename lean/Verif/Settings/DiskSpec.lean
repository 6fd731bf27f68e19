import Verif.Settings.DiskModel

/-!
# Specification of settings that are found by their names

Nothing here mentions how `load` and `save` work.
-/

namespace Verif.Settings.Disk

open Storage

variable {V : Type}

/-- What happens in a history that starts without files and objects. -/
def Reach (fmt : Format V) (l : List (Act V)) (s : Sys V) : Prop := run fmt init l = .ok s

/-- The object has the files open that are named by `n`. -/
def OpenAs (s : Sys V) (a : Nat) (n : Name) : Prop :=
  ∃ o i j, s.obj a = some o ∧ o.fds = some (i, j) ∧ s.dir (masterName n) = some i ∧ s.dir (backupName n) = some j

/-- The object has one of the files open that are named by `n`. -/
def Touches (s : Sys V) (a : Nat) (n : Name) : Prop :=
  ∃ o i j, s.obj a = some o ∧ o.fds = some (i, j) ∧ (s.dir (masterName n) = some i ∨ s.dir (backupName n) = some j)

/-- The value of an object. -/
def valueOf (s : Sys V) (a : Nat) : Option V := (s.obj a).map (·.val)

/-- An object that opens the settings `n` and loads them, with no errors, is told that they were there and gets the value `w`. -/
def Finds (fmt : Format V) (s : Sys V) (n : Name) (w : V) : Prop :=
  ∀ b, (s.obj b).isSome = true → ∃ s1 s2, step fmt s (.open b n false false) = (s1, .ok (some true)) ∧
    step fmt s1 (.load b .ok .ok none) = (s2, .ok (some true)) ∧ valueOf s2 b = some w

/-- The same, but the settings are new: the value is left as it was. -/
def FindsNone (fmt : Format V) (s : Sys V) (n : Name) : Prop :=
  ∀ b, (s.obj b).isSome = true → ∃ s1 s2, step fmt s (.open b n false false) = (s1, .ok (some false)) ∧
    step fmt s1 (.load b .ok .ok none) = (s2, .ok (some false)) ∧ valueOf s2 b = valueOf s b

/-- A call that neither saves to the settings `n` nor removes them; a load has both files of the settings open or none.  `reads`: the errors of reading backups that are
allowed. -/
def QuietAct (reads : RF → Prop) (s : Sys V) (n : Name) : Act V → Prop
  | .remove _ m _ _ => m ≠ n
  | .save c _ => ¬ Touches s c n
  | .load c rb _ _ => Touches s c n → OpenAs s c n ∧ reads rb
  | _ => True

/-- All calls are so. -/
def Quiet (reads : RF → Prop) (fmt : Format V) (n : Name) : Sys V → List (Act V) → Prop
  | _, [] => True
  | s, x :: l => QuietAct reads s n x ∧ Quiet reads fmt n (step fmt s x).1 l

/-- A `remove` that removes the master and not the backup. -/
def Act.halfRemoves : Act V → Bool
  | .remove _ _ fm fb => !fm && fb
  | _ => false

/-- The call opens the settings `n`. -/
def Act.opens (n : Name) : Act V → Bool
  | .open _ m _ _ => m == n
  | _ => false

/-- The call ends the use of files by the object `a`, or begins one. -/
def Act.rebinds (a : Nat) : Act V → Bool
  | .open b _ _ _ | .close b | .destroy b | .remove b _ _ _ => b == a
  | _ => false

/-- The call removes the settings `n`. -/
def Act.removes (n : Name) : Act V → Bool
  | .remove _ m _ _ => m == n
  | _ => false

end Verif.Settings.Disk
