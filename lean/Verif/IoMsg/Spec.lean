import Verif.IoMsg.Model

/-!
# What the texts of exceptions should say

Stated with the tables in a stream and in a program only.
-/

namespace Verif.IoMsg

open Verif.Vts

/-- The exception without its data. -/
def Err.kind : Err → Exn
  | .eof _ _ => .endOfFile
  | .corruption _ => .corruption
  | .fieldNotFound _ => .fieldNotFound
  | .typeMismatch _ _ _ => .typeMismatch
  | .ioError _ => .io

/-- The outcome without the data of the exception. -/
def Out.erase {α : Type} : Out α → Res α
  | .ok a => .ok a
  | .throw e => .throw e.kind
  | .ub => .ub

/-- The exception has no text of its own, and the name in it, if any, has no apostrophe, as identifiers of C++. -/
def Plain : Err → Prop
  | .eof _ _ | .corruption _ => True
  | .fieldNotFound n | .typeMismatch n _ _ => '\'' ∉ n
  | .ioError _ => False

/-- A field of the stream has a type that the program has too, or is a structure. -/
def KnownType (old_tm new_tm : List Name) (f : Name × Nat) : Prop :=
  f.2 = 2 ^ 64 - 1 ∨ ∃ tn, old_tm[f.2]? = some tn ∧ tn ∈ new_tm

/-- The type of a field of the stream is in its table of types, but the program does not have it. -/
def UnknownType (old_tm new_tm : List Name) (f : Name × Nat) : Prop :=
  f.2 ≠ 2 ^ 64 - 1 ∧ ∃ tn, old_tm[f.2]? = some tn ∧ tn ∉ new_tm

/-- The program has no field of the (new) name of this field. -/
def Removed (rn : Name → Name) (right : Proto) (f : Name × Option Nat) : Prop := ∀ g ∈ right, g.1 ≠ rn f.1

/-- The types of a field of the stream and of the field that the program has for it are the same. -/
def SameType (names : List Name) (o n : Option Nat) : Prop :=
  o = n ∨ ∃ a b x, o = some a ∧ n = some b ∧ names[a]? = some x ∧ names[b]? = some x

/-- The types are different: two types with different names, or a structure and not a structure. -/
def OtherType (names : List Name) (o n : Option Nat) : Prop :=
  (∃ a b x y, o = some a ∧ n = some b ∧ names[a]? = some x ∧ names[b]? = some y ∧ x ≠ y) ∨
    (o = none ∧ n ≠ none) ∨ (o ≠ none ∧ n = none)

/-- The program has a field of the name of this field, of the same type. -/
def Kept (names : List Name) (rn : Name → Name) (right : Proto) (f : Name × Option Nat) (j : Nat) : Prop :=
  ∃ g, right[j]? = some g ∧ g.1 = rn f.1 ∧ SameType names f.2 g.2

end Verif.IoMsg
