import Verif.Log.Model
import Verif.Convert.Props
import Mathlib.Data.List.Forall2

/-! # Logging: specification -/

namespace Verif.Log

open Verif.Text

/-- The text before the first `c` and the text behind it. -/
def cut (c : Nat) : Str → Option (Str × Str)
  | [] => none
  | x :: xs => if x = c then some ([], xs) else (cut c xs).map fun p => (x :: p.1, p.2)

/-- The names of the levels. -/
def names : List (Method × Str) :=
  [(.debug, [68, 101, 98, 117, 103]), (.trace, [84, 114, 97, 99, 101]), (.info, [73, 110, 102, 111]), (.warning, [87, 97, 114, 110, 105, 110, 103]),
    (.error, [69, 114, 114, 111, 114])]

/-- The level with the name. -/
def levelNamed (s : Str) : Option Method := (names.find? fun p => p.2 == s).map (·.1)

/-- A line of the log: the text before the first tab is the time, up to the next one it is the level, the rest is the message. -/
def readLine (line : Str) : Option (Method × Str) :=
  match cut 9 line with
  | none => none
  | some (_, r) =>
    match cut 9 r with
    | none => none
    | some (name, message) => (levelNamed name).map fun m => (m, message)

/-- The lines of a text, each of which ends with a line feed. -/
def lines : Nat → Str → Option (List Str)
  | _, [] => some []
  | 0, _ :: _ => none
  | n + 1, s =>
    match cut 10 s with
    | none => none
    | some (l, r) => (lines n r).map (l :: ·)

/-- A log that is read line by line. -/
def readLog (s : Str) : Option (List (Method × Str)) :=
  match lines s.length s with
  | none => none
  | some ls => ls.mapM readLine

/-- What is to be seen of a message that has no zero: itself, or its characters in the encoding. -/
inductive Shows (K : Convert.Codec) : Message → Str → Prop
  | narrow (s : Str) : 0 ∉ s → Shows K (.narrow s) s
  | wide (w s : Str) : 0 ∉ w → Convert.Encodes K w s → Shows K (.wide w) s

/-- Two lines make a record. -/
def pairUp : List Str → Option (List Str)
  | [] => some []
  | [_] => none
  | a :: b :: r => (pairUp r).map ((a ++ b) :: ·)

/-- A log whose records are of two lines. -/
def readLog2 (s : Str) : Option (List (Method × Str)) :=
  match lines s.length s with
  | none => none
  | some ls =>
    match pairUp ls with
    | none => none
    | some rs => rs.mapM readLine

end Verif.Log
