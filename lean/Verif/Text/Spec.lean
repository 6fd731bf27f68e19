import Verif.Text.Model
import Verif.Common.Order

/-! # Names and orders of texts -/

namespace Verif.Text

/-- The names with `sep` between them. -/
def join (sep : Str) : List Str → Str
  | [] => []
  | [x] => x
  | x :: xs => x ++ sep ++ join sep xs

/-- What the preprocessor makes of `A, B, C`: one space after each comma, if there is white space there in the source. -/
def commaSpace : Str := [comma, space]

/-- Identifiers: not empty, no commas. -/
def Ident (x : Str) : Prop := x ≠ [] ∧ comma ∉ x

/-- The lexicographic order of texts in which case does not matter. -/
def lexI (low : Int → Int) : List Int → List Int → Prop
  | [], [] => False
  | [], _ :: _ => True
  | _ :: _, [] => False
  | a :: as, b :: bs => low a < low b ∨ (low a = low b ∧ lexI low as bs)

end Verif.Text
