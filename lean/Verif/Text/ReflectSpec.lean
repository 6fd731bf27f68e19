import Verif.Text.ReflectModel

/-! # What is expected of the names of reflected structures (C164) -/

namespace Verif.Text

/-- An identifier of C++: letters, digits and underscores. -/
def isIdChar (c : Nat) : Bool := (48 ≤ c ∧ c ≤ 57) ∨ (65 ≤ c ∧ c ≤ 90) ∨ c = 95 ∨ (97 ≤ c ∧ c ≤ 122)

/-- An identifier of C++ is not empty and has only these characters. -/
def Identifier (x : Str) : Prop := x ≠ [] ∧ ∀ c ∈ x, isIdChar c = true

/-- The names the user wrote. -/
def Source.ids (s : Source) : List Str := s.first :: s.rest.map (·.2)

/-- The names the user wrote are identifiers. -/
def Source.Ok (s : Source) : Prop := ∀ x ∈ s.ids, Identifier x

/-- The source is written as `a, b, c`: white space behind every comma, none before it. -/
def Source.Usual (s : Source) : Prop := ∀ p ∈ s.rest, p.1.before = false ∧ p.1.after = true

/-- The value of the member of that name. -/
def valueOf (ids : List Str) (members : List AnyVal) (n : Str) : Option AnyVal := (ids.zip members).lookup n

end Verif.Text
