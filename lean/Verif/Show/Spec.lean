import Verif.Show.Model

namespace Verif.Show

/-- The value of a digit character. -/
def valueOf (c : Char) : Nat := if c.toNat < 58 then c.toNat - 48 else c.toNat - 87

def IsDigit (b : Nat) (c : Char) : Prop := ∃ d < b, c.toNat = if d < 10 then 48 + d else 87 + d

/-- The number that digits mean. -/
def valueOfText (b : Nat) (t : List Char) : Nat := t.foldl (fun a c => a * b + valueOf c) 0

/-- The text is the number: digits without a zero in front, with a minus if it is negative. -/
def Numeral (t : List Char) (n : Int) : Prop :=
  ∃ ds, t = (if n < 0 then '-' :: ds else ds) ∧ ds ≠ [] ∧ (∀ c ∈ ds, IsDigit 10 c) ∧ (ds.head? = some '0' → ds = ['0']) ∧
    valueOfText 10 ds = n.natAbs

/-- The names of the units and their nanoseconds. -/
inductive IsUnit : List Char → Int → Prop where
  | hour : IsUnit "h".toList (60 * 60 * 10 ^ 9)
  | minute : IsUnit "min".toList (60 * 10 ^ 9)
  | second : IsUnit "s".toList (10 ^ 9)
  | milli : IsUnit "ms".toList (10 ^ 6)
  | micro : IsUnit "us".toList (10 ^ 3)
  | nano : IsUnit "ns".toList 1

/-- The text says `p` nanoseconds, and its last unit is `u`. -/
inductive Says : List Char → Int → Int → Prop where
  | one (t n : List Char) (c u : Int) : Numeral t c → IsUnit n u → Says (t ++ n) (c * u) u
  | two (t n t' n' : List Char) (c u c' u' : Int) : Numeral t c → IsUnit n u → Numeral t' c' → IsUnit n' u' →
      c'.natAbs * u' < u → Says (t ++ n ++ ':' :: (t' ++ n')) (c * u + c' * u') u'

/-- A stream as it is when it is new: decimal, nothing to pad. -/
def Plain (s : Stream) : Prop := s.hex = false ∧ s.width = 0

/-- Text is added, nothing else changes. -/
def Stream.add (s : Stream) (t : List Char) : Stream := { s with text := s.text ++ t }

end Verif.Show
