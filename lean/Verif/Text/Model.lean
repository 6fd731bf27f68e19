import Verif.Common.Res

/-!
# Names of enumerators and text comparisons: `Awl/Reflection.h`, `Awl/EnumTraits.h`, `Awl/String.h`, `Awl/Separator.h`

A text is the list of its character codes, without the terminating zero.
-/

namespace Verif.Text

/-- Texts, Awl/Reflection.h:83; a character is a number. -/
abbrev Str := List Nat

/-- The character `,`, Awl/Reflection.h:91. -/
def comma : Nat := 44
/-- The blank, Awl/Reflection.h:91. -/
def space : Nat := 32

/-- `MemberList::traverse` (Awl/Reflection.h:82-117), the names passed to `accept`.  The second argument is the text from
`p_start` to `p`, the last character first; `none` when `p_start` is null and `eaten_separator` is set.  A failed `assert`
is `.ub`: without assertions a null pointer is passed on (105, 115). -/
def traverse : Str → Option Str → Res (List Str)
  | [], none => .ub
  | [], some [] => .ok []
  | [], some acc => .ok [acc.reverse]
  | [c], acc => traverse [] (some (c :: acc.getD []))
  | c :: d :: rest, acc =>
    if c = comma ∧ d = space then
      match acc with
      | none => .ub
      | some [] => .ub
      | some acc => traverse rest none >>= fun names => .ok (acc.reverse :: names)
    else traverse (d :: rest) (some (c :: acc.getD []))

/-- `MemberList(s)` (Awl/Reflection.h:28, 128-143); `s` is the text of the macro arguments.  The two passes see the same
text. -/
def memberList (s : Str) : Res (List Str) := traverse s (some [])

/-- An enumeration declared with `AWL_SEQUENTIAL_ENUM` (Awl/EnumTraits.h:128-141): `Count`, and the names. -/
structure Enum where
  count : Nat
  names : List Str

/-- `enum_to_index` (Awl/EnumTraits.h:36-46), `validate_enum_index` (49-55), `enum_from_index` (58-63). -/
def toIndex (e : Enum) (v : Nat) : Res Nat := if v ≥ e.count then .throw .runtime else .ok v

/-- Awl/EnumTraits.h:57-63 -/
def fromIndex (e : Enum) (i : Nat) : Res Nat := if i ≥ e.count then .throw .runtime else .ok i

/-- `names()[i]` (Awl/Reflection.h:70-73): `vector::operator[]`. -/
def nameAt (e : Enum) (i : Nat) : Res Str :=
  match e.names[i]? with
  | some s => .ok s
  | none => .ub

/-- `enum_to_string` (Awl/EnumTraits.h:66-69). -/
def toString (e : Enum) (v : Nat) : Res Str := toIndex e v >>= nameAt e

/-- `enum_from_string_impl` (Awl/EnumTraits.h:74-91); `index` counts in `uint8_t`. -/
def fromStringLoop (equal : Str → Str → Bool) (s : Str) : List Str → Nat → Res Nat
  | [], _ => .throw .runtime
  | name :: names, index => if equal name s then .ok index else fromStringLoop equal s names ((index + 1) % 256)

/-- `StringEqual` (Awl/String.h:136-142). -/
def equal (a b : Str) : Bool := a == b

/-- `StringInsensitiveEqual` (Awl/String.h:145-161).  `low` is `std::tolower`; characters are not negative. -/
def equalI (low : Nat → Nat) (a b : Str) : Bool :=
  a.length == b.length && (a.zip b).all (fun p => low p.1 == low p.2)

/-- Awl/EnumTraits.h:94-98 -/
def fromString (e : Enum) (s : Str) : Res Nat := fromStringLoop equal s e.names 0          -- Awl/EnumTraits.h:95-98
/-- Awl/EnumTraits.h:100-104 -/
def fromStringI (low : Nat → Nat) (e : Enum) (s : Str) : Res Nat := fromStringLoop (equalI low) s e.names 0  -- 101-104

/-- `CStringInsensitiveLess` (Awl/String.h:113-133).  Characters are `char` values, -128 to 127; `std::tolower` of a
negative value other than `EOF` (-1) is undefined.  The strings are given without the terminating zero. -/
def lower (low : Int → Int) (c : Int) : Res Int := if c < -1 then .ub else .ok (low c)

/-- Awl/String.h:113-133 -/
def lessI (low : Int → Int) : List Int → List Int → Res Bool
  | l :: ls, r :: rs => do
    let a ← lower low l
    let b ← lower low r
    if a - b ≠ 0 then .ok (decide (a - b < 0)) else lessI low ls rs
  | _, r => .ok (!r.isEmpty)

/-- `out << sep << x` for each `x` with a new `separator` (Awl/Separator.h:11-60): the text written and `first`. -/
def separated (sep : Str) : Bool → List Str → Str
  | _, [] => []
  | true, x :: xs => x ++ separated sep false xs
  | false, x :: xs => sep ++ x ++ separated sep false xs

end Verif.Text
