import Verif.Testing.AttrModel

/-!
# Collections as text: `Awl/Testing/Formatter.h`

`<<` and `>>` of numbers and characters are written out for the "C" locale and streams as they are when they are new.
-/

namespace Verif.Testing

/-- The elements of a collection that has a formatter (Awl/Testing/Formatter.h:80-82): integers of some bits, and the types that are
characters for a stream (`char`, `signed char`, `unsigned char`, that is `uint8_t`).  Collections of strings are `joinWords` and `words`;
`bool`, wide characters and floating point types are left out. -/
inductive Elem where
  | signed (bits : Nat)
  | unsigned (bits : Nat)
  | character
deriving DecidableEq, Repr

/-- `out << e` (Awl/Testing/Formatter.h:109). -/
def putElem : Elem → Int → Str
  | .character, v => [v.toNat]
  | _, v => toStr v

/-- `ToString` (Awl/Testing/Formatter.h:89-113): blanks between the elements. -/
def listToText (T : Elem) (vs : List Int) : Str := joinWords (vs.map (putElem T))

/-- A sign in front of a number (`in >> e`, Awl/Testing/Formatter.h:119). -/
def takeSign : Str → Bool × Str
  | c :: t => if c = minus then (true, t) else if c = plus then (false, t) else (false, c :: t)
  | [] => (false, [])

/-- `in >> e` of a number (Awl/Testing/Formatter.h:119): white space is skipped, a sign and digits are taken; the stream fails if there
are no digits or the number is out of range; a negative number is taken modulo `2 ^ bits` for an unsigned type. -/
def getNumber (T : Elem) (s : Str) : Option (Int × Str) :=
  let p := takeSign (s.dropWhile isSpace)
  match p.2 with
  | [] => none
  | c :: t =>
    if isDigit c then
      let n := number 0 (c :: t)
      let r := (c :: t).dropWhile isDigit
      match T with
      | .signed bits =>
        let v : Int := if p.1 then -(n : Int) else n
        if -2 ^ (bits - 1) ≤ v ∧ v < 2 ^ (bits - 1) then some (v, r) else none
      | .unsigned bits => if n < 2 ^ bits then some (if p.1 then (-(n : Int)) % 2 ^ bits else n, r) else none
      | .character => none
    else none

/-- `in >> e` (Awl/Testing/Formatter.h:119); a character is the next one that is not white space. -/
def getElem (T : Elem) (s : Str) : Option (Int × Str) :=
  if T = .character then
    match s.dropWhile isSpace with
    | [] => none
    | c :: t => some (c, t)
  else getNumber T s

/-- The range of two `istream_iterator`s (Awl/Testing/Formatter.h:119): elements until the stream fails, for whatever reason. -/
def getElems (T : Elem) : Nat → Str → List Int
  | 0, _ => []
  | n + 1, s =>
    match getElem T s with
    | none => []
    | some (v, r) => v :: getElems T n r

/-- `FromString` (Awl/Testing/Formatter.h:115-122); every element takes a character at least. -/
def listFromText (T : Elem) (s : Str) : List Int := getElems T (s.length + 1) s

end Verif.Testing
