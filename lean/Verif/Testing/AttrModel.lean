import Verif.Testing.Model

/-!
# Attribute values: `Awl/Testing/ScalarFormatter.h`, `Formatter.h`, `LocalAttribute.h`

`std::to_string` and `std::stoi` and its relatives are written out for the "C" locale.
-/

namespace Verif.Testing

/-- The character `0` in numbers, Awl/Testing/ScalarFormatter.h:17-28. -/
def zero : Nat := 48
/-- The character `-` in numbers, Awl/Testing/ScalarFormatter.h:17-28. -/
def minus : Nat := 45
/-- The character `+`, accepted by `std::stoi` and the others, Awl/Testing/ScalarFormatter.h:58-86. -/
def plus : Nat := 43
/-- The separator of elements, Awl/Testing/Formatter.h:94. -/
def blank : Nat := 32

/-- Digits, as `std::stoi` and the others, Awl/Testing/ScalarFormatter.h:58-86, see them. -/
def isDigit (c : Nat) : Bool := decide (zero ≤ c ∧ c ≤ 57)
/-- White space, as `std::stoi` and the others, Awl/Testing/ScalarFormatter.h:58-86, and `>>`, Awl/Testing/Formatter.h:124, skip it. -/
def isSpace (c : Nat) : Bool := decide (c = 32 ∨ (9 ≤ c ∧ c ≤ 13))

/-- Decimal digits (`std::to_string`, Awl/Testing/ScalarFormatter.h:17-28). -/
def digits (n : Nat) : Str := if n < 10 then [zero + n] else digits (n / 10) ++ [zero + n % 10]

/-- `std::to_string` (Awl/Testing/ScalarFormatter.h:17-27). -/
def toStr (v : Int) : Str := if v < 0 then minus :: digits v.natAbs else digits v.natAbs

/-- Digits at the beginning of a text (part of `std::stoi` and the others, Awl/Testing/ScalarFormatter.h:58-86). -/
def number : Nat → Str → Nat
  | acc, [] => acc
  | acc, c :: s => if isDigit c then number (acc * 10 + (c - zero)) s else acc

/-- `strtol`: white space, a sign, digits; what follows is ignored.  `none`: no digits.  The sign and the magnitude (part of `std::stoi` and the others, Awl/Testing/ScalarFormatter.h:58-86). -/
def scan (s : Str) : Option (Bool × Nat) :=
  let s := s.dropWhile isSpace
  let (neg, s) := match s with
    | c :: t => if c = minus then (true, t) else if c = plus then (false, t) else (false, c :: t)
    | [] => (false, [])
  match s with
  | c :: t => if isDigit c then some (neg, number 0 (c :: t)) else none
  | [] => none

/-- `std::stoi`, `std::stol`, `std::stoll` with values of `bits` bits (Awl/Testing/ScalarFormatter.h:58-76). -/
def stoSigned (bits : Nat) (s : Str) : Res Int :=
  match scan s with
  | none => .throw .invalidArg
  | some (neg, n) =>
    let v : Int := if neg then -(n : Int) else n
    if -2 ^ (bits - 1) ≤ v ∧ v < 2 ^ (bits - 1) then .ok v else .throw .outOfRange

/-- `std::stoul`, `std::stoull`: a magnitude that fits is negated modulo `2 ^ bits` (Awl/Testing/ScalarFormatter.h:78-86). -/
def stoUnsigned (bits : Nat) (s : Str) : Res Int :=
  match scan s with
  | none => .throw .invalidArg
  | some (neg, n) =>
    if n < 2 ^ bits then .ok (if neg then (-(n : Int)) % 2 ^ bits else n) else .throw .outOfRange

/-- The arithmetic types with a formatter (Awl/Testing/ScalarFormatter.h:53-86; the floating point types, 88-101, are left out). -/
inductive Ty where
  | bool | int | uint | long | longlong | ulong | ulonglong
deriving DecidableEq, Repr

/-- `FromString` (Awl/Testing/ScalarFormatter.h:53-86); `bool` as 0 or 1, `long` of 64 bits. -/
def fromString : Ty → Str → Res Int
  | .bool, _ => .ok 1
  | .int, s => stoSigned 32 s
  | .uint, s => stoSigned 32 s >>= fun v => .ok (v % 2 ^ 32)
  | .long, s => stoSigned 64 s
  | .longlong, s => stoSigned 64 s
  | .ulong, s => stoUnsigned 64 s
  | .ulonglong, s => stoUnsigned 64 s

/-- The value of an attribute (Awl/Testing/LocalAttribute.h:20-45, Awl/Testing/AttributeProvider.h:44-54): the default if it is not given or
cannot be read. -/
def attrValue (T : Ty) (given : Option Str) (default : Int) : Int :=
  match given with
  | none => default
  | some s => match fromString T s with
    | .ok v => v
    | _ => default

/-- `ToString` of a collection of texts (Awl/Testing/Formatter.h:86-113). -/
def joinWords : List Str → Str
  | [] => []
  | [w] => w
  | w :: ws => w ++ blank :: joinWords ws

/-- `FromString` of a collection of texts (Awl/Testing/Formatter.h:115-122): the words, read with `>>`; `w` is the word being
read. -/
def wordsAux : Str → Str → List Str
  | w, [] => if w = [] then [] else [w]
  | w, c :: s => if isSpace c then (if w = [] then wordsAux [] s else w :: wordsAux [] s) else wordsAux (w ++ [c]) s

/-- What `std::istream_iterator<String>` finds in a text, Awl/Testing/Formatter.h:120-127. -/
def words (s : Str) : List Str := wordsAux [] s

end Verif.Testing
