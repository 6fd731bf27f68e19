import Verif.Common.Res

/-!
# Conversion of texts and printing of 128 bit numbers: `Awl/String.h`

The conversion is the one for other compilers than Visual C++ (String.h 238-260).  Characters are natural numbers, a text is a list of them.
-/

namespace Verif.Convert

open Verif

/-- The encoding of the locale: what `wcrtomb` and `mbrtowc` do with a character other than the terminating zero.  `mb bytes = some (w, k)`: the first
`k + 1` bytes are the character `w`.  Encodings with shift states are left out (a parameter of String.h 244, 246, 254, 256). -/
structure Codec where
  wc : Nat → Option (List Nat)
  mb : List Nat → Option (Nat × Nat)

/-- What a pointer to the characters (`c_str()`) shows of a text (String.h 311, 316, 326). -/
def cstr (s : List Nat) : List Nat := s.takeWhile (· ≠ 0)

/-- `std::wcsrtombs(nullptr, &s, 0, &state)`: the number of bytes without the terminating zero, `none` for `(size_t)-1` (String.h 244). -/
def wcsLen (K : Codec) : List Nat → Option Nat
  | [] => some 0
  | w :: ws => match K.wc w with
    | none => none
    | some b => (wcsLen K ws).map (b.length + ·)

/-- `std::wcsrtombs(dst, &s, n, &state)`: the bytes that are stored (String.h 246). -/
def wcsPut (K : Codec) (n : Nat) : List Nat → List Nat
  | [] => if n = 0 then [] else [0]
  | w :: ws => match K.wc w with
    | none => []
    | some b => if b.length ≤ n then b ++ wcsPut K (n - b.length) ws else []

/-- `std::mbsrtowcs(nullptr, &s, 0, &state)` (String.h 254). -/
def mbsLen (K : Codec) (s : List Nat) : Option Nat :=
  if s = [] then some 0
  else match K.mb s with
    | none => none
    | some (_, k) => (mbsLen K (s.drop (k + 1))).map (1 + ·)
termination_by s.length
decreasing_by
  rename_i h
  have := List.length_pos_iff.2 h
  simp only [List.length_drop]
  omega

/-- `std::mbsrtowcs(dst, &s, n, &state)`: the characters that are stored (String.h 256). -/
def mbsPut (K : Codec) (n : Nat) (s : List Nat) : List Nat :=
  if n = 0 then []
  else if s = [] then [0]
  else match K.mb s with
    | none => []
    | some (w, k) => w :: mbsPut K (n - 1) (s.drop (k + 1))
termination_by s.length
decreasing_by
  rename_i h
  have := List.length_pos_iff.2 h
  simp only [List.length_drop]
  omega

/-- A string of `len` blanks (and the terminating zero behind it) after `written` has been stored at its begin: storing anything but the zero behind the
string, or more, is undefined (String.h 245-246, 255-256). -/
def overwrite (len : Nat) (written : List Nat) : Res (List Nat) :=
  let buf := written ++ (List.replicate len 32 ++ [0]).drop written.length
  if buf.length = len + 1 ∧ buf[len]? = some 0 then .ok (buf.take len) else .ub

/-- `EncodeString`, String.h 240-248; a string of `(size_t)-1` characters throws `std::length_error`. -/
def encodeString (K : Codec) (wstr : List Nat) : Res (List Nat) :=
  match wcsLen K wstr with
  | none => .throw .logic
  | some len => overwrite len (wcsPut K (len + 1) wstr)

/-- `DecodeString`, String.h 250-258. -/
def decodeString (K : Codec) (mbstr : List Nat) : Res (List Nat) :=
  match mbsLen K mbstr with
  | none => .throw .logic
  | some len => overwrite len (mbsPut K (len + 1) mbstr)

/-- `FromWString(src)`, String.h 324-327, 279-289, `Char` is `char`. -/
def fromWString (K : Codec) (src : List Nat) : Res (List Nat) := encodeString K (cstr src)

/-- `FromAString(src)`, String.h 309-312, 267-277; `wide`: `Char` is `wchar_t`. -/
def fromAString (K : Codec) (wide : Bool) (src : List Nat) : Res (List Nat) := if wide then decodeString K (cstr src) else .ok (cstr src)

/-- `ToAString(src)`, String.h 314-317, 291-301. -/
def toAString (K : Codec) (wide : Bool) (src : List Nat) : Res (List Nat) := if wide then encodeString K (cstr src) else .ok (cstr src)

/-- UTF-8, as `wcrtomb` of a UTF-8 locale does it (what String.h 244-246 calls in such a locale). -/
def utf8wc (w : Nat) : Option (List Nat) :=
  if w < 0x80 then some [w]
  else if w < 0x800 then some [0xC0 + w / 64, 0x80 + w % 64]
  else if w < 0x10000 then if 0xD800 ≤ w ∧ w < 0xE000 then none else some [0xE0 + w / 4096, 0x80 + w / 64 % 64, 0x80 + w % 64]
  else if w < 0x110000 then some [0xF0 + w / 262144, 0x80 + w / 4096 % 64, 0x80 + w / 64 % 64, 0x80 + w % 64]
  else none

/-- A continuation byte (a part of what String.h 254-256 calls). -/
def isCont (b : Nat) : Bool := 0x80 ≤ b && b < 0xC0

/-- UTF-8, as `mbrtowc` does it: overlong forms and surrogates are errors (what String.h 254-256 calls in such a locale). -/
def utf8mb : List Nat → Option (Nat × Nat)
  | [] => none
  | a :: r =>
    if a < 0x80 then some (a, 0)
    else if 0xC2 ≤ a ∧ a < 0xE0 then
      match r with
      | b :: _ => if isCont b then some ((a - 0xC0) * 64 + (b - 0x80), 1) else none
      | _ => none
    else if 0xE0 ≤ a ∧ a < 0xF0 then
      match r with
      | b :: d :: _ =>
        let w := (a - 0xE0) * 4096 + (b - 0x80) * 64 + (d - 0x80)
        if isCont b ∧ isCont d ∧ 0x800 ≤ w ∧ ¬ (0xD800 ≤ w ∧ w < 0xE000) then some (w, 2) else none
      | _ => none
    else if 0xF0 ≤ a ∧ a < 0xF5 then
      match r with
      | b :: d :: e :: _ =>
        let w := (a - 0xF0) * 262144 + (b - 0x80) * 4096 + (d - 0x80) * 64 + (e - 0x80)
        if isCont b ∧ isCont d ∧ isCont e ∧ 0x10000 ≤ w ∧ w < 0x110000 then some (w, 3) else none
      | _ => none
    else none

/-- The encoding UTF-8 (what String.h 244-256 calls in such a locale). -/
def utf8 : Codec := ⟨utf8wc, utf8mb⟩

/-- The locale "C" that a program starts with (what String.h 244-256 calls in it). -/
def ascii : Codec := ⟨fun w => if w < 0x80 then some [w] else none, fun s => match s with
  | [] => none
  | b :: _ => if b < 0x80 then some (b, 0) else none⟩

/-! ### 128 bit numbers -/

/-- A stream that adjusts to the right: what has been written, the width and the fill character (`out` of String.h 398, 414-420). -/
structure Out where
  text : List Nat
  width : Nat
  fill : Nat

/-- `out << string`, `out << character`: fills up to the width, which is reset (String.h 420, 452, 465). -/
def Out.put (o : Out) (s : List Nat) : Out := ⟨o.text ++ List.replicate (o.width - s.length) o.fill ++ s, 0, o.fill⟩

/-- The loop of String.h 405-410. -/
def countDigits (temp len : Nat) : Nat := if 9 < temp then countDigits (temp / 10) (len + 1) else len
termination_by temp

/-- The loop of String.h 437-447. -/
def pushDigits (val : Nat) (result : List Nat) : List Nat :=
  let next := val / 10
  let result := result ++ [48 + (val - next * 10)]
  if 9 < val then pushDigits next result else result
termination_by val

/-- The loop of String.h 418-421. -/
def putFill (o : Out) : Nat → Out
  | 0 => o
  | n + 1 => putFill (o.put [o.fill]) n

/-- `operator << (std::basic_ostream<C>&, __uint128_t)`, String.h 397-453. -/
def putU128 (o : Out) (val : Nat) : Out :=
  let len := if val ≠ 0 then countDigits val 1 else 1
  let o := if 1 < o.width ∧ o.width < len then putFill o (len - o.width) else o
  let result := if val = 0 then [48] else pushDigits val []
  o.put result.reverse

/-- `operator << (std::basic_ostream<C>&, __int128_t)`, String.h 455-471; the negation of the smallest number is undefined. -/
def putI128 (o : Out) (val : Int) : Res Out :=
  if o.width ≠ 0 then .throw .runtime
  else if val < 0 then
    if -val < 2 ^ 127 then .ok (putU128 (o.put [45]) (-val).toNat) else .ub
  else .ok (putU128 o val.toNat)

end Verif.Convert
