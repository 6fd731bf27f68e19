import Verif.Convert.Model

/-!
# Conversion of texts with Visual C++: `Awl/String.h:164-236`

`wcsrtombs_s` and `mbsrtowcs_s` as the documentation of the C run-time library describes them (trusted).  With `nullptr` for the destination they give the length with
the terminating zero and leave the source pointer; `count` is ignored then.  Otherwise at most `count` and at most `size` are stored, and a zero behind them; if there is no
room for the zero the handler for invalid parameters is called, which ends the program.  A character that cannot be converted gives EILSEQ, and the destination is empty.
The characters of UTF-16 that are pairs have no code in a `Codec`.
-/

namespace Verif.Convert.Win

open Verif

/-- EILSEQ of Visual C++ (`error`, String.h 194, 203, 219, 228). -/
def eilseq : Nat := 42

/-- How a conversion ends: the text, `string_encoding_error` with its number, the handler for invalid parameters, or undefined behaviour (String.h 188-236). -/
inductive End where
  | text (s : List Nat)
  | encodingError (n : Nat)
  | handler
  | ub
deriving DecidableEq, Repr

/-- What the functions of the library give: the error number, or the length with the zero and what is stored, or the handler (String.h 194, 203, 219, 228). -/
inductive Ret where
  | error (n : Nat)
  | done (len : Nat) (stored : List Nat)
  | handler
deriving DecidableEq, Repr

/-- `wcsrtombs_s(&len, nullptr, 0, &s, 0, &state)` (String.h 194). -/
def wcsMeasure (K : Codec) (s : List Nat) : Ret :=
  match wcsLen K s with
  | none => .error eilseq
  | some l => .done (l + 1) []

/-- The characters that are converted while there is room for `n` bytes, without the zero; `none`: one cannot be converted (String.h 203). -/
def wcsTake (K : Codec) : Nat → List Nat → Option (List Nat)
  | _, [] => some []
  | n, w :: ws =>
    if n = 0 then some [] else
      match K.wc w with
      | none => none
      | some b => if b.length ≤ n then (wcsTake K (n - b.length) ws).map (b ++ ·) else some []

/-- `wcsrtombs_s(&len, dst, size, &s, count, &state)` (String.h 203). -/
def wcsStore (K : Codec) (size count : Nat) (s : List Nat) : Ret :=
  if size = 0 then .handler else
    match wcsTake K (min count size) s with
    | none => .error eilseq
    | some b => if b.length + 1 > size then .handler else .done (b.length + 1) (b ++ [0])

/-- `mbsrtowcs_s(&len, nullptr, 0, &s, 0, &state)` (String.h 219). -/
def mbsMeasure (K : Codec) (s : List Nat) : Ret :=
  match mbsLen K s with
  | none => .error eilseq
  | some l => .done (l + 1) []

/-- The characters that are converted while there is room for `n` of them, without the zero (String.h 228). -/
def mbsTake (K : Codec) : Nat → List Nat → Option (List Nat)
  | 0, _ => some []
  | n + 1, s =>
    if s = [] then some [] else
      match K.mb s with
      | none => none
      | some (w, k) => (mbsTake K n (s.drop (k + 1))).map (w :: ·)

/-- `mbsrtowcs_s(&len, dst, size, &s, count, &state)` (String.h 228). -/
def mbsStore (K : Codec) (size count : Nat) (s : List Nat) : Ret :=
  if size = 0 then .handler else
    match mbsTake K (min count size) s with
    | none => .error eilseq
    | some b => if b.length + 1 > size then .handler else .done (b.length + 1) (b ++ [0])

/-- The two calls: the length is measured, a string of blanks is made and overwritten, and the lengths are compared (String.h 193-210, 218-235). -/
def convert (measure : Ret) (store : Nat → Nat → Ret) : End :=
  match measure with
  | .handler => .handler
  | .error e => .encodingError e
  | .done len _ =>
    match store (len - 1 + 1) len with
    | .handler => .handler
    | .error e => .encodingError e
    | .done ret stored =>
      if ret ≠ len then .encodingError 0 else
        match overwrite (len - 1) stored with
        | .ok t => .text t
        | _ => .ub

/-- `EncodeString` (String.h 188-211). -/
def encodeString (K : Codec) (wstr : List Nat) : End := convert (wcsMeasure K wstr) fun size count => wcsStore K size count wstr

/-- `DecodeString` (String.h 213-236). -/
def decodeString (K : Codec) (mbstr : List Nat) : End := convert (mbsMeasure K mbstr) fun size count => mbsStore K size count mbstr

/-- `FromWString(src)` if `Char` is `wchar_t` gives the text; `ToAString(src)` encodes what `c_str()` shows (String.h 314-327, 291-301). -/
def toAString (K : Codec) (src : List Nat) : End := encodeString K (cstr src)

/-- `FromAString(src)` (String.h 309-312, 267-277). -/
def fromAString (K : Codec) (src : List Nat) : End := decodeString K (cstr src)

end Verif.Convert.Win
