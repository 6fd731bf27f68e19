import Verif.Crc64.Model
import Verif.Common.Res

/-!
# Fixed strings and hashes of texts: `Awl/FixedString.h`, `Awl/Crypto/FixedHash.h`, `Awl/Crypto/IntHash.h`, `Awl/Mp/TypeHash.h`

Characters are integers (`char` is signed).  An array of the language is the list of its elements; reading or writing outside of it is undefined behaviour.
The conversion to `basic_string_view<const CharT>` does not compile when it is used (FixedString.h:85-88).
-/

namespace Verif.FixedStr

open Verif

/-- `fixed_string<CharT, N>`: `N` is known to the compiler, `state` has `N + 1` elements (FixedString.h:14-15, 109). -/
structure Fixed where
  n : Nat
  state : List Int
deriving DecidableEq, Repr

/-- `a[i] = x` (`operator[]`, FixedString.h:25-26, and the array of 109). -/
def put (a : List Int) (i : Nat) (x : Int) : Res (List Int) := if i < a.length then .ok (a.set i x) else .ub

/-- `a[i]` (`operator[]`, FixedString.h:25-26, and the array of 109). -/
def get (a : List Int) (i : Nat) : Res Int :=
  match a[i]? with
  | some x => .ok x
  | none => .ub

/-- The loops that copy (FixedString.h:21-22, 42-45, 99-102): for `i` from `i` to `i + k`, `dst[off + i] = f(src[i])`. -/
def copyLoop (f : Int → Int) (src : List Int) (off : Nat) : Nat → Nat → List Int → Res (List Int)
  | _, 0, dst => .ok dst
  | i, k + 1, dst => do
    let x ← get src i
    let dst ← put dst (off + i) (f x)
    copyLoop f src off (i + 1) k dst

/-- `state` as it is initialized, FixedString.h:109. -/
def zeros (n : Nat) : List Int := List.replicate (n + 1) 0

/-- `fixed_string{ arr }`, FixedString.h:19-23, 112-113: an array of `N + 1` elements makes a `fixed_string<CharT, N>`; there are no arrays without elements. -/
def ofArray (arr : List Int) : Res Fixed := do
  let n := arr.length - 1
  let s ← copyLoop id arr 0 0 n (zeros n)
  return ⟨n, s⟩

/-- `from_ascii(arr)`, FixedString.h:95-105; `bits`: the bits of the character type, which is unsigned if `uns`. -/
def fromAscii (bits : Nat) (uns : Bool) (arr : List Int) : Res Fixed := do
  let n := arr.length - 1
  let s ← copyLoop (fun x => if uns then x % 2 ^ bits else x) arr 0 0 n (zeros n)
  return ⟨n, s⟩

/-- `operator+`, FixedString.h:38-47. -/
def plus (a b : Fixed) : Res Fixed := do
  let s ← copyLoop id a.state 0 0 a.n (zeros (a.n + b.n))
  let s ← copyLoop id b.state a.n 0 b.n s
  return ⟨a.n + b.n, s⟩

/-- The loop of `operator==`, FixedString.h:51-53. -/
def eqLoop (a b : List Int) : Nat → Nat → Res Bool
  | _, 0 => .ok true
  | i, k + 1 => do
    let x ← get a i
    let y ← get b i
    if x != y then return false else eqLoop a b (i + 1) k

/-- `operator==`, FixedString.h:49-54, 69-73. -/
def equal (a b : Fixed) : Res Bool := if a.n = b.n then eqLoop a.state b.state 0 a.n else .ok false

/-- The loop of `operator!=`, FixedString.h:58-60. -/
def neLoop (a b : List Int) : Nat → Nat → Res Bool
  | _, 0 => .ok false
  | i, k + 1 => do
    let x ← get a i
    let y ← get b i
    if x != y then return true else neLoop a b (i + 1) k

/-- `operator!=`, FixedString.h:56-67. -/
def notEqual (a b : Fixed) : Res Bool := if a.n = b.n then neLoop a.state b.state 0 a.n else .ok true

/-- The elements from `begin()` to `end()`, and the text that the conversions give, FixedString.h:30-32, 80-93. -/
def text (a : Fixed) : Res (List Int) := if a.n ≤ a.state.length then .ok (a.state.take a.n) else .ub

/-- A reader of `c_str()` (FixedString.h:75-78): the characters to the first zero; without one it is undefined. -/
def cStr : List Int → Res (List Int)
  | [] => .ub
  | c :: s => if c = 0 then .ok [] else do
    let t ← cStr s
    return c :: t

/-! ### Hashes -/

/-- `Int64Hash(seed)` of characters of one byte, IntHash.h:22-27: `Crc64` and `from_array`. -/
def int64Hash (seed : BitVec 64) (s : List Int) : Int := IntArray.fromArrayU 8 (Crc64.hash seed (s.map UInt8.ofInt))

/-- `FixedHash` of a text object, FixedHash.h:30-40: `std::basic_string` and `std::basic_string_view`. -/
def hashString (seed : BitVec 64) (s : List Int) : Int := int64Hash seed s

/-- `FixedHash` of a fixed string, FixedHash.h:42-46; also `calc_type_hash` with the seed 0, TypeHash.h:13-18. -/
def hashFixed (seed : BitVec 64) (a : Fixed) : Res Int := do
  let t ← text a
  return int64Hash seed t

/-- `FixedHash` of an array, FixedHash.h:48-56: all but the last element. -/
def hashArray (seed : BitVec 64) (arr : List Int) : Int := int64Hash seed (arr.take (arr.length - 1))

end Verif.FixedStr
