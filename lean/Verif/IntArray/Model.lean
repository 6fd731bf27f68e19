/-!
# `Awl/Int2Array.h`: integers as big-endian byte arrays

`n` is `sizeof(T)`.  An integer of `T` is a mathematical integer (any signed or unsigned value); the shift is
arithmetic (C++20).  Arrays are lists of `n` bytes.
-/

namespace Verif.IntArray

/-- The loop of `to_array`, `Int2Array.h:20-23`: `i` goes from `sizeof(T)` down to 1. -/
def toArrayLoop (n : Nat) (v : Int) : Nat → List UInt8 → List UInt8
  | 0, a => a
  | i + 1, a => toArrayLoop n v i (a.set (i + 1 - 1) (UInt8.ofInt (v >>> ((n - (i + 1)) * 8))))

/-- `to_array`, `Int2Array.h:15-26`. -/
def toArray (n : Nat) (v : Int) : List UInt8 := toArrayLoop n v n (List.replicate n 0)

/-- The loop of `from_array`, `Int2Array.h:31-36`, on the bits of `T`: `val << 8` drops the bits shifted out. -/
def fromArrayBits (n : Nat) (a : List UInt8) : Nat :=
  a.foldl (fun val byte => ((val <<< 8) + byte.toNat) % 256 ^ n) 0

/-- `from_array<T>` for an unsigned `T`, `Int2Array.h:29-39`. -/
def fromArrayU (n : Nat) (a : List UInt8) : Int := fromArrayBits n a

/-- `from_array<T>` for a signed `T` (two's complement), `Int2Array.h:29-39`. -/
def fromArrayS (n : Nat) (a : List UInt8) : Int :=
  if 2 * fromArrayBits n a < 256 ^ n then fromArrayBits n a else (fromArrayBits n a : Int) - 256 ^ n

end Verif.IntArray
