import Verif.Common.Res

/-!
# Multiprecision numbers: `Extras/Boost/BoostExtras/Io/Rw/MultiprecisionReadWrite.h`, `MultiprecisionTypeName.h`, `MultiprecisionDecimalData.h`

Numbers of Boost are taken by their documentation: `int128_t` … `int1024_t` have a sign and a magnitude of that many bits, the unsigned types have a magnitude; `export_bits`
gives the bytes of the magnitude, the most significant first, without leading zeros and at least one; `import_bits` is its inverse for magnitudes that fit.  What it
gives for no bytes and for more bits than the type has is a parameter (`Boost.imp`).  The stream is the list of bytes that were written; `Read` takes bytes from it and throws
`EndOfFileException` if there are not enough.
-/

namespace Verif.Multiprec

open Verif

/-- A type of numbers (MultiprecisionTypeName.h:15-22). -/
structure Kind where
  bits : Nat
  signed : Bool
deriving DecidableEq, Repr

/-- The values of the type (the values that MultiprecisionReadWrite.h reads and writes). -/
def Kind.Has (k : Kind) (v : Int) : Prop := v.natAbs < 2 ^ k.bits ∧ (k.signed = false → 0 ≤ v)

/-- `export_bits(val, out, 8)`: the bytes of the magnitude (MultiprecisionReadWrite.h:56). -/
def beBytes (m : Nat) : List UInt8 := if m < 256 then [UInt8.ofNat m] else beBytes (m / 256) ++ [UInt8.ofNat (m % 256)]
termination_by m
decreasing_by omega

/-- The value of bytes, the most significant first (the inverse of MultiprecisionReadWrite.h:56). -/
def beVal (a : List UInt8) : Nat := a.foldl (fun v b => v * 256 + b.toNat) 0

/-- `import_bits` for a type (MultiprecisionReadWrite.h:41). -/
structure Boost (k : Kind) where
  imp : List UInt8 → Nat
  spec : ∀ b, b ≠ [] → beVal b < 2 ^ k.bits → imp b = beVal b

/-- `backend().negate()`: the sign is changed; for an unsigned type the number is subtracted from zero modulo 2^bits (MultiprecisionReadWrite.h:45). -/
def negate (k : Kind) (m : Nat) : Int := if k.signed then -(m : Int) else ((2 ^ k.bits - m % 2 ^ k.bits) % 2 ^ k.bits : Nat)

/-- `Write`, MultiprecisionReadWrite.h:49-74. -/
def write (v : Int) : Res (List UInt8) :=
  let b := beBytes v.natAbs
  if b.length > 255 - 0x80 then .throw .corruption
  else
    let size := UInt8.ofNat b.length
    .ok ((if v < 0 then size ||| 0x80 else size) :: b)

/-- `Read`, MultiprecisionReadWrite.h:23-47: the number and the rest of the stream. -/
def read (k : Kind) (B : Boost k) : List UInt8 → Res (Int × List UInt8)
  | [] => .throw .endOfFile
  | size :: s =>
    let negative := size &&& 0x80 != 0
    let n := (size &&& 0x7f).toNat
    if s.length < n then .throw .endOfFile
    else
      let m := B.imp (s.take n)
      .ok (if negative then negate k m else (m : Int), s.drop n)

/-- The name of the type in the stream, MultiprecisionTypeName.h:14-32: "multi_int" for all eight types. -/
def typeName (_ : Kind) : String := "multi_int"

end Verif.Multiprec
