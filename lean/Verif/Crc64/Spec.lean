import Verif.Common.Res

/-!
# Specification of CRC-64

The reflected bit by bit algorithm with the Jones polynomial (`Poly: 0xad93d23594c935a9, Reflected_In, Reflected_Out`,
comment in Awl/Crypto/Crc64.h:4-16).
-/

namespace Verif.Crc64

/-- The Jones polynomial, highest coefficient first, without `x^64`. -/
def jones : BitVec 64 := 0xad93d23594c935a9

/-- One step of the division: shift out the lowest bit, subtract the polynomial if it was set. -/
def step (c : BitVec 64) : BitVec 64 := if c.getLsbD 0 then (c >>> 1) ^^^ jones.reverse else c >>> 1

def steps : Nat → BitVec 64 → BitVec 64
  | 0, c => c
  | n + 1, c => steps n (step c)

/-- The bits of a byte enter lowest first. -/
def bitwiseByte (c : BitVec 64) (b : UInt8) : BitVec 64 := steps 8 (c ^^^ b.toBitVec.setWidth 64)

/-- The bit by bit CRC of a byte sequence. -/
def bitwise (seed : BitVec 64) (bytes : List UInt8) : BitVec 64 := bytes.foldl bitwiseByte seed

end Verif.Crc64
