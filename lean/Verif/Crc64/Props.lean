import Verif.Crc64.Poly

/-! # Properties of CRC-64 (C41) -/

namespace Verif.Crc64

open Verif.IntArray Polynomial

theorem hash_length (seed : BitVec 64) (m : List UInt8) : (hash seed m).length = 8 := by
  rw [hash, toArray, toArrayLoop_length]; simp

theorem beVal_hash (seed : BitVec 64) (m : List UInt8) : beVal (hash seed m) = (crcBytes seed m).toNat := by
  have hlt := (crcBytes seed m).isLt
  have h := c34_unsigned_round_trip 8 ((crcBytes seed m).toNat : Int) (by omega) (by
    have : (256 : Int) ^ 8 = ((2 ^ 64 : Nat) : Int) := by norm_num
    rw [this]; exact_mod_cast hlt)
  rw [fromArrayU, fromArrayBits_eq 8 _ (by rw [← hash, hash_length])] at h
  exact_mod_cast h

theorem hash_inj {s s' : BitVec 64} {a b : List UInt8} : hash s a = hash s' b ↔ crcBytes s a = crcBytes s' b := by
  constructor
  · intro h
    have := congrArg beVal h
    rw [beVal_hash, beVal_hash] at this
    exact BitVec.eq_of_toNat_eq this
  · intro h
    unfold hash
    rw [h]

/-- C41: the table driven computation is the bit by bit reflected division by the Jones polynomial, for every seed and
every byte sequence; the eight bytes of the result are the register, most significant byte first. -/
theorem c41_bitwise (seed : BitVec 64) (m : List UInt8) :
    (hash seed m).length = 8 ∧ beVal (hash seed m) = (bitwise seed m).toNat := by
  refine ⟨hash_length seed m, ?_⟩
  rw [beVal_hash, crcBytes, calcByte_funext, bitwise]

/-- The check value of this CRC (comment in Awl/Crypto/Crc64.h:16). -/
example : hash 0 [0x31, 0x32, 0x33, 0x34, 0x35, 0x36, 0x37, 0x38, 0x39] =
    [0xe9, 0xc6, 0xd9, 0x14, 0xc4, 0xb8, 0xd9, 0xca] := by decide +kernel

/-- C41: the register is the remainder of `seed · x^(8n) + message · x^64` divided by the Jones polynomial. -/
theorem c41_remainder (seed : BitVec 64) (m : List UInt8) :
    ∃ r : BitVec 64, beVal (hash seed m) = r.toNat ∧
      regPoly r = (regPoly seed * X ^ (8 * m.length) + msgPoly m * X ^ 64) %ₘ generator :=
  ⟨bitwise seed m, (c41_bitwise seed m).2, bitwise_mod seed m⟩

/-- C41: the hash of a concatenation is the hash of the second part with the hash of the first part as the seed. -/
theorem c41_concatenation (seed : BitVec 64) (a b : List UInt8) :
    hash seed (a ++ b) = hash (BitVec.ofNat 64 (fromArrayBits 8 (hash seed a))) b := by
  rw [fromArrayBits_eq 8 _ (by rw [hash_length]), beVal_hash, BitVec.ofNat_toNat, BitVec.setWidth_eq, hash_inj]
  simp [crcBytes]

example : hash 127 [1, 2, 3] = hash (BitVec.ofNat 64 (fromArrayBits 8 (hash 127 [1]))) [2, 3] := by decide +kernel

/-- The bytes of an integer, most significant first. -/
def bigEndian (size : Nat) (x : Int) : List UInt8 :=
  (List.range size).map fun k => UInt8.ofInt (x / 256 ^ (size - 1 - k))

/-- C41: the hash of a sequence of integers of any size is the hash of their bytes, most significant first. -/
theorem c41_elements (size : Nat) (seed : BitVec 64) (xs : List Int) :
    crcElems size seed xs = bitwise seed (xs.flatMap (bigEndian size)) := by
  have harr : ∀ x, toArray size x = bigEndian size x := by
    intro x
    have hlen : (toArray size x).length = size := by rw [toArray, toArrayLoop_length]; simp
    apply List.ext_getElem
    · rw [hlen]; simp [bigEndian]
    · intro k h1 h2
      rw [hlen] at h1
      obtain ⟨_, b, hb, hv⟩ := c34_byte_order size x k h1
      rw [List.getElem?_eq_getElem (by omega)] at hb
      cases hb
      simp only [bigEndian, List.getElem_map, List.getElem_range]
      apply UInt8.toNat_inj.mp
      have := uint8_toNat_ofInt (x / 256 ^ (size - 1 - k))
      omega
  have hone : ∀ x, bigEndian 1 x = [UInt8.ofInt x] := by intro x; simp [bigEndian]
  unfold crcElems
  induction xs generalizing seed with
  | nil => rfl
  | cons x xs ih =>
    rw [List.foldl_cons, List.flatMap_cons, bitwise_append, ih]
    congr 1
    by_cases hs : size = 1
    · subst hs
      rw [hone, if_pos rfl, calcByte_funext]; rfl
    · rw [if_neg hs, harr, calcByte_funext]; rfl

example : crcElems 2 0 [0x3132, 0x3334] = crcBytes 0 [0x31, 0x32, 0x33, 0x34] := by decide +kernel
example : crcElems 1 0 [-1] = crcBytes 0 [0xff] := by decide +kernel

end Verif.Crc64
