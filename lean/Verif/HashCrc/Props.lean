import Verif.HashStream.Props
import Verif.Crc64.Props

/-! # Hashed streams with CRC-64 (C40, C84) -/

namespace Verif.HashStream

open Verif.Crc64 Verif.IntArray Polynomial

/-- `HashInputStream<Crc64>` and `HashOutputStream<Crc64>` (default of Awl/Io/HashingSerializable.h:18). -/
def crcCfg (seed : BitVec 64) (blockSize : Nat) : Cfg := ⟨blockSize, 8, Crc64.hash seed, Crc64.hash_length seed⟩

theorem not_consistent {seed : BitVec 64} {p t : Bytes} (ht : t.length = 8) (h : Crc64.hash seed p ≠ t) :
    ¬ Consistent (Crc64.hash seed) (p ++ t) := by
  rintro ⟨q, hq⟩
  obtain ⟨rfl, h2⟩ := List.append_inj' hq (by rw [ht, Crc64.hash_length])
  exact h h2.symm

/-- C40: two payloads of the same length that differ only within 8 consecutive bytes have different hashes. -/
theorem c40_crc_burst (seed : BitVec 64) (pre w w' suf : Bytes) (hl : w'.length = w.length) (h8 : w.length ≤ 8)
    (hne : w' ≠ w) : Crc64.hash seed (pre ++ w' ++ suf) ≠ Crc64.hash seed (pre ++ w ++ suf) := by
  rw [ne_eq, hash_inj, crcBytes, crcBytes, calcByte_funext]
  intro h
  change bitwise seed (pre ++ w' ++ suf) = bitwise seed (pre ++ w ++ suf) at h
  rw [bitwise_append _ (pre ++ w'), bitwise_append _ (pre ++ w)] at h
  have h2 := bitwise_inj suf h
  rw [bitwise_append, bitwise_append, bitwise_pack _ _ (by omega), bitwise_pack _ _ h8, hl] at h2
  have h3 := steps_inj h2
  have h4 : pack w' = pack w := by
    have := congrArg (bitwise seed pre ^^^ ·) h3
    simpa [← BitVec.xor_assoc] using this
  exact hne (pack_inj _ _ hl (by omega) h4)

example : Crc64.hash 127 [1, 2, 3] ≠ Crc64.hash 127 [1, 7, 9] := by
  exact c40_crc_burst 127 [1] [7, 9] [2, 3] [] rfl (by decide) (by decide)

/-- C40: the same for bits: if the difference of two payloads of the same length, as a polynomial, is a nonzero
polynomial of degree less than 64 times a power of `x` (all changed bits within 64 consecutive bits, in the order in
which they enter the CRC), the hashes differ. -/
theorem c40_crc_bit_burst (seed : BitVec 64) (m m' : Bytes) (hl : m'.length = m.length) (k : Nat) (b : F2[X])
    (hb : b ≠ 0) (hd : b.degree < 64) (h : msgPoly m' = msgPoly m + X ^ k * b) :
    Crc64.hash seed m' ≠ Crc64.hash seed m := by
  rw [ne_eq, hash_inj, crcBytes, crcBytes, calcByte_funext]
  exact burst hl hb hd h

-- the highest bit of the second byte (coefficient of `x^0`) and the lowest bit of the third (`x^7`) in one burst
example : msgPoly [0, 0x80, 0x01] = msgPoly [0, 0, 0] + X ^ 7 * (X + 1) := by
  simp [msgPoly, bytePoly, Finset.sum_range_succ]
  ring

/-- A change of a stored block confined to at most 8 consecutive bytes of the payload, or to the stored hash. -/
def SmallChange (b b' : Bytes) : Prop :=
  (∃ pre w w' suf t, t.length = 8 ∧ w'.length = w.length ∧ w.length ≤ 8 ∧ w' ≠ w ∧
    b = pre ++ w ++ suf ++ t ∧ b' = pre ++ w' ++ suf ++ t) ∨
  (∃ p t t', t.length = 8 ∧ t'.length = 8 ∧ t' ≠ t ∧ b = p ++ t ∧ b' = p ++ t')

theorem smallChange_inconsistent {seed : BitVec 64} {b b' : Bytes} (hb : Consistent (Crc64.hash seed) b)
    (h : SmallChange b b') : ¬ Consistent (Crc64.hash seed) b' := by
  obtain ⟨p, hp⟩ := hb
  rcases h with ⟨pre, w, w', suf, t, ht, hl, h8, hne, rfl, rfl⟩ | ⟨q, t, t', ht, ht', hne, rfl, rfl⟩
  · obtain ⟨rfl, rfl⟩ := List.append_inj' hp (by rw [ht, Crc64.hash_length])
    exact not_consistent (Crc64.hash_length _ _) (c40_crc_burst seed pre w w' suf hl h8 hne)
  · obtain ⟨rfl, rfl⟩ := List.append_inj' hp (by rw [ht, Crc64.hash_length])
    exact not_consistent ht' (Ne.symm hne)

theorem encodes_blocks {c : Cfg} (hc : c.Good) {d e : Bytes} (h : Encodes (c.blockSize - c.size) c.hash d e) :
    ∀ j, blockAt c.blockSize e j ≠ [] → Consistent c.hash (blockAt c.blockSize e j) := by
  induction h with
  | nil => intro j hj; simp [blockAt] at hj
  | last hp hl =>
    rename_i p
    intro j hj
    have hlen : (p ++ c.hash p).length ≤ c.blockSize := by
      unfold Cfg.Good at hc; rw [List.length_append, c.hash_length]; omega
    cases j with
    | zero => rw [blockAt, Nat.zero_mul, List.drop_zero, List.take_of_length_le hlen]; exact ⟨p, rfl⟩
    | succ j =>
      exfalso; apply hj
      unfold blockAt
      rw [List.drop_eq_nil_of_le, List.take_nil]
      exact Nat.le_trans hlen (Nat.le_mul_of_pos_left _ (by omega))
  | more hp hde ih =>
    rename_i p d e
    intro j hj
    have hb := take_block hc (e := e) hp
    cases j with
    | zero => rw [blockAt, Nat.zero_mul, List.drop_zero, hb.1]; exact ⟨p, rfl⟩
    | succ j =>
      have shift : blockAt c.blockSize (p ++ c.hash p ++ e) (j + 1) = blockAt c.blockSize e j := by
        unfold blockAt
        rw [Nat.add_mul, Nat.one_mul, Nat.add_comm, ← List.drop_drop, hb.2]
      rw [shift] at hj ⊢
      exact ih j hj

/-- C40: with CRC-64 a change confined to at most 8 consecutive bytes of a block's payload, or to its stored hash, is
always reported: the data of the blocks before it are delivered, then corruption is reported.  Whatever happens to the
blocks behind. -/
theorem c40_crc_reported (seed : BitVec 64) (blockSize : Nat) (hB : 8 < blockSize) (d e e' : Bytes)
    (h : Encodes (blockSize - 8) (Crc64.hash seed) d e) (hl : e'.length = e.length) (j : Nat)
    (hsame : ∀ i, i < j → blockAt blockSize e' i = blockAt blockSize e i)
    (hsmall : SmallChange (blockAt blockSize e j) (blockAt blockSize e' j)) (ops : List Op) :
    untilException (run (crcCfg seed blockSize) (In.init ⟨e', []⟩) ops) =
      ideal true (d.take (j * (blockSize - 8))) ops := by
  have hc : (crcCfg seed blockSize).Good := hB
  have hne : blockAt blockSize e j ≠ [] := by
    intro h0
    rw [h0] at hsmall
    rcases hsmall with ⟨pre, w, w', suf, t, ht, _, _, _, h1, _⟩ | ⟨p, t, t', ht, _, _, h1, _⟩
    · have := congrArg List.length h1; simp only [List.length_append, List.length_nil] at this; omega
    · have := congrArg List.length h1; simp only [List.length_append, List.length_nil] at this; omega
  have hcon : Consistent (Crc64.hash seed) (blockAt blockSize e j) := encodes_blocks hc h j hne
  have hbad := smallChange_inconsistent hcon hsmall
  exact c40_modified (crcCfg seed blockSize) hc d e e' h hl j hsame (fun heq => hbad (heq ▸ hcon)) hbad ops

example : SmallChange ([1, 2, 3] ++ Crc64.hash 127 [1, 2, 3]) ([1, 9, 3] ++ Crc64.hash 127 [1, 2, 3]) :=
  .inl ⟨[1], [2], [9], [3], _, Crc64.hash_length _ _, rfl, by decide, by decide, rfl, rfl⟩
example : run (crcCfg 127 11) (In.init ⟨[1, 2, 3] ++ Crc64.hash 127 [1, 2, 3] ++ ([4] ++ Crc64.hash 127 [5]), []⟩)
    [.read 3, .read 1] = [.data [1, 2, 3], .exception .corruption] := by decide +kernel

/-! ## C84 -/

theorem ofInt_eq_of_low {a b : BitVec 64} (h : (a ^^^ b).setWidth 8 = 0#8) :
    UInt8.ofInt (a.toNat : Int) = UInt8.ofInt (b.toNat : Int) := by
  have h8 : a.setWidth 8 = b.setWidth 8 := by
    apply BitVec.eq_of_getLsbD_eq
    intro i hi
    have := congrArg (fun x => x.getLsbD i) h
    simp only [BitVec.getLsbD_setWidth, BitVec.getLsbD_xor, hi, decide_true, Bool.true_and, BitVec.getLsbD_zero] at this ⊢
    cases ha : a.getLsbD i <;> cases hb : b.getLsbD i <;> simp_all
  have := congrArg BitVec.toNat h8
  simp only [BitVec.toNat_setWidth] at this
  apply UInt8.toNat_inj.mp
  have h1 := uint8_toNat_ofInt (a.toNat : Int)
  have h2 := uint8_toNat_ofInt (b.toNat : Int)
  omega

/-- C84 is violated: a CRC detects every burst of up to 64 bits when the check value follows the message in the bit
order of the CRC.  The stored hash is most significant byte first, the CRC is reflected, so this is not so here: for
every seed and every payload there is a change of the last byte of the payload and the first seven bytes of the stored
hash (8 consecutive bytes) that gives a consistent block with another payload. -/
theorem c84_burst_across_boundary_violated (seed : BitVec 64) (pre : Bytes) (b : UInt8) :
    ∃ (t t' : Bytes) (z b' : UInt8), t.length = 7 ∧ t'.length = 7 ∧ b' ≠ b ∧
      pre ++ [b] ++ Crc64.hash seed (pre ++ [b]) = pre ++ ([b] ++ t) ++ [z] ∧
      Consistent (Crc64.hash seed) (pre ++ ([b'] ++ t') ++ [z]) := by
  have hsplit : ∀ m, ∃ t, t.length = 7 ∧ Crc64.hash seed m = t ++ [UInt8.ofInt ((crcBytes seed m).toNat : Int)] := by
    intro m
    have hlen := Crc64.hash_length seed m
    refine ⟨(Crc64.hash seed m).take 7, by simp [hlen], ?_⟩
    apply List.ext_getElem?
    intro k
    by_cases hk : k < 7
    · rw [List.getElem?_append_left (by simp [hlen, hk]), List.getElem?_take, if_pos hk]
    · by_cases hk7 : k = 7
      · subst hk7
        rw [List.getElem?_append_right (by simp)]
        simp only [List.length_take, hlen, show min 7 8 = 7 by omega, Nat.sub_self, List.getElem?_cons_zero]
        obtain ⟨_, x, hx, hv⟩ := c34_byte_order 8 ((crcBytes seed m).toNat : Int) 7 (by omega)
        rw [Crc64.hash, hx]
        congr 1
        apply UInt8.toNat_inj.mp
        have := uint8_toNat_ofInt ((crcBytes seed m).toNat : Int)
        simp at hv
        omega
      · rw [List.getElem?_eq_none (by omega), List.getElem?_eq_none (by simp [hlen]; omega)]
  obtain ⟨t, ht, h1⟩ := hsplit (pre ++ [b])
  obtain ⟨t', ht', h2⟩ := hsplit (pre ++ [b ^^^ 0x3d])
  have hlow : UInt8.ofInt ((crcBytes seed (pre ++ [b ^^^ 0x3d])).toNat : Int) =
      UInt8.ofInt ((crcBytes seed (pre ++ [b])).toNat : Int) := by
    apply ofInt_eq_of_low
    have e1 : ∀ x, crcBytes seed (pre ++ [x]) = steps 8 (crcBytes seed pre ^^^ x.toBitVec.setWidth 64) := by
      intro x
      simp only [crcBytes, List.foldl_append, List.foldl_cons, List.foldl_nil]
      rw [calcByte_eq, bitwiseByte]
    rw [e1, e1, ← steps_xor]
    have e2 : (crcBytes seed pre ^^^ (b ^^^ 0x3d).toBitVec.setWidth 64) ^^^ (crcBytes seed pre ^^^ b.toBitVec.setWidth 64) =
        0x3d#64 := by
      rw [UInt8.toBitVec_xor, BitVec.setWidth_xor]
      apply BitVec.eq_of_getLsbD_eq
      intro i hi
      simp only [BitVec.getLsbD_xor]
      have : (BitVec.setWidth 64 (0x3d : UInt8).toBitVec) = 0x3d#64 := by decide
      rw [this]
      cases (crcBytes seed pre).getLsbD i <;> cases (BitVec.setWidth 64 b.toBitVec).getLsbD i <;> simp
    rw [e2]
    decide +kernel
  refine ⟨t, t', UInt8.ofInt ((crcBytes seed (pre ++ [b])).toNat : Int), b ^^^ 0x3d, ht, ht', ?_, ?_, ?_⟩
  · intro h
    have := congrArg (b ^^^ ·) h
    simp only [← UInt8.xor_assoc, UInt8.xor_self] at this
    simp at this
  · rw [h1]; simp
  · refine ⟨pre ++ [b ^^^ 0x3d], ?_⟩
    rw [h2, hlow]; simp

-- stored for the payload `1 2 3`; the last payload byte and the next seven bytes changed
example : Crc64.hash 127 [1, 2, 3] = [0x5f, 0x36, 0xdd, 0x72, 0x68, 0xbe, 0x7b, 0x19] ∧
    run (crcCfg 127 11) (In.init ⟨[1, 2, 3 ^^^ 0x3d, 0x5f ^^^ 0x96, 0x36 ^^^ 0xd1, 0xdd ^^^ 0x78, 0x72 ^^^ 0x43,
      0x68 ^^^ 0x59, 0xbe ^^^ 0xa2, 0x7b ^^^ 0x71, 0x19], []⟩) [.read 3, .atEnd] = [.data [1, 2, 0x3e], .flag true] := by
  decide +kernel

/-- C84, the part that holds: a burst of up to 8 bytes that does not cross the end of the payload is never consistent.
Missing: bursts across the end of the payload (`c84_burst_across_boundary_violated`). -/
theorem c84_burst_partial (seed : BitVec 64) (b b' : Bytes) (hb : Consistent (Crc64.hash seed) b)
    (h : SmallChange b b') : ¬ Consistent (Crc64.hash seed) b' := smallChange_inconsistent hb h

end Verif.HashStream
