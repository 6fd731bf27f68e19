import Verif.Crc64.Model
import Verif.Crc64.Spec
import Verif.IntArray.Props

/-! # Lemmas about CRC-64 -/

namespace Verif.Crc64

theorem tab_length : tab.length = 256 := by decide +kernel

/-- The table, all 256 entries. -/
theorem tab_entries : ∀ i : Fin 256, tab[i.val]? = some (steps 8 (BitVec.ofNat 64 i.val)) := by decide +kernel

theorem step_xor (a b : BitVec 64) : step (a ^^^ b) = step a ^^^ step b := by
  unfold step
  rw [BitVec.getLsbD_xor, BitVec.ushiftRight_xor_distrib]
  generalize jones.reverse = p
  generalize a >>> 1 = x
  generalize b >>> 1 = y
  cases a.getLsbD 0 <;> cases b.getLsbD 0 <;>
    (apply BitVec.eq_of_getLsbD_eq; intro i _; simp; try (cases x.getLsbD i <;> cases y.getLsbD i <;> cases p.getLsbD i <;> rfl))

theorem steps_xor : ∀ (n : Nat) (a b : BitVec 64), steps n (a ^^^ b) = steps n a ^^^ steps n b
  | 0, _, _ => rfl
  | n + 1, a, b => by rw [steps, step_xor, steps_xor n]; rfl

theorem steps_add : ∀ (m n : Nat) (c : BitVec 64), steps (m + n) c = steps n (steps m c)
  | 0, n, c => by simp [steps]
  | m + 1, n, c => by rw [Nat.add_right_comm, steps, steps, steps_add m n]

theorem reverse_top : jones.reverse.getLsbD 63 = true := by decide +kernel

theorem step_getLsbD_63 (c : BitVec 64) : (step c).getLsbD 63 = c.getLsbD 0 := by
  unfold step
  cases h : c.getLsbD 0 <;>
    simp only [if_true, Bool.false_eq_true, if_false, BitVec.getLsbD_xor, BitVec.getLsbD_ushiftRight, reverse_top]
  · rw [BitVec.getLsbD_of_ge _ _ (by omega)]
  · rw [BitVec.getLsbD_of_ge _ _ (by omega)]; rfl

theorem step_eq_zero {c : BitVec 64} (h : step c = 0#64) : c = 0#64 := by
  have h0 : c.getLsbD 0 = false := by rw [← step_getLsbD_63, h]; simp
  unfold step at h
  rw [h0] at h
  simp only [Bool.false_eq_true, if_false] at h
  apply BitVec.eq_of_getLsbD_eq
  intro i hi
  rw [BitVec.getLsbD_zero]
  cases i with
  | zero => exact h0
  | succ i =>
    have := congrArg (fun x => x.getLsbD i) h
    simpa [BitVec.getLsbD_ushiftRight, Nat.add_comm] using this

theorem xor_eq_zero {a b : BitVec 64} (h : a ^^^ b = 0#64) : a = b := by
  have := congrArg (· ^^^ b) h
  simpa [BitVec.xor_assoc] using this

theorem steps_eq_zero : ∀ (n : Nat) {c : BitVec 64}, steps n c = 0#64 → c = 0#64
  | 0, _, h => h
  | n + 1, _, h => step_eq_zero (steps_eq_zero n h)

theorem steps_inj {n : Nat} {a b : BitVec 64} (h : steps n a = steps n b) : a = b := by
  apply xor_eq_zero
  apply steps_eq_zero n
  rw [steps_xor, h, BitVec.xor_self]

/-- As long as the shifted out bits are zero, a step is a shift. -/
theorem steps_shift : ∀ (n : Nat) (x : BitVec 64), (∀ i, i < n → x.getLsbD i = false) → steps n x = x >>> n
  | 0, x, _ => by simp [steps]
  | n + 1, x, h => by
    have h0 : step x = x >>> 1 := by
      unfold step; rw [h 0 (by omega)]; simp
    rw [steps, h0, steps_shift n (x >>> 1) (fun i hi => by
      rw [BitVec.getLsbD_ushiftRight, h _ (by omega)]), ← BitVec.shiftRight_add, Nat.add_comm]

theorem calcByte_eq (c : BitVec 64) (b : UInt8) : calcByte c b = bitwiseByte c b := by
  unfold calcByte bitwiseByte
  have hidx : ∀ x : BitVec 8, tab.getD x.toNat 0 = steps 8 (x.setWidth 64) := by
    intro x
    have := tab_entries ⟨x.toNat, x.isLt⟩
    rw [List.getD_eq_getElem?_getD, this]
    simp only [Option.getD_some]
    rw [← BitVec.ofNat_toNat]
  rw [hidx]
  have hsplit : c ^^^ b.toBitVec.setWidth 64 =
      (c.setWidth 8 ^^^ b.toBitVec).setWidth 64 ^^^ ((c >>> 8) <<< 8) := by
    apply BitVec.eq_of_getLsbD_eq
    intro i hi
    by_cases h8 : i < 8
    · simp [h8, hi]
    · have h9 : b.toBitVec.getLsbD i = false := BitVec.getLsbD_of_ge _ _ (by omega)
      simp [BitVec.getLsbD_setWidth, h8, hi, h9]
      rw [← BitVec.getLsbD_eq_getElem, show 8 + (i - 8) = i by omega]
  rw [hsplit, steps_xor]
  congr 1
  rw [steps_shift 8 _ (fun i hi => by simp [BitVec.getLsbD_shiftLeft, hi])]
  apply BitVec.eq_of_getLsbD_eq
  intro i hi
  simp only [BitVec.getLsbD_ushiftRight, BitVec.getLsbD_shiftLeft]
  by_cases h : 8 + i < 64
  · simp [h]
  · rw [BitVec.getLsbD_of_ge _ _ (by omega)]; simp [h]

theorem calcByte_funext : calcByte = bitwiseByte := by
  funext c b; exact calcByte_eq c b

/-- A few bytes as one number. -/
def pack : List UInt8 → BitVec 64
  | [] => 0
  | b :: bs => b.toBitVec.setWidth 64 ^^^ (pack bs <<< 8)

theorem pack_high : ∀ (bs : List UInt8) (i : Nat), 8 * bs.length ≤ i → (pack bs).getLsbD i = false
  | [], i, _ => by simp [pack]
  | b :: bs, i, h => by
    simp only [List.length_cons] at h
    rw [pack, BitVec.getLsbD_xor, BitVec.getLsbD_shiftLeft, pack_high bs (i - 8) (by omega), BitVec.getLsbD_setWidth,
      BitVec.getLsbD_of_ge _ i (by omega)]
    simp

theorem bitwise_pack : ∀ (bs : List UInt8) (c : BitVec 64), bs.length ≤ 8 →
    bitwise c bs = steps (8 * bs.length) (c ^^^ pack bs)
  | [], c, _ => by simp [bitwise, pack, steps]
  | b :: bs, c, h => by
    simp only [List.length_cons] at h
    have ih := bitwise_pack bs (bitwiseByte c b) (by omega)
    unfold bitwise at ih ⊢
    rw [List.foldl_cons, ih, List.length_cons, Nat.mul_add, Nat.mul_one, Nat.add_comm, steps_add, pack]
    congr 1
    rw [← BitVec.xor_assoc, steps_xor, bitwiseByte]
    congr 1
    rw [steps_shift 8 _ (fun i hi => by simp [BitVec.getLsbD_shiftLeft, hi])]
    apply BitVec.eq_of_getLsbD_eq
    intro i hi
    simp only [BitVec.getLsbD_ushiftRight, BitVec.getLsbD_shiftLeft]
    by_cases h8 : 8 + i < 64
    · simp [h8]
    · rw [pack_high bs i (by omega)]; simp [h8]

theorem pack_inj : ∀ (a b : List UInt8), a.length = b.length → a.length ≤ 8 → pack a = pack b → a = b
  | [], [], _, _, _ => rfl
  | [], _ :: _, h, _, _ => by simp at h
  | _ :: _, [], h, _, _ => by simp at h
  | x :: xs, y :: ys, hl, h8, h => by
    simp only [List.length_cons, Nat.add_right_cancel_iff] at hl h8
    have hbit : ∀ i, (pack (x :: xs)).getLsbD i = (pack (y :: ys)).getLsbD i := fun i => by rw [h]
    have hxy : x = y := by
      apply UInt8.toBitVec_inj.1
      apply BitVec.eq_of_getLsbD_eq
      intro i hi
      have := hbit i
      simpa [pack, BitVec.getLsbD_shiftLeft, BitVec.getLsbD_setWidth, hi, show i < 64 by omega] using this
    have hp : pack xs = pack ys := by
      apply BitVec.eq_of_getLsbD_eq
      intro i hi
      by_cases h56 : i + 8 < 64
      · have := hbit (i + 8)
        simp only [pack, BitVec.getLsbD_xor, BitVec.getLsbD_shiftLeft, BitVec.getLsbD_setWidth,
          BitVec.getLsbD_of_ge _ (i + 8) (show 8 ≤ i + 8 by omega), Nat.add_sub_cancel] at this
        simpa [h56] using this
      · rw [pack_high xs i (by omega), pack_high ys i (by omega)]
    rw [hxy, pack_inj xs ys hl (by omega) hp]

theorem bitwise_append (c : BitVec 64) (a b : List UInt8) : bitwise c (a ++ b) = bitwise (bitwise c a) b := by
  simp [bitwise]

theorem bitwise_inj : ∀ (bs : List UInt8) {c c' : BitVec 64}, bitwise c bs = bitwise c' bs → c = c'
  | [], _, _, h => h
  | b :: bs, c, c', h => by
    have := bitwise_inj bs (c := bitwiseByte c b) (c' := bitwiseByte c' b) h
    have := steps_inj this
    have := congrArg (· ^^^ (b.toBitVec.setWidth 64)) this
    simpa [BitVec.xor_assoc] using this

end Verif.Crc64
