import Verif.StorageFmt.Damage

/-! # C86, C89: data behind the value, for every value -/

namespace Verif.StorageFmt

open Verif.Storage

variable {V : Type}

/-! ### Lemmas -/

/-- Payloads and blocks have the same numbers, the other direction of `payload_left`. -/
theorem block_of_payload {c : HashStream.Cfg} (hc : c.Good) {d e : Bytes} (h : HashStream.Encodes (c.blockSize - c.size) c.hash d e) :
    ∀ j, j * (c.blockSize - c.size) < d.length → j * c.blockSize < e.length := by
  unfold HashStream.Cfg.Good at hc
  induction h with
  | nil => intro j hj; simp at hj
  | last hp hl =>
    rename_i p
    intro j hj
    rw [List.length_append, c.hash_length]
    cases j with
    | zero => rw [Nat.zero_mul] at hj ⊢; omega
    | succ j =>
      rw [Nat.add_mul, Nat.one_mul] at hj
      omega
  | more hp hde ih =>
    rename_i p d e
    intro j hj
    simp only [List.length_append, c.hash_length] at hj ⊢
    cases j with
    | zero => omega
    | succ j =>
      rw [Nat.add_mul, Nat.one_mul] at hj ⊢
      have := ih j (by omega)
      omega

/-! ### The properties -/

/-- **C86 is violated** for every value in the file itself, of every format: with something behind the value `Load` answers false, but the object has the value of the file.  So it is
with the master, and with the backup if there is no master. -/
theorem c86_trailing_violated {f : SFormat V} {P : V → Prop} (hf : f.Good P) {v : V} (hv : P v) (extra : Bytes) (hx : extra ≠ []) (old : V) :
    answer (direct f) old (f.ser v ++ extra) [] = (v, .ok false) ∧ answer (direct f) old [] (f.ser v ++ extra) = (v, .ok false) := by
  have hg := direct_good hf ⟨v, hv⟩
  have hl : 0 < extra.length := List.length_pos_iff.2 hx
  have h : ∀ o, loadFromFile (direct f) o (f.ser v ++ extra) = (v, .ok false) := by
    intro o
    simp only [loadFromFile, direct, hf.roundTrip v hv extra, List.length_append, Prod.mk.injEq, Res.ok.injEq, true_and, beq_eq_false_iff_ne]
    omega
  constructor
  · rw [answer_rejected hg.empty, h]
  · have hb : (Files.opened [] (f.ser v ++ extra)).backup.cur = f.ser v ++ extra := rfl
    have hm : (Files.opened [] (f.ser v ++ extra)).master.cur = [] := rfl
    simp only [answer, load, hb, hm, h]
    exact load_rejected hg.empty v

/-- **C89.**  A hashed file with the value and `extra` behind it, of every format and with every hash: it is accepted if and only if the last block of the value has room for all of `extra`.
In both cases the value of the file is taken over (C86). -/
theorem c89_hashed {c : HashStream.Cfg} (hc : c.Good) {f : SFormat V} {P : V → Prop} (hf : f.Good P) {v : V} (hv : P v) (extra file : Bytes)
    (hfile : HashStream.Encodes (c.blockSize - c.size) c.hash (f.ser v ++ extra) file) (n : Nat)
    (hlast : (n - 1) * (c.blockSize - c.size) < (f.ser v).length ∧ (f.ser v).length ≤ n * (c.blockSize - c.size)) (old : V) :
    answer (hashed c f) old file [] = (v, .ok (decide ((f.ser v).length + extra.length ≤ n * (c.blockSize - c.size)))) := by
  have hg := hashed_good hc hf ⟨v, hv⟩
  have hn : 0 < c.blockSize - c.size := by unfold HashStream.Cfg.Good at hc; omega
  have hpos : 0 < (f.ser v).length := List.length_pos_iff.2 (hf.nonempty v hv)
  have hblocks : ((f.ser v).length + (c.blockSize - c.size) - 1) / (c.blockSize - c.size) = n := by
    cases n with
    | zero => omega
    | succ n =>
      rw [Nat.add_sub_cancel] at hlast
      rw [Nat.add_mul, Nat.one_mul] at hlast
      apply Nat.div_eq_of_lt_le
      · rw [Nat.add_mul, Nat.one_mul]; omega
      · rw [Nat.add_mul, Nat.one_mul, Nat.add_mul, Nat.one_mul]; omega
  have hd := (HashStream.decode_truncated hc hfile file.length _ (Nat.le_refl _) (Nat.le_refl _)).2.2 rfl
  rw [List.take_length] at hd
  rw [answer_rejected hg.empty]
  simp only [loadFromFile, hashed]
  rw [hd]
  simp only [hf.roundTrip v hv extra, List.length_append, Nat.add_sub_cancel, hblocks, Prod.mk.injEq, Res.ok.injEq, true_and]
  have hlen := encodes_length hc hfile
  rw [List.length_append] at hlen
  by_cases hroom : (f.ser v).length + extra.length ≤ n * (c.blockSize - c.size)
  · have hq : ((f.ser v).length + extra.length + (c.blockSize - c.size) - 1) / (c.blockSize - c.size) ≤ n := by
      apply Nat.le_of_lt_succ
      rw [Nat.div_lt_iff_lt_mul hn, Nat.succ_mul]
      omega
    have := Nat.le_trans hlen (Nat.mul_le_mul_right c.blockSize hq)
    rw [decide_eq_true hroom, Nat.min_eq_left this, beq_self_eq_true]
  · have := block_of_payload hc hfile n (by rw [List.length_append]; omega)
    rw [decide_eq_false hroom, beq_eq_false_iff_ne]
    omega

/-! ### Cases -/

example : answer (direct (plain ⟨none, 100⟩ (.num 2 0))) (.num 7) [5, 0, 9] [] = (.num 5, .ok false) := rfl

-- payloads of four bytes, a number of two bytes: two more bytes are accepted, three are not
example : answer numFmt (.num 7) (HashStream.writeAll (HashStream.crcCfg 127 12) (.init ⟨[], none⟩) [[5, 0, 9, 9]]).1.data [] = (.num 5, .ok true) := rfl

example : answer numFmt (.num 7) (HashStream.writeAll (HashStream.crcCfg 127 12) (.init ⟨[], none⟩) [[5, 0, 9, 9, 9]]).1.data [] = (.num 5, .ok false) := rfl

example : (1 - 1) * (12 - 8) < ((plain ⟨none, 100⟩ (.num 2 0)).ser (.num 5)).length ∧ ((plain ⟨none, 100⟩ (.num 2 0)).ser (.num 5)).length ≤ 1 * (12 - 8) := by decide

end Verif.StorageFmt
