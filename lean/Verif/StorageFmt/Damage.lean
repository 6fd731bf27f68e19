import Verif.StorageFmt.Props

/-! # C185: damage to a file of settings is noticed -/

namespace Verif.StorageFmt

open Verif.Storage

variable {V : Type}

/-! ### What it means -/

/-- The file with the value `v` was damaged and its content is now `c`.  `Load` says so and leaves the value as it was; if it is the backup that was damaged, the value comes
from the master, and if it is the master while there is a backup, from the backup. -/
def Noticed (fmt : Format V) (v : V) (c : Bytes) : Prop :=
  (∀ old, answer fmt old c [] = (old, .ok false)) ∧ (∀ old, answer fmt old (fmt.enc v) c = (v, .ok true)) ∧ ∀ old, answer fmt old c (fmt.enc v) = (v, .ok true)

/-! ### Lemmas -/

theorem load_rejected {fmt : Format V} {c : Bytes} (h : Rejected fmt c) (old : V) : loadFromFile fmt old c = (old, .ok false) := by
  obtain ⟨e, he, hr⟩ := h
  simp only [loadFromFile, hr, he, if_true]

theorem load_holds {fmt : Format V} {c : Bytes} {v : V} (h : Holds fmt c v) (old : V) : loadFromFile fmt old c = (v, .ok true) := by
  unfold Holds at h
  simp only [loadFromFile, h, beq_self_eq_true]

theorem answer_rejected {fmt : Format V} {b : Bytes} (h : Rejected fmt b) (old : V) (m : Bytes) : answer fmt old m b = loadFromFile fmt old m := by
  have hb : (Files.opened m b).backup.cur = b := rfl
  have hm : (Files.opened m b).master.cur = m := rfl
  simp only [answer, load, hb, hm, load_rejected h]

theorem answer_holds {fmt : Format V} {b : Bytes} {v : V} (h : Holds fmt b v) (old : V) (m : Bytes) : answer fmt old m b = (v, .ok true) := by
  have hb : (Files.opened m b).backup.cur = b := rfl
  simp only [answer, load, hb, load_holds h]

theorem noticed_of_rejected {fmt : Format V} {P : V → Prop} (hg : fmt.Good P) {v : V} (hv : P v) {c : Bytes} (h : Rejected fmt c) : Noticed fmt v c :=
  ⟨fun old => by rw [answer_rejected hg.empty, load_rejected h], fun old => by rw [answer_rejected h, load_holds (hg.roundTrip v hv)],
   fun old => answer_holds (hg.roundTrip v hv) old c⟩

/-- Blocks and payloads have the same numbers. -/
theorem payload_left {c : HashStream.Cfg} (hc : c.Good) {d e : Bytes} (h : HashStream.Encodes (c.blockSize - c.size) c.hash d e) :
    ∀ j, j * c.blockSize < e.length → j * (c.blockSize - c.size) < d.length := by
  unfold HashStream.Cfg.Good at hc
  induction h with
  | nil => intro j hj; simp at hj
  | last hp hl =>
    rename_i p
    intro j hj
    rw [List.length_append, c.hash_length] at hj
    cases j with
    | zero => rw [Nat.zero_mul]; exact List.length_pos_iff.2 hp
    | succ j =>
      rw [Nat.add_mul, Nat.one_mul] at hj
      omega
  | more hp hde ih =>
    rename_i p d e
    intro j hj
    simp only [List.length_append, c.hash_length] at hj ⊢
    cases j with
    | zero => omega
    | succ j =>
      rw [Nat.add_mul, Nat.one_mul] at hj ⊢
      have := ih j (by omega)
      omega

theorem block_left {n : Nat} {e : Bytes} {j : Nat} (h : HashStream.blockAt n e j ≠ []) : j * n < e.length := by
  apply Classical.byContradiction
  intro hn
  apply h
  unfold HashStream.blockAt
  rw [List.drop_eq_nil_of_le (by omega), List.take_nil]

/-- The first block that is different is not consistent. -/
theorem rejected_of_block {c : HashStream.Cfg} (hc : c.Good) {f : SFormat V} {P : V → Prop} (hf : f.Good P) {v : V} (hv : P v) {e' : Bytes}
    (hl : e'.length = ((hashed c f).enc v).length) {j : Nat}
    (hsame : ∀ i, i < j → HashStream.blockAt c.blockSize e' i = HashStream.blockAt c.blockSize ((hashed c f).enc v) i)
    (hne : HashStream.blockAt c.blockSize e' j ≠ []) (hbad : ¬ HashStream.Consistent c.hash (HashStream.blockAt c.blockSize e' j)) :
    Rejected (hashed c f) e' := by
  have he := hashed_enc hc f v
  have hd := HashStream.decode_modified hc he e' j e'.length hl (by omega) hsame hne hbad
  have hlt := payload_left hc he j (by rw [← hl]; exact block_left hne)
  have ht := hf.truncated v hv _ (List.take_prefix (j * (c.blockSize - c.size)) (f.ser v)) (fun e => by
    have := congrArg List.length e
    rw [List.length_take] at this
    omega)
  refine ⟨.corruption, rfl, ?_⟩
  simp only [hashed, hd, ht]
  simp

/-! ### The property -/

/-- **C185.**  A file that was cut off.  Any hash, block size and format. -/
theorem c185_truncated {c : HashStream.Cfg} (hc : c.Good) {f : SFormat V} {P : V → Prop} (hf : f.Good P) {v : V} (hv : P v) (k : Nat)
    (hk : k < ((hashed c f).enc v).length) : Noticed (hashed c f) v (((hashed c f).enc v).take k) :=
  have hg := hashed_good hc hf ⟨v, hv⟩
  noticed_of_rejected hg hv (hg.truncated v hv k hk)

/-- **C185.**  Any bytes of the file were changed: this is noticed, unless a changed block is a payload followed by its hash.  Missing: that case, see `c185_exchanged_violated`. -/
theorem c185_changed_partial {c : HashStream.Cfg} (hc : c.Good) {f : SFormat V} {P : V → Prop} (hf : f.Good P) {v : V} (hv : P v) (e' : Bytes)
    (hl : e'.length = ((hashed c f).enc v).length) (hne : e' ≠ (hashed c f).enc v)
    (hcol : ∀ j, HashStream.blockAt c.blockSize e' j ≠ HashStream.blockAt c.blockSize ((hashed c f).enc v) j →
      ¬ HashStream.Consistent c.hash (HashStream.blockAt c.blockSize e' j)) : Noticed (hashed c f) v e' := by
  have hpos : 0 < c.blockSize := by unfold HashStream.Cfg.Good at hc; omega
  have hex : ∃ j, HashStream.blockAt c.blockSize e' j ≠ HashStream.blockAt c.blockSize ((hashed c f).enc v) j := by
    apply Classical.byContradiction
    intro hn
    refine hne (HashStream.eq_of_blocks hpos e'.length _ _ (Nat.le_refl _) (by omega) fun j => ?_)
    exact Classical.byContradiction fun h => hn ⟨j, h⟩
  obtain ⟨j, hj, hmin⟩ : ∃ j, HashStream.blockAt c.blockSize e' j ≠ HashStream.blockAt c.blockSize ((hashed c f).enc v) j ∧
      ∀ i, i < j → HashStream.blockAt c.blockSize e' i = HashStream.blockAt c.blockSize ((hashed c f).enc v) i := by
    obtain ⟨j, hj⟩ := hex
    induction j using Nat.strongRecOn with
    | ind j ih =>
      by_cases hx : ∃ i, i < j ∧ HashStream.blockAt c.blockSize e' i ≠ HashStream.blockAt c.blockSize ((hashed c f).enc v) i
      · obtain ⟨i, hi, h⟩ := hx
        exact ih i hi h
      · exact ⟨j, hj, fun i hi => Classical.byContradiction fun h => hx ⟨i, hi, h⟩⟩
  have hnil : HashStream.blockAt c.blockSize e' j ≠ [] := by
    intro h0
    have hge : e'.length ≤ j * c.blockSize := by
      unfold HashStream.blockAt at h0
      have := congrArg List.length h0
      rw [List.length_take, List.length_drop, List.length_nil] at this
      omega
    apply hj
    rw [h0]
    unfold HashStream.blockAt
    rw [List.drop_eq_nil_of_le (by omega), List.take_nil]
  exact noticed_of_rejected (hashed_good hc hf ⟨v, hv⟩) hv (rejected_of_block hc hf hv hl hmin hnil (hcol j hj))

/-- **C185.**  With CRC-64 a change of up to eight consecutive bytes of the data, or of a stored hash, is always noticed, whatever happens to the file behind that block. -/
theorem c185_crc (seed : BitVec 64) (blockSize : Nat) (hB : 8 < blockSize) {f : SFormat V} {P : V → Prop} (hf : f.Good P) {v : V} (hv : P v) (e' : Bytes)
    (hl : e'.length = ((hashed (HashStream.crcCfg seed blockSize) f).enc v).length) (j : Nat)
    (hsame : ∀ i, i < j → HashStream.blockAt blockSize e' i = HashStream.blockAt blockSize ((hashed (HashStream.crcCfg seed blockSize) f).enc v) i)
    (hsmall : HashStream.SmallChange (HashStream.blockAt blockSize ((hashed (HashStream.crcCfg seed blockSize) f).enc v) j) (HashStream.blockAt blockSize e' j)) :
    Noticed (hashed (HashStream.crcCfg seed blockSize) f) v e' := by
  have hc : (HashStream.crcCfg seed blockSize).Good := hB
  have len : ∀ b b', HashStream.SmallChange b b' → b ≠ [] ∧ b' ≠ [] := by
    rintro b b' (⟨pre, w, w', suf, t, ht, _, _, _, rfl, rfl⟩ | ⟨p, t, t', ht, ht', _, rfl, rfl⟩) <;>
      constructor <;> intro h <;> have := congrArg List.length h <;> simp only [List.length_append, List.length_nil] at this <;> omega
  have hcon := HashStream.encodes_blocks hc (hashed_enc hc f v) j (len _ _ hsmall).1
  exact noticed_of_rejected (hashed_good hc hf ⟨v, hv⟩) hv
    (rejected_of_block hc hf hv hl hsame (len _ _ hsmall).2 (HashStream.smallChange_inconsistent hcon hsmall))

theorem encodes_two {n : Nat} {hash : Bytes → Bytes} (hn : 0 < n) {p q e : Bytes} (hp : p.length = n) (hq : q.length = n) (h : HashStream.Encodes n hash (p ++ q) e) :
    e = p ++ hash p ++ (q ++ hash q) :=
  h.unique hn (.more hp (.last (fun h0 => by rw [h0] at hq; simp at hq; omega) (by omega)))

/-- **C185 is violated** if blocks of the file are exchanged (or lost, or from another file): a hash covers its block only, and not the place of the block.  With every hash: if the data
of `v'` are those of `v` with two blocks exchanged, then the file of `v` with these blocks exchanged is loaded as `v'`, and `Load` says that all is well. -/
theorem c185_exchanged_violated {c : HashStream.Cfg} (hc : c.Good) {f : SFormat V} {P : V → Prop} (hf : f.Good P) {v v' : V} (hv' : P v') (p q : Bytes)
    (hp : p.length = c.blockSize - c.size) (hq : q.length = c.blockSize - c.size) (h1 : f.ser v = p ++ q) (h2 : f.ser v' = q ++ p) (old : V) :
    answer (hashed c f) old (((hashed c f).enc v).drop c.blockSize ++ ((hashed c f).enc v).take c.blockSize) [] = (v', .ok true) := by
  have hn : 0 < c.blockSize - c.size := by unfold HashStream.Cfg.Good at hc; omega
  have e1 := hashed_enc hc f v
  have e2 := hashed_enc hc f v'
  rw [h1] at e1
  rw [h2] at e2
  have e1 := encodes_two hn hp hq e1
  have e2 := encodes_two hn hq hp e2
  have hb := HashStream.take_block hc (p := p) (e := q ++ c.hash q) hp
  rw [e1, hb.1, hb.2, ← e2]
  have hg := hashed_good hc hf ⟨v', hv'⟩
  rw [answer_rejected hg.empty, load_holds (hg.roundTrip v' hv')]

/-- **C185 is violated** if the file is a mixture of two files, as after a save of which one block has not reached the disk: with every hash, the first block of the file of `v` and the
second block of the file of `w` are loaded as a value that was never saved, and `Load` says that all is well. -/
theorem c185_mixed_violated {c : HashStream.Cfg} (hc : c.Good) {f : SFormat V} {P : V → Prop} (hf : f.Good P) {v w v' : V} (hv' : P v') (p q p' q' : Bytes)
    (hp : p.length = c.blockSize - c.size) (hq : q.length = c.blockSize - c.size) (hp' : p'.length = c.blockSize - c.size) (hq' : q'.length = c.blockSize - c.size)
    (h1 : f.ser v = p ++ q) (h2 : f.ser w = p' ++ q') (h3 : f.ser v' = p ++ q') (old : V) :
    answer (hashed c f) old (((hashed c f).enc v).take c.blockSize ++ ((hashed c f).enc w).drop c.blockSize) [] = (v', .ok true) := by
  have hn : 0 < c.blockSize - c.size := by unfold HashStream.Cfg.Good at hc; omega
  have e1 := hashed_enc hc f v
  have e2 := hashed_enc hc f w
  have e3 := hashed_enc hc f v'
  rw [h1] at e1
  rw [h2] at e2
  rw [h3] at e3
  have e1 := encodes_two hn hp hq e1
  have e2 := encodes_two hn hp' hq' e2
  have e3 := encodes_two hn hp hq' e3
  have hb := HashStream.take_block hc (p := p) (e := q ++ c.hash q) hp
  have hb' := HashStream.take_block hc (p := p') (e := q' ++ c.hash q') hp'
  rw [e1, e2, hb.1, hb'.2, ← e3]
  have hg := hashed_good hc hf ⟨v', hv'⟩
  rw [answer_rejected hg.empty, load_holds (hg.roundTrip v' hv')]

/-! ### Cases -/

/-- Two numbers of four bytes in a CRC-64 hashed file with payloads of four bytes. -/
def pairTy : Serialize.Ty := .struct none [.num 4 0, .num 4 0]

theorem pair_good : (plain ⟨none, 100⟩ pairTy).Good (Serialize.HasTy ⟨none, 100⟩ pairTy) :=
  plain_good _ _ (fun v hv => by
    intro h
    obtain ⟨bs, h1, h2⟩ := Serialize.c31_new_object _ _ v hv
    rw [h] at h1
    cases h1
    have h3 := h2 []
    have h4 : Serialize.read ⟨none, 100⟩ pairTy (Serialize.dflt pairTy) ([] ++ []) = .throw .endOfFile := rfl
    rw [h4] at h3
    cases h3)

/-- 1 and 2 are loaded as 2 and 1. -/
example : answer (hashed (HashStream.crcCfg 127 12) (plain ⟨none, 100⟩ pairTy)) (.list [])
    ((((hashed (HashStream.crcCfg 127 12) (plain ⟨none, 100⟩ pairTy)).enc (.list [.num 1, .num 2])).drop 12) ++
      (((hashed (HashStream.crcCfg 127 12) (plain ⟨none, 100⟩ pairTy)).enc (.list [.num 1, .num 2])).take 12)) [] = (.list [.num 2, .num 1], .ok true) :=
  c185_exchanged_violated (c := HashStream.crcCfg 127 12) (by unfold HashStream.Cfg.Good; decide) pair_good
    (by simp [pairTy, Serialize.HasTy, Serialize.HasTys]) [1, 0, 0, 0] [2, 0, 0, 0] rfl rfl rfl rfl _

/-- 1 and 2 were saved, then 3 and 4: 1 and 4 are loaded. -/
example : answer (hashed (HashStream.crcCfg 127 12) (plain ⟨none, 100⟩ pairTy)) (.list [])
    ((((hashed (HashStream.crcCfg 127 12) (plain ⟨none, 100⟩ pairTy)).enc (.list [.num 1, .num 2])).take 12) ++
      (((hashed (HashStream.crcCfg 127 12) (plain ⟨none, 100⟩ pairTy)).enc (.list [.num 3, .num 4])).drop 12)) [] = (.list [.num 1, .num 4], .ok true) :=
  c185_mixed_violated (c := HashStream.crcCfg 127 12) (by unfold HashStream.Cfg.Good; decide) pair_good
    (by simp [pairTy, Serialize.HasTy, Serialize.HasTys]) [1, 0, 0, 0] [2, 0, 0, 0] [3, 0, 0, 0] [4, 0, 0, 0] rfl rfl rfl rfl rfl rfl rfl _

/-- A changed byte of the number 5. -/
example : HashStream.SmallChange (HashStream.blockAt 12 (numFmt.enc (.num 5)) 0) (HashStream.blockAt 12 (4 :: (numFmt.enc (.num 5)).drop 1) 0) := by
  refine .inl ⟨[], [5], [4], [0], Crc64.hash 127 [5, 0], Crc64.hash_length _ _, rfl, by decide, by decide, ?_, ?_⟩ <;> decide +kernel

end Verif.StorageFmt
