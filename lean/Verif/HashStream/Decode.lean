import Verif.HashStream.Write

/-! # What is read from a hashed byte sequence -/

namespace Verif.HashStream

theorem decode_cons {c : Cfg} {s : Bytes} (hs : s ≠ []) (fuel : Nat) (hcon : Consistent c.hash (s.take c.blockSize)) :
    decode c (fuel + 1) s = (payload c (s.take c.blockSize) ++ (decode c fuel (s.drop c.blockSize)).1,
      (decode c fuel (s.drop c.blockSize)).2) := by
  rw [decode, if_neg hs, if_pos ((consistent_iff _ _).1 hcon)]

theorem decode_bad {c : Cfg} {s : Bytes} (hs : s ≠ []) (fuel : Nat) (hcon : ¬ Consistent c.hash (s.take c.blockSize)) :
    decode c (fuel + 1) s = ([], true) := by
  rw [decode, if_neg hs, if_neg (fun h => hcon ((consistent_iff _ _).2 h))]

theorem decode_fuel {c : Cfg} (hc : c.Good) : ∀ (k fuel : Nat) (s : Bytes), s.length ≤ k → k ≤ fuel →
    decode c fuel s = decode c k s
  | 0, fuel, s, h, _ => by
    have : s = [] := List.eq_nil_of_length_eq_zero (by omega)
    subst this; simp [decode_nil]
  | k + 1, 0, _, _, h => by omega
  | k + 1, fuel + 1, s, h, hf => by
    by_cases hs : s = []
    · subst hs; simp [decode_nil]
    · unfold Cfg.Good at hc
      have := List.length_pos_iff.2 hs
      have ih := decode_fuel hc k fuel (s.drop c.blockSize) (by simp <;> omega) (by omega)
      by_cases hcon : Consistent c.hash (s.take c.blockSize)
      · rw [decode_cons hs _ hcon, decode_cons hs _ hcon, ih]
      · rw [decode_bad hs _ hcon, decode_bad hs _ hcon]

theorem payload_append {c : Cfg} (p : Bytes) : payload c (p ++ c.hash p) = p := by
  simp [payload, c.hash_length p]

theorem take_block {c : Cfg} (hc : c.Good) {p e : Bytes} (hp : p.length = c.blockSize - c.size) :
    (p ++ c.hash p ++ e).take c.blockSize = p ++ c.hash p ∧ (p ++ c.hash p ++ e).drop c.blockSize = e := by
  unfold Cfg.Good at hc
  have hl : (p ++ c.hash p).length = c.blockSize := by
    rw [List.length_append, c.hash_length]; omega
  constructor
  · rw [← hl, List.take_left]
  · rw [← hl, List.drop_left]

/-- Cutting anywhere. -/
theorem decode_truncated {c : Cfg} (hc : c.Good) {d e : Bytes} (h : Encodes (c.blockSize - c.size) c.hash d e) :
    ∀ (k fuel : Nat), k ≤ e.length → e.length ≤ fuel →
      (decode c fuel (e.take k)).1 <+: d ∧
      (k < e.length → (decode c fuel (e.take k)).1.length < d.length) ∧
      (k = e.length → decode c fuel (e.take k) = (d, false)) := by
  -- a single block, complete or cut
  have single : ∀ (p : Bytes), p ≠ [] → p.length ≤ c.blockSize - c.size → ∀ (k fuel : Nat),
      k ≤ (p ++ c.hash p).length → (p ++ c.hash p).length ≤ fuel →
      (decode c fuel ((p ++ c.hash p).take k)).1 <+: p ∧
      (k < (p ++ c.hash p).length → (decode c fuel ((p ++ c.hash p).take k)).1.length < p.length) ∧
      (k = (p ++ c.hash p).length → decode c fuel ((p ++ c.hash p).take k) = (p, false)) := by
    intro p hp hl k fuel hk hf
    have hlen : (p ++ c.hash p).length = p.length + c.size := by rw [List.length_append, c.hash_length]
    have hpos : 0 < p.length := List.length_pos_iff.2 hp
    unfold Cfg.Good at hc
    rw [hlen] at hk hf ⊢
    by_cases h0 : k = 0
    · subst h0
      rw [List.take_zero, decode_nil]
      exact ⟨by simp, fun _ => hpos, fun h => by omega⟩
    · have hs : (p ++ c.hash p).take k ≠ [] := by
        intro h
        rcases List.take_eq_nil_iff.1 h with h | h
        · exact h0 h
        · simp [hp] at h
      obtain ⟨fuel, rfl⟩ : ∃ f, fuel = f + 1 := ⟨fuel - 1, by omega⟩
      have ht : ((p ++ c.hash p).take k).take c.blockSize = (p ++ c.hash p).take k := by
        apply List.take_of_length_le
        rw [List.length_take, hlen]; omega
      have hd : ((p ++ c.hash p).take k).drop c.blockSize = [] := by
        apply List.drop_eq_nil_of_le
        rw [List.length_take, hlen]; omega
      by_cases hcon : Consistent c.hash (((p ++ c.hash p).take k).take c.blockSize)
      · rw [decode_cons hs _ hcon, ht, hd, decode_nil, List.append_nil]
        have hpl : payload c ((p ++ c.hash p).take k) = p.take (k - c.size) := by
          unfold payload
          rw [List.length_take, hlen, List.take_take, show min (min k (p.length + c.size) - c.size) k = k - c.size by omega,
            List.take_append_of_le_length (by omega)]
        rw [hpl]
        refine ⟨List.take_prefix _ _, fun h => by simp <;> omega, fun h => ?_⟩
        rw [h, Nat.add_sub_cancel, List.take_length]
      · rw [decode_bad hs _ hcon]
        refine ⟨by simp, fun _ => hpos, fun h => ?_⟩
        exfalso
        apply hcon
        rw [ht, List.take_of_length_le (by rw [hlen]; omega)]
        exact ⟨p, rfl⟩
  induction h with
  | nil =>
    intro k fuel hk _
    simp at hk
    subst hk
    rw [List.take_nil, decode_nil]
    simp
  | last hp hl => exact single _ hp hl
  | more hp hde ih =>
    rename_i p d e
    have hpne : p ≠ [] := by
      intro h; subst h; simp at hp; unfold Cfg.Good at hc; omega
    intro k fuel hk hf
    have hlen : (p ++ c.hash p).length = c.blockSize := by
      unfold Cfg.Good at hc
      rw [List.length_append, c.hash_length]; omega
    by_cases hkb : k ≤ c.blockSize
    · have ht : (p ++ c.hash p ++ e).take k = (p ++ c.hash p).take k :=
        List.take_append_of_le_length (by omega)
      rw [ht]
      obtain ⟨h1, h2, h3⟩ := single p hpne (by omega) k fuel (by omega)
        (by rw [List.length_append] at hf; omega)
      refine ⟨h1.trans (List.prefix_append _ _), fun h => ?_, fun h => ?_⟩
      · by_cases hk2 : k < c.blockSize
        · have := h2 (by omega)
          rw [List.length_append]; omega
        · rw [h3 (by omega)]
          simp only [List.length_append] at h ⊢
          rw [← List.length_append, hlen] at h
          have : d ≠ [] := by
            intro hd; subst hd
            have : e = [] := hde.nil_inv (by unfold Cfg.Good at hc; omega)
            subst this
            simp at h; omega
          have := List.length_pos_iff.2 this
          omega
      · rw [List.length_append] at h
        have he : e = [] := List.eq_nil_of_length_eq_zero (by omega)
        have hd : d = [] := by
          subst he
          generalize hx : ([] : Bytes) = x at hde
          cases hde with
          | nil => rfl
          | last h _ => simp [h] at hx
          | more h _ =>
            have := congrArg List.length hx
            simp only [List.length_append, List.length_nil] at this
            unfold Cfg.Good at hc
            omega
        rw [h3 (by omega), hd, List.append_nil]
    · have ht : (p ++ c.hash p ++ e).take k = p ++ c.hash p ++ e.take (k - c.blockSize) := by
        rw [List.take_append, List.take_of_length_le (by omega), hlen]
      rw [ht]
      obtain ⟨fuel, rfl⟩ : ∃ f, fuel = f + 1 := ⟨fuel - 1, by omega⟩
      have hb := take_block hc (e := e.take (k - c.blockSize)) hp
      have hs : p ++ c.hash p ++ e.take (k - c.blockSize) ≠ [] := by simp [hpne]
      rw [decode_cons hs _ (by rw [hb.1]; exact ⟨p, rfl⟩), hb.1, hb.2, payload_append]
      have hf' : e.length ≤ fuel := by
        rw [List.length_append, hlen] at hf
        unfold Cfg.Good at hc; omega
      have hk' : k - c.blockSize ≤ e.length := by rw [List.length_append, hlen] at hk; omega
      obtain ⟨h1, h2, h3⟩ := ih (k - c.blockSize) fuel hk' hf'
      refine ⟨?_, fun h => ?_, fun h => ?_⟩
      · exact (List.prefix_append_right_inj p).2 h1
      · have := h2 (by rw [List.length_append, hlen] at h; omega)
        simp only [List.length_append]; omega
      · rw [h3 (by rw [List.length_append, hlen] at h; omega)]

/-- Block number `j`. -/
def blockAt (n : Nat) (e : Bytes) (j : Nat) : Bytes := (e.drop (j * n)).take n

/-- Changing bytes in place such that the first changed block is not consistent. -/
theorem decode_modified {c : Cfg} (hc : c.Good) {d e : Bytes} (h : Encodes (c.blockSize - c.size) c.hash d e) :
    ∀ (e' : Bytes) (j fuel : Nat), e'.length = e.length → e.length ≤ fuel →
      (∀ i, i < j → blockAt c.blockSize e' i = blockAt c.blockSize e i) →
      blockAt c.blockSize e' j ≠ [] →
      ¬ Consistent c.hash (blockAt c.blockSize e' j) →
      decode c fuel e' = (d.take (j * (c.blockSize - c.size)), true) := by
  have ne_of : ∀ {e' : Bytes} {j}, blockAt c.blockSize e' j ≠ [] → e' ≠ [] := by
    intro e' j h1 h2; subst h2; simp [blockAt] at h1
  have zero : ∀ {e' : Bytes}, blockAt c.blockSize e' 0 = e'.take c.blockSize := by simp [blockAt]
  induction h with
  | nil =>
    intro e' j fuel hl _ _ hne _
    exact absurd (List.eq_nil_of_length_eq_zero (by simpa using hl)) (ne_of hne)
  | last hp hl =>
    rename_i p
    intro e' j fuel hl' hf _ hne hcon
    have hs := ne_of hne
    have hlen : (p ++ c.hash p).length = p.length + c.size := by rw [List.length_append, c.hash_length]
    unfold Cfg.Good at hc
    have hj : j = 0 := by
      refine Decidable.byContradiction fun hj => hne ?_
      have : c.blockSize ≤ j * c.blockSize := Nat.le_mul_of_pos_left _ (by omega)
      unfold blockAt
      rw [List.drop_eq_nil_of_le (by omega), List.take_nil]
    subst hj
    obtain ⟨fuel, rfl⟩ : ∃ f, fuel = f + 1 := ⟨fuel - 1, by
      have := List.length_pos_iff.2 hs; omega⟩
    rw [zero] at hcon
    rw [decode_bad hs _ hcon]
    simp
  | more hp hde ih =>
    rename_i p d e
    intro e' j fuel hl hf hsame hne hcon
    have hs := ne_of hne
    have hlen : (p ++ c.hash p).length = c.blockSize := by
      unfold Cfg.Good at hc
      rw [List.length_append, c.hash_length]; omega
    obtain ⟨fuel, rfl⟩ : ∃ f, fuel = f + 1 := ⟨fuel - 1, by
      have := List.length_pos_iff.2 hs; omega⟩
    cases j with
    | zero =>
      rw [zero] at hcon
      rw [decode_bad hs _ hcon]
      simp
    | succ j =>
      have hb := take_block hc (e := e) hp
      have h0 := hsame 0 (by omega)
      rw [zero, zero, hb.1] at h0
      have shift : ∀ (x : Bytes) i, blockAt c.blockSize x (i + 1) = blockAt c.blockSize (x.drop c.blockSize) i := by
        intro x i
        unfold blockAt
        rw [List.drop_drop, Nat.add_mul, Nat.one_mul, Nat.add_comm]
      rw [shift] at hne hcon
      have hf' : e.length ≤ fuel := by
        rw [List.length_append, hlen] at hf
        unfold Cfg.Good at hc; omega
      have := ih (e'.drop c.blockSize) j fuel (by
          rw [List.length_drop, hl, List.length_append, hlen]; omega) hf' (by
          intro i hi
          have := hsame (i + 1) (by omega)
          rwa [shift, shift, hb.2] at this) hne hcon
      rw [decode_cons hs _ (by rw [h0]; exact ⟨p, rfl⟩), h0, payload_append, this]
      simp only [Prod.mk.injEq, and_true]
      rw [Nat.add_mul, Nat.one_mul, Nat.add_comm, ← hp, List.take_append, Nat.add_sub_cancel_left]
      rw [List.take_of_length_le (l := p) (Nat.le_add_right _ _)]

/-- The blocks determine the bytes. -/
theorem eq_of_blocks {n : Nat} (hn : 0 < n) : ∀ (k : Nat) (a b : Bytes), a.length ≤ k → b.length ≤ k →
    (∀ j, blockAt n a j = blockAt n b j) → a = b
  | 0, a, b, ha, hb, _ => by
    rw [List.eq_nil_of_length_eq_zero (by omega : a.length = 0), List.eq_nil_of_length_eq_zero (by omega : b.length = 0)]
  | k + 1, a, b, ha, hb, h => by
    have h0 : a.take n = b.take n := by simpa [blockAt] using h 0
    have := eq_of_blocks hn k (a.drop n) (b.drop n) (by simp <;> omega) (by simp <;> omega) (fun j => by
      have := h (j + 1)
      unfold blockAt at this ⊢
      rw [List.drop_drop, List.drop_drop]
      rwa [Nat.add_mul, Nat.one_mul, Nat.add_comm] at this)
    rw [← List.take_append_drop n a, ← List.take_append_drop n b, h0, this]

end Verif.HashStream
