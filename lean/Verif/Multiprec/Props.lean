import Verif.Multiprec.Model

/-! # C111: serialization of multiprecision numbers -/

namespace Verif.Multiprec

open Verif

theorem beVal_append (a : List UInt8) (b : UInt8) : beVal (a ++ [b]) = beVal a * 256 + b.toNat := by
  simp [beVal, List.foldl_append]

theorem beVal_beBytes (m : Nat) : beVal (beBytes m) = m := by
  induction m using Nat.strongRecOn with
  | _ m ih =>
    rw [beBytes]
    split
    · next h => simp [beVal, Nat.mod_eq_of_lt h]
    · next h =>
      rw [beVal_append, ih (m / 256) (by omega)]
      simp
      omega

theorem beBytes_pos (m : Nat) : 0 < (beBytes m).length := by
  rw [beBytes]; split <;> simp

/-- There are at most `n` bytes exactly if the magnitude is less than 256^n. -/
theorem beBytes_length (m : Nat) (n : Nat) (hn : 0 < n) : (beBytes m).length ≤ n ↔ m < 256 ^ n := by
  induction m using Nat.strongRecOn generalizing n with
  | _ m ih =>
    rw [beBytes]
    split
    · next h =>
      have : 256 ^ 1 ≤ 256 ^ n := Nat.pow_le_pow_right (by decide) hn
      simp only [List.length_singleton]
      omega
    · next h =>
      simp only [List.length_append, List.length_singleton]
      obtain ⟨n, rfl⟩ : ∃ k, n = k + 1 := ⟨n - 1, by omega⟩
      rcases Nat.eq_zero_or_pos n with rfl | hn
      · have := beBytes_pos (m / 256)
        simp only [Nat.zero_add, Nat.pow_one]
        omega
      · have := ih (m / 256) (by omega) n hn
        rw [Nat.pow_succ]
        omega

theorem size_byte (n : Nat) (h : n ≤ 127) : (UInt8.ofNat n &&& 0x80 != 0) = false ∧ (UInt8.ofNat n &&& 0x7f).toNat = n ∧
    ((UInt8.ofNat n ||| 0x80) &&& 0x80 != 0) = true ∧ ((UInt8.ofNat n ||| 0x80) &&& 0x7f).toNat = n := by
  have : ∀ n : Fin 128, (UInt8.ofNat n.val &&& 0x80 != 0) = false ∧ (UInt8.ofNat n.val &&& 0x7f).toNat = n.val ∧
    ((UInt8.ofNat n.val ||| 0x80) &&& 0x80 != 0) = true ∧ ((UInt8.ofNat n.val ||| 0x80) &&& 0x7f).toNat = n.val := by decide +kernel
  exact this ⟨n, by omega⟩

/-- C111, for magnitudes of at most 127 bytes: what is written is read back, and what follows in the stream is left.
Missing: larger numbers of the types of 1024 bits (`c111_large_violated`). -/
theorem c111_round_trip_partial (k : Kind) (B : Boost k) (v : Int) (hv : k.Has v) (hm : v.natAbs < 2 ^ 1016) (rest : List UInt8) :
    ∃ w, write v = .ok w ∧ read k B (w ++ rest) = .ok (v, rest) := by
  have hlen : (beBytes v.natAbs).length ≤ 127 := by
    rw [beBytes_length _ 127 (by decide)]
    rw [show (256 : Nat) = 2 ^ 8 from rfl, ← Nat.pow_mul, show 8 * 127 = 1016 from rfl]
    exact hm
  obtain ⟨h1, h2, h3, h4⟩ := size_byte _ hlen
  have hb : beBytes v.natAbs ≠ [] := fun e => by have := beBytes_pos v.natAbs; rw [e] at this; simp at this
  have hi := B.spec (beBytes v.natAbs) hb (by rw [beVal_beBytes]; exact hv.1)
  rw [beVal_beBytes] at hi
  refine ⟨_, by simp only [write]; rw [if_neg (by omega)], ?_⟩
  by_cases hneg : v < 0
  · have hs : k.signed = true := by
      cases h : k.signed with
      | true => rfl
      | false => have := hv.2 h; omega
    simp only [if_pos hneg, List.cons_append, read, h3, h4, List.length_append, List.take_left, List.drop_left, hi, if_true, negate, hs]
    rw [if_neg (by omega)]
    simp only [Res.ok.injEq, Prod.mk.injEq, and_true]
    omega
  · simp only [if_neg hneg, List.cons_append, read, h1, h2, List.length_append, List.take_left, List.drop_left, hi]
    rw [if_neg (by omega)]
    simp
    omega

/-- C111: every number of the types of 128, 256 and 512 bits can be written and is read back. -/
theorem c111_types (k : Kind) (hk : k.bits ∈ [128, 256, 512]) (B : Boost k) (v : Int) (hv : k.Has v) (rest : List UInt8) :
    ∃ w, write v = .ok w ∧ read k B (w ++ rest) = .ok (v, rest) := by
  refine c111_round_trip_partial k B v hv (Nat.lt_of_lt_of_le hv.1 (Nat.pow_le_pow_right (by decide) ?_)) rest
  simp only [List.mem_cons, List.not_mem_nil, or_false] at hk
  omega

/-- C111 is violated by the types of 1024 bits: a number of 128 bytes cannot be written. -/
theorem c111_large_violated (v : Int) (hm : 2 ^ 1016 ≤ v.natAbs) : write v = .throw .corruption := by
  have : ¬ (beBytes v.natAbs).length ≤ 127 := by
    rw [beBytes_length _ 127 (by decide), show (256 : Nat) = 2 ^ 8 from rfl, ← Nat.pow_mul, show 8 * 127 = 1016 from rfl]
    omega
  simp only [write]
  rw [if_pos (by omega)]

/-- C111: a stream that ends too early is reported. -/
theorem c111_truncated (k : Kind) (B : Boost k) (v : Int) (w p q : List UInt8) (hw : write v = .ok w) (hp : w = p ++ q) (hq : q ≠ []) : read k B p = .throw .endOfFile := by
  simp only [write] at hw
  split at hw
  · cases hw
  · next hlen =>
    have hlen : (beBytes v.natAbs).length ≤ 127 := by omega
    obtain ⟨h1, h2, h3, h4⟩ := size_byte _ hlen
    cases p with
    | nil => rfl
    | cons c p =>
      rw [hp] at hw
      simp only [Res.ok.injEq, List.cons_append, List.cons.injEq] at hw
      have hl : p.length < (beBytes v.natAbs).length := by
        rw [hw.2]
        have := List.length_pos_iff.mpr hq
        simp only [List.length_append]
        omega
      have hc : (c &&& 0x7f).toNat = (beBytes v.natAbs).length := by
        rw [← hw.1]; split
        · exact h4
        · exact h2
      simp only [read, hc]
      rw [if_pos hl]

/-- C111: a number takes as many bytes as its magnitude needs, and one more. -/
theorem c111_length (v : Int) (w : List UInt8) (hw : write v = .ok w) (n : Nat) (hn : 0 < n) : w.length ≤ n + 1 ↔ v.natAbs < 256 ^ n := by
  simp only [write] at hw
  split at hw
  · cases hw
  · cases hw
    simp only [List.length_cons, Nat.add_le_add_iff_right]
    exact beBytes_length _ n hn

/-- C111 is violated when the type of a field changes: all types have the same name, and a negative number read as an unsigned one is another number. -/
theorem c111_same_name_violated (n : Nat) (B : Boost ⟨n, false⟩) (v : Int) (hv : v < 0) (hm : v.natAbs < 2 ^ n) (hm' : v.natAbs < 2 ^ 1016) :
    typeName ⟨n, true⟩ = typeName ⟨n, false⟩ ∧ ∃ w, write v = .ok w ∧ read ⟨n, false⟩ B w = .ok ((2 ^ n - v.natAbs : Nat), []) := by
  refine ⟨rfl, ?_⟩
  have hlen : (beBytes v.natAbs).length ≤ 127 := by
    rw [beBytes_length _ 127 (by decide), show (256 : Nat) = 2 ^ 8 from rfl, ← Nat.pow_mul, show 8 * 127 = 1016 from rfl]
    exact hm'
  obtain ⟨h1, h2, h3, h4⟩ := size_byte _ hlen
  have hb : beBytes v.natAbs ≠ [] := fun e => by have := beBytes_pos v.natAbs; rw [e] at this; simp at this
  have hi := B.spec (beBytes v.natAbs) hb (by rw [beVal_beBytes]; exact hm)
  rw [beVal_beBytes] at hi
  refine ⟨_, by simp only [write]; rw [if_neg (by omega)], ?_⟩
  simp only [if_pos hv, read, h3, h4, List.take_length, List.drop_length, hi, if_true, negate]
  rw [if_neg (by omega)]
  have hpos : 0 < v.natAbs := by omega
  simp only [Res.ok.injEq, Prod.mk.injEq, and_true]
  rw [Nat.mod_eq_of_lt hm, Nat.mod_eq_of_lt (by omega)]
  rfl

/-! ### Samples -/

def plain (k : Kind) : Boost k := ⟨beVal, fun _ _ _ => rfl⟩

example : write (-333) = .ok [0x82, 0x01, 0x4d] ∧ read ⟨128, true⟩ (plain _) [0x82, 0x01, 0x4d, 0x07] = .ok (-333, [0x07]) := by
  refine ⟨?_, by decide +kernel⟩
  simp [write, show (-333 : Int).natAbs = 333 from rfl, beBytes]
  rfl
example : (⟨128, true⟩ : Kind).Has (-333) ∧ (⟨1024, false⟩ : Kind).Has (2 ^ 1016) := ⟨⟨by decide, by decide⟩, ⟨by decide +kernel, by decide +kernel⟩⟩

end Verif.Multiprec
