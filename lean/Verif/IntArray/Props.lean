import Verif.IntArray.Model
import Mathlib.Tactic.Ring
import Mathlib.Tactic.Linarith
import Mathlib.Data.Int.Basic

namespace Verif.IntArray

/-- Specification: the number denoted by bytes, most significant first. -/
def beVal (a : List UInt8) : Nat := a.foldl (fun v b => v * 256 + b.toNat) 0

/-! ### Helper lemmas -/

theorem toArrayLoop_length (n : Nat) (v : Int) : ∀ i a, (toArrayLoop n v i a).length = a.length
  | 0, a => rfl
  | i + 1, a => by rw [toArrayLoop, toArrayLoop_length n v i]; simp

theorem toArrayLoop_get (n : Nat) (v : Int) : ∀ i a k, a.length = n → i ≤ n → k < n →
    (toArrayLoop n v i a)[k]? = if k < i then some (UInt8.ofInt (v >>> ((n - (k + 1)) * 8))) else a[k]?
  | 0, a, k, _, _, _ => by simp [toArrayLoop]
  | i + 1, a, k, ha, hi, hk => by
    rw [toArrayLoop, toArrayLoop_get n v i _ k (by simp [ha]) (by omega) hk]
    by_cases h1 : k < i
    · rw [if_pos h1, if_pos (show k < i + 1 by omega)]
    · rw [if_neg h1]
      by_cases h2 : k = i
      · subst h2
        rw [if_pos (show k < k + 1 by omega)]
        simp [ha, hk]
      · rw [if_neg (show ¬ k < i + 1 by omega)]
        simp [List.getElem?_set]
        omega

theorem beVal_append (a : List UInt8) (b : UInt8) : beVal (a ++ [b]) = beVal a * 256 + b.toNat := by
  simp [beVal]

theorem beVal_lt (a : List UInt8) : beVal a < 256 ^ a.length := by
  induction h : a.length generalizing a with
  | zero => have := List.eq_nil_of_length_eq_zero h; subst this; simp [beVal]
  | succ n ih =>
    obtain ⟨a', b, rfl⟩ : ∃ a' b, a = a' ++ [b] := by
      have hne : a ≠ [] := by intro h'; simp [h'] at h
      exact ⟨a.dropLast, a.getLast hne, (List.dropLast_concat_getLast hne).symm⟩
    have h' : a'.length = n := by simpa using h
    have := ih a' h'
    have hb := b.toNat_lt
    rw [beVal_append, Nat.pow_succ]
    omega

theorem fromArrayBits_eq (n : Nat) (a : List UInt8) (h : a.length ≤ n) : fromArrayBits n a = beVal a := by
  have key : ∀ (l a : List UInt8), (a ++ l).length ≤ n →
      l.foldl (fun val byte => ((val <<< 8) + byte.toNat) % 256 ^ n) (beVal a) = beVal (a ++ l) := by
    intro l
    induction l with
    | nil => intro a _; simp
    | cons b l ih =>
      intro a hl
      rw [List.foldl_cons]
      have e : ((beVal a <<< 8) + b.toNat) % 256 ^ n = beVal (a ++ [b]) := by
        rw [beVal_append, Nat.shiftLeft_eq]
        apply Nat.mod_eq_of_lt
        have h1 := beVal_lt (a ++ [b])
        rw [beVal_append] at h1
        refine Nat.lt_of_lt_of_le h1 (Nat.pow_le_pow_right (by omega) ?_)
        simp at hl ⊢
        omega
      rw [e, ih (a ++ [b]) (by simpa using hl)]
      simp
  exact key a [] (by simpa using h)

theorem uint8_toNat_ofInt (i : Int) : ((UInt8.ofInt i).toNat : Int) = i % 256 := by
  simp [UInt8.ofInt]
  omega

/-- The first `m` bytes of `to_array` denote the high part of the number. -/
theorem beVal_take (n : Nat) (v : Int) (hv1 : 0 ≤ v) (hv2 : v < 256 ^ n) : ∀ m, m ≤ n →
    (beVal ((toArray n v).take m) : Int) = v / 256 ^ (n - m)
  | 0, _ => by
    simp only [List.take_zero, beVal, List.foldl_nil, Nat.sub_zero]
    rw [Int.ediv_eq_zero_of_lt hv1 hv2]; rfl
  | m + 1, hm => by
    have hlen : (toArray n v).length = n := by rw [toArray, toArrayLoop_length]; simp
    have hg : (toArray n v)[m]? = some (UInt8.ofInt (v >>> ((n - (m + 1)) * 8))) := by
      rw [toArray, toArrayLoop_get n v n _ m (by simp) (le_refl _) (by omega), if_pos (by omega)]
    rw [List.take_add_one, hg]
    simp only [Option.toList_some]
    rw [beVal_append]
    push_cast
    rw [beVal_take n v hv1 hv2 m (by omega), uint8_toNat_ofInt, Int.shiftRight_eq_div_pow]
    have e1 : ((2 ^ ((n - (m + 1)) * 8) : Nat) : Int) = 256 ^ (n - (m + 1)) := by
      push_cast
      rw [Nat.mul_comm, pow_mul]; norm_num
    have e2 : (256 : Int) ^ (n - m) = 256 ^ (n - (m + 1)) * 256 := by
      rw [← pow_succ]; congr 1; omega
    rw [e1, e2, ← Int.ediv_ediv_of_nonneg (by positivity)]
    omega

/-! ### The properties -/

/-- C34: the byte number `k` of `to_array(v)` is the byte of weight `256^(n-1-k)`: most significant first.  For signed
types too (two's complement bytes). -/
theorem c34_byte_order (n : Nat) (v : Int) (k : Nat) (hk : k < n) :
    (toArray n v).length = n ∧ ∃ b, (toArray n v)[k]? = some b ∧ (b.toNat : Int) = v / 256 ^ (n - 1 - k) % 256 := by
  refine ⟨by rw [toArray, toArrayLoop_length]; simp, UInt8.ofInt (v >>> ((n - (k + 1)) * 8)), ?_, ?_⟩
  · rw [toArray, toArrayLoop_get n v n _ k (by simp) (le_refl _) hk, if_pos hk]
  · rw [uint8_toNat_ofInt, Int.shiftRight_eq_div_pow]
    have e1 : ((2 ^ ((n - (k + 1)) * 8) : Nat) : Int) = 256 ^ (n - 1 - k) := by
      push_cast
      rw [Nat.mul_comm, pow_mul, show n - 1 - k = n - (k + 1) by omega]; norm_num
    rw [e1]

/-- C34: `from_array(to_array(v)) = v` for every unsigned integer type. -/
theorem c34_unsigned_round_trip (n : Nat) (v : Int) (h1 : 0 ≤ v) (h2 : v < 256 ^ n) :
    fromArrayU n (toArray n v) = v := by
  have hlen : (toArray n v).length = n := by rw [toArray, toArrayLoop_length]; simp
  have := beVal_take n v h1 h2 n (le_refl _)
  rw [List.take_of_length_le (by omega)] at this
  rw [fromArrayU, fromArrayBits_eq n _ (by omega), this]
  simp

theorem toArray_mod (n : Nat) (v : Int) : toArray n v = toArray n (v % 256 ^ n) := by
  apply List.ext_getElem?
  intro k
  by_cases hk : k < n
  · rw [toArray, toArray, toArrayLoop_get n v n _ k (by simp) (le_refl _) hk,
      toArrayLoop_get n _ n _ k (by simp) (le_refl _) hk, if_pos hk, if_pos hk]
    congr 1
    apply UInt8.toNat_inj.mp
    have a1 := uint8_toNat_ofInt (v >>> ((n - (k + 1)) * 8))
    have a2 := uint8_toNat_ofInt ((v % 256 ^ n) >>> ((n - (k + 1)) * 8))
    have e1 : ((2 ^ ((n - (k + 1)) * 8) : Nat) : Int) = 256 ^ (n - (k + 1)) := by
      push_cast
      rw [Nat.mul_comm, pow_mul]; norm_num
    rw [Int.shiftRight_eq_div_pow, e1] at a1 a2
    have hn : (256 : Int) ^ n = 256 ^ (n - (k + 1)) * (256 * 256 ^ k) := by
      rw [← mul_assoc, ← pow_succ, ← pow_add]; congr 1; omega
    have e3 : v % 256 ^ n = v + 256 ^ (n - (k + 1)) * -(256 * 256 ^ k * (v / 256 ^ n)) := by
      rw [Int.emod_def, hn]; ring
    have e4 : (v % 256 ^ n) / 256 ^ (n - (k + 1)) = v / 256 ^ (n - (k + 1)) + -(256 * 256 ^ k * (v / 256 ^ n)) := by
      rw [e3, Int.add_mul_ediv_left _ _ (by positivity)]
    rw [e4] at a2
    have e5 : (v / 256 ^ (n - (k + 1)) + -(256 * 256 ^ k * (v / 256 ^ n))) % 256 = v / 256 ^ (n - (k + 1)) % 256 := by
      rw [show -(256 * 256 ^ k * (v / 256 ^ n)) = 256 * (-(256 ^ k * (v / 256 ^ n))) by ring, Int.add_mul_emod_self_left]
    rw [e5] at a2
    have : ((UInt8.ofInt (v >>> ((n - (k + 1)) * 8))).toNat : Int) =
        ((UInt8.ofInt ((v % 256 ^ n) >>> ((n - (k + 1)) * 8))).toNat : Int) := by
      rw [Int.shiftRight_eq_div_pow, Int.shiftRight_eq_div_pow, e1, a1, e4, a2]
    exact_mod_cast this
  · have l1 : (toArray n v).length = n := by rw [toArray, toArrayLoop_length]; simp
    have l2 : (toArray n (v % 256 ^ n)).length = n := by rw [toArray, toArrayLoop_length]; simp
    rw [List.getElem?_eq_none (by omega), List.getElem?_eq_none (by omega)]

/-- C34: `from_array(to_array(v)) = v` for every signed integer type. -/
theorem c34_signed_round_trip (n : Nat) (v : Int) (h1 : -256 ^ n ≤ 2 * v) (h2 : 2 * v < 256 ^ n) :
    fromArrayS n (toArray n v) = v := by
  have hp : (0 : Int) < 256 ^ n := by positivity
  have hu := c34_unsigned_round_trip n (v % 256 ^ n) (Int.emod_nonneg _ (by omega)) (Int.emod_lt_of_pos _ hp)
  rw [← toArray_mod] at hu
  unfold fromArrayU at hu
  unfold fromArrayS
  rcases lt_or_ge v 0 with hneg | hpos
  · have e : v % 256 ^ n = v + 256 ^ n := by
      rw [← Int.add_emod_right, Int.emod_eq_of_lt (by omega) (by omega)]
    rw [e] at hu
    have hnot : ¬ 2 * fromArrayBits n (toArray n v) < 256 ^ n := by
      intro hc
      have : (2 * fromArrayBits n (toArray n v) : Int) < 256 ^ n := by exact_mod_cast hc
      omega
    rw [if_neg hnot]
    omega
  · rw [Int.emod_eq_of_lt hpos (by omega)] at hu
    have hlt : 2 * fromArrayBits n (toArray n v) < 256 ^ n := by
      have : (2 * fromArrayBits n (toArray n v) : Int) < 256 ^ n := by rw [hu]; exact h2
      exact_mod_cast this
    rw [if_pos hlt]
    exact hu

theorem beVal_inj : ∀ (n : Nat) (a b : List UInt8), a.length = n → b.length = n → beVal a = beVal b → a = b
  | 0, a, b, ha, hb, _ => by
    rw [List.eq_nil_of_length_eq_zero ha, List.eq_nil_of_length_eq_zero hb]
  | n + 1, a, b, ha, hb, h => by
    have hne : a ≠ [] := by intro h'; simp [h'] at ha
    have hne' : b ≠ [] := by intro h'; simp [h'] at hb
    obtain ⟨a', x, rfl⟩ : ∃ a' x, a = a' ++ [x] := ⟨_, _, (List.dropLast_concat_getLast hne).symm⟩
    obtain ⟨b', y, rfl⟩ : ∃ b' y, b = b' ++ [y] := ⟨_, _, (List.dropLast_concat_getLast hne').symm⟩
    rw [beVal_append, beVal_append] at h
    have h1 := x.toNat_lt
    have h2 := y.toNat_lt
    have e1 : beVal a' = beVal b' := by omega
    have e2 : x = y := UInt8.toNat_inj.mp (by omega)
    rw [beVal_inj n a' b' (by simpa using ha) (by simpa using hb) e1, e2]

/-- C34: `to_array(from_array(a)) = a` for every array, and `from_array` of an unsigned type is the number the bytes
denote, most significant first. -/
theorem c34_bytes_round_trip (n : Nat) (a : List UInt8) (h : a.length = n) :
    fromArrayU n a = beVal a ∧ toArray n (fromArrayU n a) = a ∧ toArray n (fromArrayS n a) = a := by
  have hb := fromArrayBits_eq n a (by omega)
  have hlt := beVal_lt a
  rw [h] at hlt
  have key : toArray n (beVal a : Int) = a := by
    have hl : (toArray n (beVal a : Int)).length = n := by rw [toArray, toArrayLoop_length]; simp
    apply beVal_inj n _ _ hl h
    have := c34_unsigned_round_trip n (beVal a) (by omega) (by exact_mod_cast hlt)
    rw [fromArrayU, fromArrayBits_eq n _ (by omega)] at this
    exact_mod_cast this
  refine ⟨by rw [fromArrayU, hb], by rw [fromArrayU, hb]; exact key, ?_⟩
  unfold fromArrayS
  rw [hb]
  split
  · exact key
  · rw [toArray_mod, Int.sub_emod_right, ← toArray_mod]; exact key

-- Non-trivial cases.
example : toArray 4 0x01020304 = [1, 2, 3, 4] := by decide
example : fromArrayU 4 [1, 2, 3, 4] = 0x01020304 := by decide
example : toArray 2 (-2) = [0xff, 0xfe] := by decide
example : fromArrayS 2 [0xff, 0xfe] = -2 := by decide
example : (0 : Int) ≤ 0x01020304 ∧ (0x01020304 : Int) < 256 ^ 4 := by decide
example : (-256 ^ 2 : Int) ≤ 2 * (-2) ∧ (2 * (-2) : Int) < 256 ^ 2 := by decide

end Verif.IntArray
