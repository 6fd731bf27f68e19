import Verif.Crc64.Lemmas
import Mathlib.Algebra.Polynomial.Div
import Mathlib.Algebra.Polynomial.Degree.Lemmas
import Mathlib.Algebra.CharP.Two
import Mathlib.Data.ZMod.Basic
import Mathlib.Algebra.Field.ZMod
import Mathlib.RingTheory.Coprime.Basic
import Mathlib.RingTheory.Coprime.Lemmas
import Mathlib.Tactic.LinearCombination
import Mathlib.Tactic.Ring

/-!
# CRC-64 as polynomial division over the field with two elements
-/

namespace Verif.Crc64

open Polynomial

noncomputable section

/-- The field with two elements. -/
abbrev F2 := ZMod 2

/-! ## Specification -/

/-- The generator `x^64 + Σ jones_i x^i`. -/
def generator : F2[X] := X ^ 64 + ∑ i ∈ Finset.range 64, if jones.getLsbD i then X ^ i else 0

/-- A register: the lowest bit is the coefficient of `x^63`. -/
def regPoly (c : BitVec 64) : F2[X] := ∑ i ∈ Finset.range 64, if c.getLsbD i then X ^ (63 - i) else 0

/-- A byte: the lowest bit is the coefficient of `x^7`. -/
def bytePoly (b : UInt8) : F2[X] := ∑ i ∈ Finset.range 8, if b.toBitVec.getLsbD i then X ^ (7 - i) else 0

/-- A message: the first byte has the highest coefficients. -/
def msgPoly (m : List UInt8) : F2[X] := m.foldl (fun p b => p * X ^ 8 + bytePoly b) 0

/-! ## Lemmas -/

theorem add_self (p : F2[X]) : p + p = 0 := CharTwo.add_self_eq_zero p

theorem ite_xor (a b : Bool) (p : F2[X]) :
    (if (a ^^ b) = true then p else 0) = (if a = true then p else 0) + (if b = true then p else 0) := by
  cases a <;> cases b <;> simp [add_self]

theorem regPoly_xor (a b : BitVec 64) : regPoly (a ^^^ b) = regPoly a + regPoly b := by
  unfold regPoly
  rw [← Finset.sum_add_distrib]
  refine Finset.sum_congr rfl fun i _ => ?_
  rw [BitVec.getLsbD_xor, ite_xor]

theorem regPoly_shift (c : BitVec 64) :
    X * regPoly c = (if c.getLsbD 0 then X ^ 64 else 0) + regPoly (c >>> 1) := by
  unfold regPoly
  rw [Finset.sum_range_succ' _ 63, Finset.sum_range_succ _ 63, mul_add, add_comm, Finset.mul_sum]
  refine congrArg₂ (· + ·) ?_ ?_
  · cases c.getLsbD 0
    · simp
    · simp only [if_true]; rw [← pow_succ']
  · have hlast : (c >>> 1).getLsbD 63 = false := by
      rw [BitVec.getLsbD_ushiftRight]; exact BitVec.getLsbD_of_ge _ _ (by omega)
    rw [hlast]
    simp only [Bool.false_eq_true, if_false, add_zero]
    refine Finset.sum_congr rfl fun i hi => ?_
    have hi := Finset.mem_range.1 hi
    rw [BitVec.getLsbD_ushiftRight, Nat.add_comm 1 i]
    cases c.getLsbD (i + 1)
    · simp
    · simp only [if_true]; rw [← pow_succ']; congr 1; omega

theorem generator_eq : generator = X ^ 64 + regPoly jones.reverse := by
  unfold generator regPoly
  refine congrArg₂ (· + ·) rfl ?_
  rw [← Finset.sum_range_reflect]
  refine Finset.sum_congr rfl fun i hi => ?_
  have hi := Finset.mem_range.1 hi
  have : jones.reverse.getLsbD i = jones.getLsbD (64 - 1 - i) := by
    have : ∀ i : Fin 64, jones.reverse.getLsbD i.val = jones.getLsbD (64 - 1 - i.val) := by decide +kernel
    exact this ⟨i, hi⟩
  rw [this]

theorem regPoly_step (c : BitVec 64) :
    X * regPoly c = regPoly (step c) + (if c.getLsbD 0 then generator else 0) := by
  rw [regPoly_shift, step]
  cases c.getLsbD 0
  · simp
  · simp only [if_true]
    rw [regPoly_xor, generator_eq]
    have := add_self (regPoly jones.reverse)
    linear_combination -this

theorem regPoly_steps : ∀ (n : Nat) (c : BitVec 64), generator ∣ regPoly (steps n c) - X ^ n * regPoly c
  | 0, c => by simp [steps]
  | n + 1, c => by
    obtain ⟨q, hq⟩ := regPoly_steps n (step c)
    have h := regPoly_step c
    rw [steps]
    cases hc : c.getLsbD 0
    · rw [hc] at h
      exact ⟨q, by simp only [Bool.false_eq_true, if_false] at h; linear_combination hq - X ^ n * h⟩
    · rw [hc] at h
      exact ⟨q - X ^ n, by simp only [if_true] at h; linear_combination hq - X ^ n * h⟩

theorem regPoly_byte (b : UInt8) : regPoly (b.toBitVec.setWidth 64) = bytePoly b * X ^ 56 := by
  unfold regPoly bytePoly
  rw [show (64 : Nat) = 8 + 56 from rfl, Finset.sum_range_add, Finset.sum_mul]
  rw [Finset.sum_eq_zero (s := Finset.range 56), add_zero]
  · refine Finset.sum_congr rfl fun i hi => ?_
    have hi := Finset.mem_range.1 hi
    rw [BitVec.getLsbD_setWidth]
    cases hb : b.toBitVec.getLsbD i
    · simp
    · simp only [show i < 8 + 56 by omega, decide_true, Bool.and_self, if_true]
      rw [← pow_add]; congr 1; omega
  · intro i _
    rw [BitVec.getLsbD_setWidth, BitVec.getLsbD_of_ge _ _ (by omega)]
    simp

theorem bitwise_congr (seed : BitVec 64) (m : List UInt8) :
    generator ∣ regPoly (bitwise seed m) - (regPoly seed * X ^ (8 * m.length) + msgPoly m * X ^ 64) := by
  induction m using List.reverseRecOn with
  | nil => simp [bitwise, msgPoly]
  | append_singleton m b ih =>
    obtain ⟨q, hq⟩ := ih
    have hb : bitwise seed (m ++ [b]) = steps 8 (bitwise seed m ^^^ b.toBitVec.setWidth 64) := by
      simp [bitwise, bitwiseByte]
    have hm : msgPoly (m ++ [b]) = msgPoly m * X ^ 8 + bytePoly b := by simp [msgPoly]
    obtain ⟨r, hr⟩ := regPoly_steps 8 (bitwise seed m ^^^ b.toBitVec.setWidth 64)
    rw [regPoly_xor, regPoly_byte] at hr
    rw [hb, hm, List.length_append, List.length_singleton]
    refine ⟨r + X ^ 8 * q, ?_⟩
    linear_combination hr + X ^ 8 * hq

theorem regPoly_degree (c : BitVec 64) : (regPoly c).degree < 64 := by
  unfold regPoly
  refine lt_of_le_of_lt (degree_sum_le _ _) ?_
  rw [Finset.sup_lt_iff (by decide)]
  intro i hi
  have hi := Finset.mem_range.1 hi
  split
  · rw [degree_X_pow]; exact_mod_cast (by omega : 63 - i < 64)
  · rw [degree_zero]; decide

theorem generator_monic : generator.Monic := by
  rw [generator_eq]
  exact monic_X_pow_add (regPoly_degree _)

theorem generator_degree : generator.degree = 64 := by
  rw [generator_eq, degree_add_eq_left_of_degree_lt]
  · exact degree_X_pow 64
  · rw [degree_X_pow]; exact regPoly_degree _

theorem bitwise_mod (seed : BitVec 64) (m : List UInt8) :
    regPoly (bitwise seed m) = (regPoly seed * X ^ (8 * m.length) + msgPoly m * X ^ 64) %ₘ generator := by
  obtain ⟨q, hq⟩ := bitwise_congr seed m
  refine ((div_modByMonic_unique (-q) (regPoly (bitwise seed m)) generator_monic ⟨?_, ?_⟩).2).symm
  · linear_combination hq
  · rw [generator_degree]; exact regPoly_degree _

theorem regPoly_inj {a b : BitVec 64} (h : regPoly a = regPoly b) : a = b := by
  have coeff : ∀ (c : BitVec 64) (k : Nat), k < 64 → (regPoly c).coeff (63 - k) = if c.getLsbD k then 1 else 0 := by
    intro c k hk
    unfold regPoly
    rw [finsetSum_coeff, Finset.sum_eq_single k]
    · cases c.getLsbD k <;> simp
    · intro i hi hne
      have hi := Finset.mem_range.1 hi
      cases c.getLsbD i
      · simp
      · simp only [if_true]
        rw [coeff_X_pow, if_neg (by omega)]
    · intro h; exact absurd (Finset.mem_range.2 hk) h
  apply BitVec.eq_of_getLsbD_eq
  intro i hi
  have h1 := coeff a i hi
  have h2 := coeff b i hi
  rw [h, h2] at h1
  cases ha : a.getLsbD i <;> cases hb : b.getLsbD i <;> rw [ha, hb] at h1 <;> simp_all

theorem generator_coprime : IsCoprime generator (X : F2[X]) := by
  refine ⟨1, -(X ^ 63 + ∑ i ∈ Finset.range 63, if jones.getLsbD (i + 1) then X ^ i else 0), ?_⟩
  unfold generator
  rw [Finset.sum_range_succ' _ 63]
  have h0 : jones.getLsbD 0 = true := by decide +kernel
  rw [h0]
  simp only [if_true, pow_zero, neg_mul, add_mul, Finset.sum_mul, one_mul]
  have : ∀ i ∈ Finset.range 63, (if jones.getLsbD (i + 1) = true then (X : F2[X]) ^ i else 0) * X =
      if jones.getLsbD (i + 1) = true then X ^ (i + 1) else 0 := by
    intro i _
    cases jones.getLsbD (i + 1)
    · simp
    · simp only [if_true]; rw [← pow_succ]
  rw [Finset.sum_congr rfl this]
  ring

/-- An error that is a nonzero polynomial of degree less than 64 times a power of `x` changes the CRC. -/
theorem burst {seed : BitVec 64} {m m' : List UInt8} (hl : m'.length = m.length) {k : Nat} {b : F2[X]} (hb : b ≠ 0)
    (hd : b.degree < 64) (h : msgPoly m' = msgPoly m + X ^ k * b) : bitwise seed m' ≠ bitwise seed m := by
  intro he
  obtain ⟨q, hq⟩ := bitwise_congr seed m
  obtain ⟨r, hr⟩ := bitwise_congr seed m'
  rw [he, hl, h] at hr
  have hdvd : generator ∣ X ^ (k + 64) * b := ⟨q - r, by rw [pow_add]; linear_combination hq - hr⟩
  have hcop : IsCoprime generator ((X : F2[X]) ^ (k + 64)) := generator_coprime.pow_right
  have := hcop.dvd_of_dvd_mul_left hdvd
  have h3 := degree_le_of_dvd this hb
  rw [generator_degree] at h3
  exact absurd hd (not_lt.2 h3)

end

end Verif.Crc64
