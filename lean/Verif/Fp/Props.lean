import Verif.Fp.Lemmas

/-! # C134: rounding floating point numbers to integers -/

namespace Verif.Fp

open Verif
open Verif.Double (roundEven roundEven_le roundEven_int two_pos zpow_split)

variable {p : ℕ}

/-- C134, for numbers that are not negative and less than 2^p, except the one just below 1/2: the result is the nearest integer, the larger one if there are two.
Missing: negative numbers, that number, and the odd numbers between 2^p and 2^(p+1) (see the violations). -/
theorem c134_round_partial (hp : 1 ≤ p) (lo hi : ℤ) (f : ℚ) (hf : Is p f) (h0 : 0 ≤ f) (h1 : f < 2 ^ p) (hne : f ≠ 1 / 2 - 1 / 2 ^ (p + 2)) (r : ℤ)
    (h : round p lo hi f = .ok r) : (r : ℚ) - f ≤ 1 / 2 ∧ f - r < 1 / 2 ∧ ∀ n : ℤ, |f - r| ≤ |f - n| := by
  have ht := trunc_pos (q := rnd p (f + 1 / 2)) (rnd_nonneg (by linarith))
  simp only [round, ht, floor_sum hp hf h0 h1 hne] at h
  split at h
  · cases h
    have h1 := Int.floor_le (f + 1 / 2)
    have h2 := Int.lt_floor_add_one (f + 1 / 2)
    refine ⟨by linarith, by linarith, fun n => ?_⟩
    generalize ⌊f + 1 / 2⌋ = r at h1 h2
    rcases lt_trichotomy n r with hn | rfl | hn
    · have : (n : ℚ) + 1 ≤ r := by exact_mod_cast hn
      rw [abs_le]
      have h3 : f - n ≤ |f - n| := le_abs_self _
      constructor <;> linarith
    · exact le_refl _
    · have : (r : ℚ) + 1 ≤ n := by exact_mod_cast hn
      rw [abs_le]
      have h3 : -(f - n) ≤ |f - n| := neg_le_abs _
      constructor <;> linarith
  · cases h

/-- C134: such a number is rounded if the type can hold the result, otherwise the behaviour is undefined. -/
theorem c134_range_partial (hp : 1 ≤ p) (lo hi : ℤ) (f : ℚ) (hf : Is p f) (h0 : 0 ≤ f) (h1 : f < 2 ^ p) (hne : f ≠ 1 / 2 - 1 / 2 ^ (p + 2)) :
    round p lo hi f = if lo ≤ ⌊f + 1 / 2⌋ ∧ ⌊f + 1 / 2⌋ ≤ hi then .ok ⌊f + 1 / 2⌋ else .ub := by
  have ht := trunc_pos (q := rnd p (f + 1 / 2)) (rnd_nonneg (by linarith))
  simp only [round, ht, floor_sum hp hf h0 h1 hne]

/-- C134: numbers from 2^(p+1) on, which are integers, are not changed. -/
theorem c134_large_partial (lo hi : ℤ) (f : ℚ) (hf : Is p f) (h1 : 2 ^ (p + 1) ≤ f) (r : ℤ) (h : round p lo hi f = .ok r) : f = r := by
  have hpos : 0 < f := lt_of_lt_of_le (by positivity) h1
  obtain ⟨n, hn⟩ := hf.grid
  obtain ⟨l1, l2⟩ := log_bounds (p := p) (ne_of_gt hpos)
  rw [abs_of_pos hpos] at l1 l2
  set u := ulpExp p f with hu
  have hup := two_pos u
  have hu1 : 1 ≤ u := by
    have : (2 : ℚ) ^ (((p + 1 : ℕ)) : ℤ) < 2 ^ (u + ((p + 1 : ℕ) : ℤ)) := by
      rw [zpow_split, zpow_natCast]
      linarith
    have := (zpow_lt_zpow_iff_right₀ (by norm_num : (1 : ℚ) < 2)).1 this
    omega
  have h2u : (2 : ℚ) ≤ 2 ^ u := by
    have : (2 : ℚ) ^ (1 : ℤ) ≤ 2 ^ u := zpow_le_zpow_right₀ (by norm_num) hu1
    simpa using this
  have hlast : f ≤ 2 ^ u * 2 ^ (p + 1) - 2 ^ u := by
    have : n < 2 ^ (p + 1) := by
      rw [hn, mul_comm] at l2
      have := lt_of_mul_lt_mul_left l2 (le_of_lt hup)
      exact_mod_cast this
    have : (n : ℚ) + 1 ≤ 2 ^ (p + 1) := by exact_mod_cast this
    rw [hn]
    nlinarith
  have hr : rnd p (f + 1 / 2) = f := by
    rw [rnd_eq n u (by rw [abs_of_pos (by linarith)]; linarith) (by rw [abs_of_pos (by linarith)]; linarith), ← hn]
    have e : (f + 1 / 2) / 2 ^ u - n = 1 / 2 / 2 ^ u := by
      rw [hn]
      field_simp
      ring
    rw [e, abs_of_pos (by positivity), div_lt_iff₀ hup]
    linarith
  have hint : ∃ z : ℤ, f = z := by
    obtain ⟨m, hm⟩ := Int.le.dest (by omega : 0 ≤ u)
    refine ⟨n * 2 ^ m, ?_⟩
    rw [hn, ← hm, zero_add, zpow_natCast]
    push_cast
    rfl
  obtain ⟨z, hz⟩ := hint
  simp only [round, hr, trunc_pos (le_of_lt hpos)] at h
  split at h
  · cases h
    rw [hz, Int.floor_intCast]
  · cases h

/-- C134: the even ones of the integers between 2^p and 2^(p+1) are not changed. -/
theorem c134_even_partial (lo hi n : ℤ) (h1 : 2 ^ p ≤ n) (h2 : n < 2 ^ (p + 1)) (he : n % 2 = 0) (hl : lo ≤ n) (hh : n ≤ hi) : round p lo hi n = .ok n := by
  have hpp : (0 : ℤ) < 2 ^ p := by positivity
  simp only [round]
  rw [sum_between n h1 h2, if_pos he, trunc_pos (by exact_mod_cast (by linarith : (0 : ℤ) ≤ n)), Int.floor_intCast]
  exact if_pos ⟨hl, hh⟩

/-- C134 is violated by the odd ones: the result is the next integer. -/
theorem c134_odd_violated (lo hi n : ℤ) (h1 : 2 ^ p ≤ n) (h2 : n < 2 ^ (p + 1)) (he : n % 2 = 1) (hl : lo ≤ n + 1) (hh : n + 1 ≤ hi) : Is p n ∧ round p lo hi n = .ok (n + 1) := by
  have hpp : (0 : ℤ) < 2 ^ p := by positivity
  refine ⟨is_int (by rw [abs_of_pos (by linarith)]; linarith), ?_⟩
  simp only [round]
  rw [sum_between n h1 h2, if_neg (show ¬ n % 2 = 0 by omega), show (n : ℚ) + 1 = ((n + 1 : ℤ) : ℚ) by push_cast; rfl, trunc_pos (by exact_mod_cast (by linarith : (0 : ℤ) ≤ n + 1)), Int.floor_intCast]
  exact if_pos ⟨hl, hh⟩

/-- C134 is violated by the number just below 1/2 (0.49999999999999994 for `double`): the result is 1. -/
theorem c134_half_violated (lo hi : ℤ) (hl : lo ≤ 1) (hh : 1 ≤ hi) : Is p (1 / 2 - 1 / 2 ^ (p + 2)) ∧ (1 / 2 - 1 / 2 ^ (p + 2) : ℚ) < 1 / 2 ∧
    round p lo hi (1 / 2 - 1 / 2 ^ (p + 2)) = .ok 1 := by
  have hq : (0 : ℚ) < 1 / 2 ^ (p + 2) := by positivity
  refine ⟨⟨2 ^ (p + 1) - 1, -((p + 2 : ℕ) : ℤ), ?_, ?_⟩, by linarith, ?_⟩
  · have : (1 : ℤ) ≤ 2 ^ (p + 1) := one_le_pow₀ (by norm_num)
    rw [abs_of_nonneg (by linarith)]
    linarith
  · rw [zpow_neg_nat]
    push_cast
    field_simp
    ring
  · have hr : rnd p (1 / 2 - 1 / 2 ^ (p + 2) + 1 / 2) = 1 := by
      have hx : (1 / 2 - 1 / 2 ^ (p + 2) + 1 / 2 : ℚ) = 1 - 1 / 2 ^ (p + 2) := by ring
      have h4 : (1 : ℚ) / 2 ^ (p + 2) ≤ 1 / 4 := by
        have : (1 : ℚ) ≤ 2 ^ p := one_le_pow₀ (by norm_num)
        rw [div_le_div_iff₀ (by positivity) (by norm_num), pow_succ, pow_succ]
        linarith
      have e1 : (2 : ℚ) ^ (-((p + 1 : ℕ) : ℤ)) = 1 / 2 ^ (p + 1) := zpow_neg_nat _
      have he : ulpExp p (1 - 1 / 2 ^ (p + 2)) = -((p + 1 : ℕ) : ℤ) := by
        apply ulpExp_unique
        · rw [abs_of_pos (by linarith), e1, pow_succ]
          have : (1 : ℚ) / (2 ^ p * 2) * 2 ^ p = 1 / 2 := by field_simp
          linarith
        · rw [abs_of_pos (by linarith), e1]
          have : (1 : ℚ) / 2 ^ (p + 1) * 2 ^ (p + 1) = 1 := by field_simp
          linarith
      rw [hx]
      unfold rnd
      rw [he, e1]
      have hy : (1 - 1 / 2 ^ (p + 2)) / (1 / 2 ^ (p + 1)) = ((2 ^ (p + 1) - 1 : ℤ) : ℚ) + 1 / 2 := by
        push_cast
        field_simp
        ring
      have hfl : ⌊((2 ^ (p + 1) - 1 : ℤ) : ℚ) + 1 / 2⌋ = 2 ^ (p + 1) - 1 := by
        rw [Int.floor_eq_iff]
        constructor <;> linarith
      have hodd : ¬ (2 ^ (p + 1) - 1 : ℤ) % 2 = 0 := by
        rw [pow_succ]
        omega
      have : roundEven (((2 ^ (p + 1) - 1 : ℤ) : ℚ) + 1 / 2) = 2 ^ (p + 1) := by
        unfold roundEven
        rw [hfl]
        simp only [add_sub_cancel_left, lt_irrefl, if_false, if_neg hodd]
        ring
      rw [hy, this]
      push_cast
      field_simp
    simp only [round]
    rw [hr, trunc_pos (by norm_num), Int.floor_one]
    exact if_pos ⟨hl, hh⟩

/-- C134 is violated by negative numbers: every negative integer above -2^p gives the next one. -/
theorem c134_negative_violated (lo hi n : ℤ) (hn : n < 0) (h0 : -2 ^ p < n) (hl : lo ≤ n + 1) (hh : n + 1 ≤ hi) : round p lo hi n = .ok (n + 1) := by
  have q : (n : ℚ) ≤ -1 := by exact_mod_cast (by omega : n ≤ -1)
  have his : Is p ((n : ℚ) + 1 / 2) := by
    refine ⟨2 * n + 1, -1, ?_, ?_⟩
    · rw [abs_of_nonpos (by omega), pow_succ]
      omega
    · have : (2 : ℚ) ^ (-1 : ℤ) = 1 / 2 := by norm_num
      rw [this]
      push_cast
      ring
  have hc : ⌈(n : ℚ) + 1 / 2⌉ = n + 1 := by
    rw [Int.ceil_eq_iff]
    push_cast
    constructor <;> linarith
  simp only [round, rnd_is his]
  rw [show trunc ((n : ℚ) + 1 / 2) = n + 1 by unfold trunc; rw [if_neg (by linarith), hc]]
  exact if_pos ⟨hl, hh⟩

/-! ### Samples: `float` and `double` -/

example : Is 52 (5 / 2) ∧ (5 / 2 : ℚ) < 2 ^ 52 ∧ (5 / 2 : ℚ) ≠ 1 / 2 - 1 / 2 ^ (52 + 2) := ⟨⟨5, -1, by norm_num, by norm_num⟩, by norm_num, by norm_num⟩
example : round 52 (-2 ^ 31) (2 ^ 31 - 1) (5 / 2) = .ok 3 := by
  rw [c134_range_partial (by norm_num) _ _ _ ⟨5, -1, by norm_num, by norm_num⟩ (by norm_num) (by norm_num) (by norm_num)]
  norm_num
example : round 52 (-2 ^ 63) (2 ^ 63 - 1) ((4503599627370497 : ℤ) : ℚ) = .ok 4503599627370498 :=
  (c134_odd_violated _ _ 4503599627370497 (by norm_num) (by norm_num) (by norm_num) (by norm_num) (by norm_num)).2
example : round 23 (-2 ^ 31) (2 ^ 31 - 1) ((-3 : ℤ) : ℚ) = .ok (-2) := c134_negative_violated _ _ (-3) (by norm_num) (by norm_num) (by norm_num) (by norm_num)
example : Is 23 16777216 ∧ (2 ^ (23 + 1) : ℚ) ≤ 16777216 := ⟨⟨1, 24, by norm_num, by norm_num⟩, by norm_num⟩

end Verif.Fp
