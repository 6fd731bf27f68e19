import Verif.Fp.Model

/-! # Rounding floating point numbers to integers: lemmas -/

namespace Verif.Fp

open Verif
open Verif.Double (roundEven roundEven_le roundEven_int two_pos zpow_split)

variable {p : ℕ}

theorem trunc_pos {q : ℚ} (h : 0 ≤ q) : trunc q = ⌊q⌋ := if_pos h

/-- A rounded number stays between representable numbers. -/
theorem rnd_le {x z : ℚ} (hz : Is p z) (h : x ≤ z) : rnd p x ≤ z := by
  have := rnd_mono (p := p) h
  rwa [rnd_is hz] at this

theorem le_rnd {x z : ℚ} (hz : Is p z) (h : z ≤ x) : z ≤ rnd p x := by
  have := rnd_mono (p := p) h
  rwa [rnd_is hz] at this

/-- Between an integer and something less than the next one. -/
theorem floor_rnd {x z : ℚ} {N : ℤ} (hN : |N| ≤ 2 ^ (p + 1)) (h1 : (N : ℚ) ≤ x) (hz : Is p z) (h2 : x ≤ z) (h3 : z < N + 1) : ⌊rnd p x⌋ = N := by
  rw [Int.floor_eq_iff]
  exact ⟨le_rnd (is_int hN) h1, lt_of_le_of_lt (rnd_le hz h2) h3⟩

/-- The number just below 1/2. -/
def belowHalf (p : ℕ) : ℚ := 1 / 2 - 1 / 2 ^ (p + 2)

theorem zpow_neg_nat (n : ℕ) : (2 : ℚ) ^ (-(n : ℤ)) = 1 / 2 ^ n := by
  rw [zpow_neg, zpow_natCast, one_div]

theorem below_half {f : ℚ} (hp : 1 ≤ p) (hf : Is p f) (h0 : 0 ≤ f) (h : f < 1 / 2) (hne : f ≠ belowHalf p) : f ≤ 1 / 2 - 1 / 2 ^ (p + 1) := by
  have hpp : (0 : ℚ) < 2 ^ p := by positivity
  have h4 : (1 : ℚ) / 2 ^ (p + 1) ≤ 1 / 4 := by
    have : (2 : ℚ) ^ 1 ≤ 2 ^ p := pow_le_pow_right₀ (by norm_num) hp
    rw [pow_succ]
    rw [div_le_div_iff₀ (by positivity) (by norm_num)]
    linarith
  rcases eq_or_lt_of_le h0 with h0 | h0
  · rw [← h0]; linarith
  · obtain ⟨n, hn⟩ := hf.grid
    obtain ⟨l1, l2⟩ := log_bounds (p := p) (ne_of_gt h0)
    rw [abs_of_pos h0] at l1 l2
    have hu : ulpExp p f ≤ -(p : ℤ) - 2 := by
      have : (2 : ℚ) ^ (ulpExp p f + (p : ℕ)) < 2 ^ (-1 : ℤ) := by
        rw [zpow_split, show (2 : ℚ) ^ (-1 : ℤ) = 1 / 2 by norm_num]
        linarith
      have := (zpow_lt_zpow_iff_right₀ (by norm_num : (1 : ℚ) < 2)).1 this
      omega
    rcases lt_or_eq_of_le hu with hu | hu
    · have : (2 : ℚ) ^ (ulpExp p f + ((p + 1 : ℕ) : ℤ)) ≤ 2 ^ (-2 : ℤ) := zpow_le_zpow_right₀ (by norm_num) (by push_cast; omega)
      rw [zpow_split, show (2 : ℚ) ^ (-2 : ℤ) = 1 / 4 by norm_num] at this
      linarith
    · rw [hu, show -(p : ℤ) - 2 = -((p + 2 : ℕ) : ℤ) by push_cast; ring, zpow_neg_nat] at hn
      have hq : (0 : ℚ) < 2 ^ (p + 2) := by positivity
      have hn1 : n < 2 ^ (p + 1) := by
        rw [hn, mul_one_div, div_lt_iff₀ hq, pow_succ, pow_succ] at h
        have : (n : ℚ) < 2 ^ (p + 1) := by rw [pow_succ]; linarith
        exact_mod_cast this
      have hn2 : n ≠ 2 ^ (p + 1) - 1 := by
        intro e
        apply hne
        rw [hn, e]
        unfold belowHalf
        push_cast
        field_simp
        ring
      have hn3 : n ≤ 2 ^ (p + 1) - 2 := by omega
      have hn4 : (n : ℚ) ≤ 2 ^ (p + 1) - 2 := by exact_mod_cast hn3
      rw [hn, mul_one_div, div_le_iff₀ hq]
      have e : (1 / 2 - 1 / 2 ^ (p + 1)) * (2 : ℚ) ^ (p + 2) = 2 ^ (p + 1) - 2 := by
        field_simp
        ring
      rw [e]
      exact hn4

/-- The floor of the rounded sum, for numbers below 2^p. -/
theorem floor_sum {f : ℚ} (hp : 1 ≤ p) (hf : Is p f) (h0 : 0 ≤ f) (h1 : f < 2 ^ p) (hne : f ≠ belowHalf p) : ⌊rnd p (f + 1 / 2)⌋ = ⌊f + 1 / 2⌋ := by
  have hpp : (2 : ℚ) ^ 1 ≤ 2 ^ p := pow_le_pow_right₀ (by norm_num) hp
  have hpz : (2 : ℤ) ^ 1 ≤ 2 ^ p := pow_le_pow_right₀ (by norm_num) hp
  rcases lt_or_ge f (1 / 2) with hh | hh
  · have hb := below_half hp hf h0 hh hne
    have hfl : ⌊f + 1 / 2⌋ = 0 := by
      rw [Int.floor_eq_iff]
      push_cast
      constructor <;> linarith
    rw [hfl]
    refine floor_rnd (z := 1 - 1 / 2 ^ (p + 1)) (by simp) (by push_cast; linarith) ?_ (by linarith) ?_
    · refine ⟨2 ^ (p + 1) - 1, -((p + 1 : ℕ) : ℤ), ?_, ?_⟩
      · have : (1 : ℤ) ≤ 2 ^ (p + 1) := one_le_pow₀ (by norm_num)
        rw [abs_of_nonneg (by linarith)]
        linarith
      · rw [zpow_neg_nat]
        push_cast
        field_simp
    · have : (0 : ℚ) < 1 / 2 ^ (p + 1) := by positivity
      push_cast
      linarith
  · have hpos : 0 < f := by linarith
    obtain ⟨n, hn⟩ := hf.grid
    obtain ⟨l1, l2⟩ := log_bounds (p := p) (ne_of_gt hpos)
    rw [abs_of_pos hpos] at l1 l2
    set u := ulpExp p f with hu
    have hup := two_pos u
    have hu1 : u ≤ -1 := by
      have : (2 : ℚ) ^ (u + (p : ℕ)) < 2 ^ ((p : ℕ) : ℤ) := by
        rw [zpow_split, zpow_natCast]
        linarith
      have := (zpow_lt_zpow_iff_right₀ (by norm_num : (1 : ℚ) < 2)).1 this
      omega
    have hN : |⌊f + 1 / 2⌋| ≤ 2 ^ (p + 1) := by
      have a : 0 ≤ ⌊f + 1 / 2⌋ := Int.floor_nonneg.2 (by linarith)
      have b := Int.floor_le (f + 1 / 2)
      have c : (⌊f + 1 / 2⌋ : ℚ) ≤ 2 ^ (p + 1) := by
        rw [pow_succ]
        linarith
      rw [abs_of_nonneg a]
      exact_mod_cast c
    -- one half is a multiple of the last digit
    obtain ⟨m, hm⟩ := Int.le.dest (by omega : u ≤ -1)
    have hhalf : (1 / 2 : ℚ) = ((2 ^ m : ℤ) : ℚ) * 2 ^ u := by
      have : (2 : ℚ) ^ (-1 : ℤ) = 1 / 2 := by norm_num
      rw [← this, ← hm, zpow_split]
      push_cast
      ring
    have hx : f + 1 / 2 = ((n + 2 ^ m : ℤ) : ℚ) * 2 ^ u := by
      rw [hn, hhalf]
      push_cast
      ring
    rcases le_or_gt (f + 1 / 2) (2 ^ u * 2 ^ (p + 1)) with hc | hc
    · -- the sum is exact
      have his : Is p (f + 1 / 2) := by
        refine ⟨n + 2 ^ m, u, ?_, hx⟩
        have h2 : ((n + 2 ^ m : ℤ) : ℚ) ≤ 2 ^ (p + 1) := by
          rw [hx, mul_comm] at hc
          exact le_of_mul_le_mul_left hc hup
        have h3 : 0 ≤ ((n + 2 ^ m : ℤ) : ℚ) := by
          by_contra hneg
          have := mul_neg_of_neg_of_pos (not_le.1 hneg) hup
          rw [← hx] at this
          linarith
        have h4 : n + 2 ^ m ≤ 2 ^ (p + 1) := by exact_mod_cast h2
        have h5 : 0 ≤ n + 2 ^ m := by exact_mod_cast h3
        rw [abs_of_nonneg h5]
        exact h4
      rw [rnd_is his]
    · -- the sum has another digit before the point
      have hlast : f ≤ 2 ^ u * 2 ^ (p + 1) - 2 ^ u := by
        have : n < 2 ^ (p + 1) := by
          rw [hn, mul_comm] at l2
          have := lt_of_mul_lt_mul_left l2 (le_of_lt hup)
          exact_mod_cast this
        have : (n : ℚ) + 1 ≤ 2 ^ (p + 1) := by exact_mod_cast this
        rw [hn]
        nlinarith
      have hu2 : u ≤ -2 := by
        by_contra hcon
        have he : u = -1 := by omega
        rw [he] at hlast hc
        have : (2 : ℚ) ^ (-1 : ℤ) = 1 / 2 := by norm_num
        rw [this] at hlast hc
        linarith
      rcases lt_or_ge f 1 with h1' | h1'
      · -- between 1 and 3/2
        have hfl : ⌊f + 1 / 2⌋ = 1 := by
          rw [Int.floor_eq_iff]
          push_cast
          constructor <;> linarith
        rw [hfl]
        refine floor_rnd (z := 3 / 2) (by rw [pow_succ, abs_of_nonneg (by norm_num)]; linarith) (by push_cast; linarith) ⟨3, -1, ?_, by norm_num⟩ (by linarith)
          (by push_cast; norm_num)
        rw [pow_succ, abs_of_nonneg (by norm_num)]
        linarith
      · -- just above a power of two
        have hul : -(p : ℤ) ≤ u := by
          have : (2 : ℚ) ^ (0 : ℤ) < 2 ^ (u + ((p + 1 : ℕ) : ℤ)) := by
            rw [zpow_split, zpow_zero]
            linarith
          have := (zpow_lt_zpow_iff_right₀ (by norm_num : (1 : ℚ) < 2)).1 this
          push_cast at this
          omega
        obtain ⟨b, hb⟩ := Int.le.dest (by omega : -(p : ℤ) - 1 ≤ u)
        have hB : (2 : ℚ) ^ u * 2 ^ (p + 1) = 2 ^ b := by
          rw [← hb, ← zpow_split]
          have : -(p : ℤ) - 1 + b + ((p + 1 : ℕ) : ℤ) = (b : ℤ) := by push_cast; ring
          rw [this, zpow_natCast]
        rw [hB] at hc hlast l2
        have hbp : b + 1 ≤ p := by omega
        have hfl : ⌊f + 1 / 2⌋ = 2 ^ b := by
          rw [Int.floor_eq_iff]
          push_cast
          constructor <;> linarith
        have hbz : (2 : ℤ) ^ (b + 1) ≤ 2 ^ p := pow_le_pow_right₀ (by norm_num) hbp
        rw [hfl]
        refine floor_rnd (z := 2 ^ b + 1 / 2) (by rw [← hfl]; exact hN) (by push_cast; linarith) ⟨2 ^ (b + 1) + 1, -1, ?_, ?_⟩ (by linarith) (by push_cast; linarith)
        · have : (0 : ℤ) ≤ 2 ^ (b + 1) := by positivity
          rw [abs_of_nonneg (by linarith), pow_succ 2 p]
          linarith
        · have : (2 : ℚ) ^ (-1 : ℤ) = 1 / 2 := by norm_num
          rw [this]
          push_cast
          rw [pow_succ]
          ring

/-- The rounded sum for integers between 2^p and 2^(p+1). -/
theorem sum_between (n : ℤ) (h1 : 2 ^ p ≤ n) (h2 : n < 2 ^ (p + 1)) : rnd p ((n : ℚ) + 1 / 2) = if n % 2 = 0 then (n : ℚ) else n + 1 := by
  have q1 : (2 : ℚ) ^ p ≤ n := by exact_mod_cast h1
  have h3 : n + 1 ≤ 2 ^ (p + 1) := h2
  have q2 : (n : ℚ) + 1 ≤ 2 ^ (p + 1) := by exact_mod_cast h3
  have hpp : (0 : ℚ) < 2 ^ p := by positivity
  have he : ulpExp p ((n : ℚ) + 1 / 2) = 0 := by
    apply ulpExp_unique
    · rw [abs_of_pos (by linarith), zpow_zero]; linarith
    · rw [abs_of_pos (by linarith), zpow_zero]; linarith
  have hfl : ⌊(n : ℚ) + 1 / 2⌋ = n := by
    rw [Int.floor_eq_iff]
    constructor <;> linarith
  unfold rnd
  rw [he, zpow_zero, div_one, mul_one]
  unfold roundEven
  rw [hfl]
  simp only [add_sub_cancel_left, lt_irrefl, if_false]
  split_ifs
  · rfl
  · push_cast; rfl

end Verif.Fp
