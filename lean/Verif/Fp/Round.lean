import Verif.Double.Round

/-!
# Floating point numbers of any precision

As `Verif.Double.Round`, for numbers with `p + 1` binary digits: `float` (p = 23), `double` (p = 52).  A finite number is the rational number it stands for; `rnd p` is the
rounding of IEEE 754 to the nearest number with `p + 1` digits, ties to even.  Left out: infinities, NaN, the sign of zero, and the limits of the exponent.
-/

namespace Verif.Fp

open Verif.Double (roundEven roundEven_le roundEven_int roundEven_mono roundEven_neg roundEven_nearest two_pos zpow_split)

variable (p : ℕ)

/-- The exponent of the last of the `p + 1` digits (for the operations of Math.h:15-37 and StopWatch.h:26-55). -/
def ulpExp (x : ℚ) : ℤ := Int.log 2 |x| - p

/-- The result of an operation of the hardware whose exact result is `x` (the additions, products and quotients of Math.h:15-37 and, within `duration_cast`, of StopWatch.h:29-54). -/
def rnd (x : ℚ) : ℚ := roundEven (x / 2 ^ ulpExp p x) * 2 ^ ulpExp p x

/-- The numbers that the type can hold (`T` of Math.h:21-33, `value_type` of StopWatch.h:26, 40). -/
def Is (x : ℚ) : Prop := ∃ k j : ℤ, |k| ≤ 2 ^ (p + 1) ∧ x = k * 2 ^ j

/-- `double`. -/
theorem rnd_double_eq (x : ℚ) : rnd 52 x = Double.rnd x := rfl

variable {p}

theorem log_bounds {x : ℚ} (hx : x ≠ 0) : (2 : ℚ) ^ ulpExp p x * 2 ^ p ≤ |x| ∧ |x| < (2 : ℚ) ^ ulpExp p x * 2 ^ (p + 1) := by
  have h := abs_pos.2 hx
  have h1 := Int.zpow_log_le_self (b := 2) (by norm_num) h
  have h2 := Int.lt_zpow_succ_log_self (b := 2) (by norm_num) |x|
  simp only [Nat.cast_ofNat] at h1 h2
  rw [← zpow_split, ← zpow_split]
  unfold ulpExp
  push_cast
  rw [show Int.log 2 |x| - (p : ℤ) + p = Int.log 2 |x| by ring, show Int.log 2 |x| - (p : ℤ) + (p + 1) = Int.log 2 |x| + 1 by ring]
  exact ⟨h1, h2⟩

theorem ulp_lt_of_lt {a b : ℤ} (h : (2 : ℚ) ^ a * 2 ^ p < 2 ^ b * 2 ^ (p + 1)) : a ≤ b := by
  rw [← zpow_split, ← zpow_split] at h
  have := (zpow_lt_zpow_iff_right₀ (by norm_num : (1 : ℚ) < 2)).1 h
  push_cast at this
  omega

theorem ulpExp_unique {x : ℚ} {e : ℤ} (h1 : (2 : ℚ) ^ e * 2 ^ p ≤ |x|) (h2 : |x| < (2 : ℚ) ^ e * 2 ^ (p + 1)) : ulpExp p x = e := by
  have hx : x ≠ 0 := by
    rintro rfl
    rw [abs_zero] at h1
    exact absurd h1 (not_le.2 (mul_pos (two_pos _) (by positivity)))
  obtain ⟨a, b⟩ := log_bounds (p := p) hx
  have l1 := ulp_lt_of_lt (lt_of_le_of_lt h1 b)
  have l2 := ulp_lt_of_lt (lt_of_le_of_lt a h2)
  omega

theorem rnd_zero : rnd p 0 = 0 := by
  unfold rnd
  rw [zero_div]
  have := roundEven_int 0
  simp only [Int.cast_zero] at this
  rw [this]
  simp

theorem rnd_neg (x : ℚ) : rnd p (-x) = -rnd p x := by
  unfold rnd
  rw [show ulpExp p (-x) = ulpExp p x by unfold ulpExp; rw [abs_neg], neg_div, roundEven_neg]
  push_cast
  ring

/-- The error is at most half of the last digit. -/
theorem rnd_ulp (x : ℚ) : |rnd p x - x| ≤ 2 ^ ulpExp p x / 2 := by
  have hp := two_pos (ulpExp p x)
  have h := roundEven_le (x / 2 ^ ulpExp p x)
  have e : rnd p x - x = ((roundEven (x / 2 ^ ulpExp p x) : ℚ) - x / 2 ^ ulpExp p x) * 2 ^ ulpExp p x := by
    unfold rnd
    field_simp
  rw [e, abs_mul, abs_of_pos hp]
  calc _ ≤ 1 / 2 * (2 : ℚ) ^ ulpExp p x := by exact mul_le_mul_of_nonneg_right h (le_of_lt hp)
    _ = _ := by ring

/-- The relative error is at most 2^-(p+1). -/
theorem rnd_error (x : ℚ) : |rnd p x - x| ≤ |x| / 2 ^ (p + 1) := by
  by_cases hx : x = 0
  · subst hx
    simp [rnd_zero]
  · have h := rnd_ulp (p := p) x
    have hl := (log_bounds (p := p) hx).1
    rw [le_div_iff₀ (by positivity)]
    calc |rnd p x - x| * 2 ^ (p + 1) ≤ 2 ^ ulpExp p x / 2 * 2 ^ (p + 1) := by exact mul_le_mul_of_nonneg_right h (by positivity)
      _ = 2 ^ ulpExp p x * 2 ^ p := by ring
      _ ≤ |x| := hl

theorem Is.grid {x : ℚ} (h : Is p x) : ∃ n : ℤ, x = n * 2 ^ ulpExp p x := by
  obtain ⟨k, j, hk, rfl⟩ := h
  by_cases hk0 : k = 0
  · subst hk0
    exact ⟨0, by simp⟩
  set x : ℚ := k * 2 ^ j with hx
  have hj := two_pos j
  have hx0 : x ≠ 0 := mul_ne_zero (by exact_mod_cast hk0) (ne_of_gt hj)
  have habs : |x| = |(k : ℚ)| * 2 ^ j := by rw [hx, abs_mul, abs_of_pos hj]
  obtain ⟨a, b⟩ := log_bounds (p := p) hx0
  have hkq : |(k : ℚ)| ≤ 2 ^ (p + 1) := by exact_mod_cast hk
  generalize ulpExp p x = u at *
  by_cases hle : u ≤ j
  · obtain ⟨m, hm⟩ := Int.le.dest hle
    refine ⟨k * 2 ^ m, ?_⟩
    rw [hx, ← hm, zpow_split]
    push_cast
    ring
  · have h53 : |x| ≤ (2 : ℚ) ^ j * 2 ^ (p + 1) := by
      rw [habs, mul_comm]
      exact mul_le_mul_of_nonneg_left hkq (le_of_lt hj)
    have he : u = j + 1 := by
      have h1 := le_trans a h53
      rw [← zpow_split, ← zpow_split] at h1
      have := (zpow_le_zpow_iff_right₀ (by norm_num : (1 : ℚ) < 2)).1 h1
      push_cast at this
      omega
    have heq : |x| = (2 : ℚ) ^ j * 2 ^ (p + 1) := by
      apply le_antisymm h53
      rw [he, show (j + 1 : ℤ) = j + ((1 : ℕ) : ℤ) by norm_num, zpow_split] at a
      calc (2 : ℚ) ^ j * 2 ^ (p + 1) = 2 ^ j * 2 ^ 1 * 2 ^ p := by ring
        _ ≤ _ := a
    have hk' : |(k : ℚ)| = 2 ^ (p + 1) := by
      rw [habs] at heq
      exact mul_right_cancel₀ (ne_of_gt hj) (heq.trans (mul_comm _ _))
    have hkk : |k| = 2 ^ (p + 1) := by exact_mod_cast hk'
    obtain ⟨m, hm⟩ : ∃ m : ℤ, k = m * 2 := by
      rcases abs_eq (by positivity : (0 : ℤ) ≤ 2 ^ (p + 1)) |>.1 hkk with h | h
      · exact ⟨2 ^ p, by rw [h, pow_succ]⟩
      · exact ⟨-2 ^ p, by rw [h, pow_succ]; ring⟩
    refine ⟨m, ?_⟩
    rw [hx, he, hm, show (j + 1 : ℤ) = j + ((1 : ℕ) : ℤ) by norm_num, zpow_split]
    push_cast
    ring

/-- A number that can be held is not changed. -/
theorem rnd_is {x : ℚ} (h : Is p x) : rnd p x = x := by
  obtain ⟨n, hn⟩ := h.grid
  have hp := two_pos (ulpExp p x)
  have hd : x / 2 ^ ulpExp p x = n := by
    rw [div_eq_iff (ne_of_gt hp)]
    exact hn
  unfold rnd
  rw [hd, roundEven_int]
  exact hn.symm

/-- The result is a number that can be held. -/
theorem is_rnd (x : ℚ) : Is p (rnd p x) := by
  refine ⟨roundEven (x / 2 ^ ulpExp p x), ulpExp p x, ?_, rfl⟩
  by_cases hx : x = 0
  · subst hx
    have := roundEven_int 0
    simp only [Int.cast_zero] at this
    rw [zero_div, this]
    simp
  · have hp := two_pos (ulpExp p x)
    have hb := (log_bounds (p := p) hx).2
    have hy : |x / 2 ^ ulpExp p x| < 2 ^ (p + 1) := by
      rw [abs_div, abs_of_pos hp, div_lt_iff₀ hp]
      linarith
    rw [abs_lt] at hy
    rw [abs_le]
    constructor
    · have : roundEven ((-2 ^ (p + 1) : ℤ) : ℚ) ≤ roundEven (x / 2 ^ ulpExp p x) := roundEven_mono (by push_cast; linarith)
      rwa [roundEven_int] at this
    · have : roundEven (x / 2 ^ ulpExp p x) ≤ roundEven ((2 ^ (p + 1) : ℤ) : ℚ) := roundEven_mono (by push_cast; linarith)
      rwa [roundEven_int] at this

theorem is_int {n : ℤ} (h : |n| ≤ 2 ^ (p + 1)) : Is p n := ⟨n, 0, h, by simp⟩

theorem rnd_int {n : ℤ} (h : |n| ≤ 2 ^ (p + 1)) : rnd p n = n := rnd_is (is_int h)

theorem rnd_nonneg {x : ℚ} (h : 0 ≤ x) : 0 ≤ rnd p x := by
  unfold rnd
  have hp := two_pos (ulpExp p x)
  have : roundEven ((0 : ℤ) : ℚ) ≤ roundEven (x / 2 ^ ulpExp p x) := roundEven_mono (by push_cast; positivity)
  rw [roundEven_int] at this
  exact mul_nonneg (by exact_mod_cast this) (le_of_lt hp)

theorem rnd_mono_pos {x y : ℚ} (hx : 0 < x) (h : x ≤ y) : rnd p x ≤ rnd p y := by
  have hy : 0 < y := lt_of_lt_of_le hx h
  have bx := log_bounds (p := p) (ne_of_gt hx)
  have by_ := log_bounds (p := p) (ne_of_gt hy)
  rw [abs_of_pos hx] at bx
  rw [abs_of_pos hy] at by_
  have he : ulpExp p x ≤ ulpExp p y := ulp_lt_of_lt (lt_of_le_of_lt bx.1 (lt_of_le_of_lt h by_.2))
  rcases lt_or_eq_of_le he with hl | he
  · have hpx := two_pos (ulpExp p x)
    have hpy := two_pos (ulpExp p y)
    have h1 : rnd p x ≤ 2 ^ ulpExp p x * 2 ^ (p + 1) := by
      unfold rnd
      have : roundEven (x / 2 ^ ulpExp p x) ≤ roundEven ((2 ^ (p + 1) : ℤ) : ℚ) := roundEven_mono (by
        rw [div_le_iff₀ hpx]
        have := bx.2
        push_cast
        linarith)
      rw [roundEven_int] at this
      rw [mul_comm]
      exact mul_le_mul_of_nonneg_left (by exact_mod_cast this) (le_of_lt hpx)
    have h2 : (2 : ℚ) ^ ulpExp p y * 2 ^ p ≤ rnd p y := by
      unfold rnd
      have : roundEven ((2 ^ p : ℤ) : ℚ) ≤ roundEven (y / 2 ^ ulpExp p y) := roundEven_mono (by
        rw [le_div_iff₀ hpy]
        have := by_.1
        push_cast
        linarith)
      rw [roundEven_int] at this
      rw [mul_comm]
      exact mul_le_mul_of_nonneg_right (by exact_mod_cast this) (le_of_lt hpy)
    have h3 : (2 : ℚ) ^ ulpExp p x * 2 ^ (p + 1) ≤ 2 ^ ulpExp p y * 2 ^ p := by
      rw [← zpow_split, ← zpow_split]
      exact zpow_le_zpow_right₀ (by norm_num) (by push_cast; omega)
    linarith
  · unfold rnd
    rw [he]
    have hp := two_pos (ulpExp p y)
    have : roundEven (x / 2 ^ ulpExp p y) ≤ roundEven (y / 2 ^ ulpExp p y) := roundEven_mono (by
      exact div_le_div_of_nonneg_right h (le_of_lt hp))
    exact mul_le_mul_of_nonneg_right (by exact_mod_cast this) (le_of_lt hp)

/-- Rounding keeps the order. -/
theorem rnd_mono {x y : ℚ} (h : x ≤ y) : rnd p x ≤ rnd p y := by
  rcases lt_trichotomy 0 x with hx | hx | hx
  · exact rnd_mono_pos hx h
  · rw [← hx, rnd_zero]
    exact rnd_nonneg (by linarith)
  · rcases lt_or_ge y 0 with hy | hy
    · have := rnd_mono_pos (p := p) (x := -y) (y := -x) (by linarith) (by linarith)
      rw [rnd_neg, rnd_neg] at this
      linarith
    · have h1 := rnd_nonneg (p := p) hy
      have h2 := rnd_nonneg (p := p) (x := -x) (by linarith)
      rw [rnd_neg] at h2
      linarith

theorem grid_nearest (x : ℚ) (n : ℤ) : |rnd p x - x| ≤ |n * 2 ^ ulpExp p x - x| := by
  have hp := two_pos (ulpExp p x)
  have h := roundEven_nearest (x / 2 ^ ulpExp p x) n
  have e1 : rnd p x - x = ((roundEven (x / 2 ^ ulpExp p x) : ℚ) - x / 2 ^ ulpExp p x) * 2 ^ ulpExp p x := by
    unfold rnd
    field_simp
  have e2 : (n : ℚ) * 2 ^ ulpExp p x - x = ((n : ℚ) - x / 2 ^ ulpExp p x) * 2 ^ ulpExp p x := by
    field_simp
  rw [e1, e2, abs_mul, abs_mul]
  exact mul_le_mul_of_nonneg_right h (abs_nonneg _)

theorem nearest_pos {x z : ℚ} (hx : 0 < x) (hz : Is p z) : |rnd p x - x| ≤ |z - x| := by
  obtain ⟨l, _⟩ := log_bounds (p := p) (ne_of_gt hx)
  rw [abs_of_pos hx] at l
  rcases lt_or_ge z (2 ^ ulpExp p x * 2 ^ p) with h | h
  · have hg := grid_nearest (p := p) x (2 ^ p)
    have e : ((2 ^ p : ℤ) : ℚ) * 2 ^ ulpExp p x = 2 ^ ulpExp p x * 2 ^ p := by
      push_cast
      ring
    rw [e, abs_of_nonpos (by linarith : (2 : ℚ) ^ ulpExp p x * 2 ^ p - x ≤ 0)] at hg
    rw [abs_of_nonpos (by linarith : z - x ≤ 0)]
    linarith
  · have hz0 : 0 < z := lt_of_lt_of_le (mul_pos (two_pos _) (by positivity)) h
    obtain ⟨n, hn⟩ := hz.grid
    have lz := (log_bounds (p := p) (ne_of_gt hz0)).2
    rw [abs_of_pos hz0] at lz
    have hlt := ulp_lt_of_lt (lt_of_le_of_lt h lz)
    obtain ⟨m, hm⟩ := Int.le.dest hlt
    have := grid_nearest (p := p) x (n * 2 ^ m)
    have e : ((n * 2 ^ m : ℤ) : ℚ) * 2 ^ ulpExp p x = z := by
      rw [hn, ← hm, zpow_split]
      push_cast
      ring
    rwa [e] at this

/-- The result is the nearest: no number that can be held is nearer to the exact result. -/
theorem rnd_nearest (x z : ℚ) (hz : Is p z) : |rnd p x - x| ≤ |z - x| := by
  rcases lt_trichotomy 0 x with hx | hx | hx
  · exact nearest_pos hx hz
  · rw [← hx, rnd_zero, sub_self, abs_zero]
    exact abs_nonneg _
  · have hz' : Is p (-z) := by
      obtain ⟨k, j, hk, rfl⟩ := hz
      exact ⟨-k, j, by rwa [abs_neg], by push_cast; ring⟩
    have := nearest_pos (x := -x) (by linarith) hz'
    rw [rnd_neg, show -rnd p x - -x = -(rnd p x - x) by ring, show -z - -x = -(z - x) by ring, abs_neg, abs_neg] at this
    exact this

/-- For concrete numbers. -/
theorem rnd_eq {x : ℚ} (k e : ℤ) (h1 : (2 : ℚ) ^ e * 2 ^ p ≤ |x|) (h2 : |x| < (2 : ℚ) ^ e * 2 ^ (p + 1)) (h : |x / 2 ^ e - k| < 1 / 2) : rnd p x = k * 2 ^ e := by
  have he := ulpExp_unique h1 h2
  have : roundEven (x / 2 ^ e) = k := by
    have hb := roundEven_le (x / 2 ^ e)
    have : |((roundEven (x / 2 ^ e) - k : ℤ) : ℚ)| < 1 := by
      push_cast
      calc _ = |((roundEven (x / 2 ^ e) : ℚ) - x / 2 ^ e) + (x / 2 ^ e - k)| := by ring_nf
        _ ≤ _ := abs_add_le _ _
        _ < 1 := by linarith
    have h3 : |roundEven (x / 2 ^ e) - k| < 1 := by exact_mod_cast this
    have := abs_lt.1 h3
    omega
  unfold rnd
  rw [he, this]

end Verif.Fp
