import Mathlib.Data.Int.Log
import Mathlib.Data.Rat.Floor
import Mathlib.Algebra.Order.Round
import Mathlib.Tactic.Linarith
import Mathlib.Tactic.Ring
import Mathlib.Tactic.NormNum
import Mathlib.Tactic.FieldSimp
import Mathlib.Tactic.Positivity

/-!
# Doubles

A finite `double` is the rational number it stands for.  `rnd` is the rounding of IEEE 754 binary64, to the nearest number with 53 binary digits, ties to even.
Left out: infinities, NaN, the sign of zero, and the limits of the exponent (numbers from 2^1024 and below 2^-1022), which the code below does not come near to
unless its arguments do.
-/

namespace Verif.Double

/-- The nearest integer, ties to even. -/
def roundEven (x : ℚ) : ℤ :=
  if x - ⌊x⌋ < 1 / 2 then ⌊x⌋ else if 1 / 2 < x - ⌊x⌋ then ⌊x⌋ + 1 else if ⌊x⌋ % 2 = 0 then ⌊x⌋ else ⌊x⌋ + 1

/-- The exponent of the last of the 53 digits. -/
def ulpExp (x : ℚ) : ℤ := Int.log 2 |x| - 52

/-- The result of an operation whose exact result is `x`. -/
def rnd (x : ℚ) : ℚ := roundEven (x / 2 ^ ulpExp x) * 2 ^ ulpExp x

/-- The numbers that a `double` can hold. -/
def IsDouble (x : ℚ) : Prop := ∃ k j : ℤ, |k| ≤ 2 ^ 53 ∧ x = k * 2 ^ j

/-! ### Facts -/

theorem roundEven_le (x : ℚ) : |(roundEven x : ℚ) - x| ≤ 1 / 2 := by
  have h1 := Int.floor_le x
  have h2 := Int.lt_floor_add_one x
  unfold roundEven
  rw [abs_le]
  split
  · constructor <;> linarith
  · split
    · push_cast
      constructor <;> linarith
    · split <;> push_cast <;> constructor <;> linarith

theorem roundEven_int (n : ℤ) : roundEven n = n := by
  unfold roundEven
  simp

theorem roundEven_mono {x y : ℚ} (h : x ≤ y) : roundEven x ≤ roundEven y := by
  have hf : ⌊x⌋ ≤ ⌊y⌋ := Int.floor_le_floor h
  rcases lt_or_eq_of_le hf with hl | he
  · have : roundEven x ≤ ⌊x⌋ + 1 := by unfold roundEven; split_ifs <;> omega
    have : ⌊y⌋ ≤ roundEven y := by unfold roundEven; split_ifs <;> omega
    omega
  · unfold roundEven
    rw [he]
    split_ifs <;> first | omega | (exfalso; linarith)

theorem roundEven_neg (x : ℚ) : roundEven (-x) = -roundEven x := by
  by_cases hx : (⌊x⌋ : ℚ) = x
  · rw [← hx, ← Int.cast_neg, roundEven_int, roundEven_int]
  · have h1 := lt_of_le_of_ne (Int.floor_le x) hx
    have h2 := Int.lt_floor_add_one x
    have hn : ⌊-x⌋ = -⌊x⌋ - 1 := by
      rw [Int.floor_eq_iff]
      push_cast
      constructor <;> linarith
    unfold roundEven
    rw [hn]
    push_cast
    split_ifs <;> first | omega | (exfalso; linarith)

theorem two_pos (j : ℤ) : (0 : ℚ) < 2 ^ j := zpow_pos (by norm_num) j

theorem log_bounds {x : ℚ} (hx : x ≠ 0) : (2 : ℚ) ^ (ulpExp x + 52) ≤ |x| ∧ |x| < (2 : ℚ) ^ (ulpExp x + 53) := by
  have h := abs_pos.2 hx
  have h1 := Int.zpow_log_le_self (b := 2) (by norm_num) h
  have h2 := Int.lt_zpow_succ_log_self (b := 2) (by norm_num) |x|
  simp only [Nat.cast_ofNat] at h1 h2
  unfold ulpExp
  rw [show Int.log 2 |x| - 52 + 52 = Int.log 2 |x| by ring, show Int.log 2 |x| - 52 + 53 = Int.log 2 |x| + 1 by ring]
  exact ⟨h1, h2⟩

theorem zpow_split (j : ℤ) (n : ℕ) : (2 : ℚ) ^ (j + n) = 2 ^ j * 2 ^ n := by
  rw [zpow_add₀ (by norm_num), zpow_natCast]

theorem ulpExp_unique {x : ℚ} {e : ℤ} (h1 : (2 : ℚ) ^ (e + 52) ≤ |x|) (h2 : |x| < (2 : ℚ) ^ (e + 53)) : ulpExp x = e := by
  have hx : x ≠ 0 := by
    rintro rfl
    rw [abs_zero] at h1
    exact absurd h1 (not_le.2 (two_pos _))
  obtain ⟨a, b⟩ := log_bounds hx
  have l1 : e + 52 < ulpExp x + 53 := (zpow_lt_zpow_iff_right₀ (by norm_num : (1 : ℚ) < 2)).1 (lt_of_le_of_lt h1 b)
  have l2 : ulpExp x + 52 < e + 53 := (zpow_lt_zpow_iff_right₀ (by norm_num : (1 : ℚ) < 2)).1 (lt_of_le_of_lt a h2)
  omega

theorem rnd_zero : rnd 0 = 0 := by
  unfold rnd
  rw [zero_div]
  have := roundEven_int 0
  simp only [Int.cast_zero] at this
  rw [this]
  simp

theorem rnd_neg (x : ℚ) : rnd (-x) = -rnd x := by
  unfold rnd
  rw [show ulpExp (-x) = ulpExp x by unfold ulpExp; rw [abs_neg], neg_div, roundEven_neg]
  push_cast
  ring

/-- The error is at most half of the last digit. -/
theorem rnd_ulp (x : ℚ) : |rnd x - x| ≤ 2 ^ ulpExp x / 2 := by
  have hp := two_pos (ulpExp x)
  have h := roundEven_le (x / 2 ^ ulpExp x)
  have e : rnd x - x = ((roundEven (x / 2 ^ ulpExp x) : ℚ) - x / 2 ^ ulpExp x) * 2 ^ ulpExp x := by
    unfold rnd
    field_simp
  rw [e, abs_mul, abs_of_pos hp]
  calc _ ≤ 1 / 2 * (2 : ℚ) ^ ulpExp x := by exact mul_le_mul_of_nonneg_right h (le_of_lt hp)
    _ = _ := by ring

/-- The relative error is at most 2^-53. -/
theorem rnd_error (x : ℚ) : |rnd x - x| ≤ |x| / 2 ^ 53 := by
  by_cases hx : x = 0
  · subst hx
    simp [rnd_zero]
  · have h := rnd_ulp x
    have hl := (log_bounds hx).1
    rw [show (52 : ℤ) = ((52 : ℕ) : ℤ) by norm_num, zpow_split] at hl
    have hp := two_pos (ulpExp x)
    rw [le_div_iff₀ (by positivity)]
    calc |rnd x - x| * 2 ^ 53 ≤ 2 ^ ulpExp x / 2 * 2 ^ 53 := by exact mul_le_mul_of_nonneg_right h (by positivity)
      _ = 2 ^ ulpExp x * 2 ^ 52 := by ring
      _ ≤ |x| := hl

theorem IsDouble.grid {x : ℚ} (h : IsDouble x) : ∃ n : ℤ, x = n * 2 ^ ulpExp x := by
  obtain ⟨k, j, hk, rfl⟩ := h
  by_cases hk0 : k = 0
  · subst hk0
    exact ⟨0, by simp⟩
  set x : ℚ := k * 2 ^ j with hx
  have hj := two_pos j
  have hx0 : x ≠ 0 := mul_ne_zero (by exact_mod_cast hk0) (ne_of_gt hj)
  have habs : |x| = |(k : ℚ)| * 2 ^ j := by rw [hx, abs_mul, abs_of_pos hj]
  obtain ⟨a, b⟩ := log_bounds hx0
  have hkq : |(k : ℚ)| ≤ 2 ^ 53 := by exact_mod_cast hk
  generalize ulpExp x = u at *
  -- the exponent is at most `j`, or one more for 2^53
  by_cases hle : u ≤ j
  · obtain ⟨m, hm⟩ := Int.le.dest hle
    refine ⟨k * 2 ^ m, ?_⟩
    rw [hx, ← hm, zpow_split]
    push_cast
    ring
  · have h53 : |x| ≤ (2 : ℚ) ^ (j + 53) := by
      rw [habs, show (j + 53 : ℤ) = j + ((53 : ℕ) : ℤ) by norm_num, zpow_split, mul_comm]
      exact mul_le_mul_of_nonneg_left hkq (le_of_lt hj)
    have hl : u + 52 ≤ j + 53 := (zpow_le_zpow_iff_right₀ (by norm_num : (1 : ℚ) < 2)).1 (le_trans a h53)
    have he : u = j + 1 := by omega
    have heq : |x| = (2 : ℚ) ^ (j + 53) := by
      apply le_antisymm h53
      rw [he, show j + 1 + 52 = j + 53 by ring] at a
      exact a
    have hk' : |(k : ℚ)| = 2 ^ 53 := by
      rw [habs, show (j + 53 : ℤ) = j + ((53 : ℕ) : ℤ) by norm_num, zpow_split] at heq
      have := mul_right_cancel₀ (ne_of_gt hj) (heq.trans (mul_comm _ _))
      exact this
    have hkk : |k| = 2 ^ 53 := by exact_mod_cast hk'
    obtain ⟨m, hm⟩ : ∃ m : ℤ, k = m * 2 := by
      rcases abs_eq (by norm_num : (0 : ℤ) ≤ 2 ^ 53) |>.1 hkk with h | h
      · exact ⟨2 ^ 52, by rw [h]; norm_num⟩
      · exact ⟨-2 ^ 52, by rw [h]; norm_num⟩
    refine ⟨m, ?_⟩
    rw [hx, he, hm, show (j + 1 : ℤ) = j + ((1 : ℕ) : ℤ) by norm_num, zpow_split]
    push_cast
    ring

/-- A number that a double can hold is not changed. -/
theorem rnd_double {x : ℚ} (h : IsDouble x) : rnd x = x := by
  obtain ⟨n, hn⟩ := h.grid
  have hp := two_pos (ulpExp x)
  have hd : x / 2 ^ ulpExp x = n := by
    rw [div_eq_iff (ne_of_gt hp)]
    exact hn
  unfold rnd
  rw [hd, roundEven_int]
  exact hn.symm

/-- The result is a number that a double can hold. -/
theorem rnd_isDouble (x : ℚ) : IsDouble (rnd x) := by
  refine ⟨roundEven (x / 2 ^ ulpExp x), ulpExp x, ?_, rfl⟩
  by_cases hx : x = 0
  · subst hx
    have := roundEven_int 0
    simp only [Int.cast_zero] at this
    rw [zero_div, this]
    norm_num
  · have hp := two_pos (ulpExp x)
    have hb := (log_bounds hx).2
    rw [show (53 : ℤ) = ((53 : ℕ) : ℤ) by norm_num, zpow_split] at hb
    have hy : |x / 2 ^ ulpExp x| < 2 ^ 53 := by
      rw [abs_div, abs_of_pos hp, div_lt_iff₀ hp]
      linarith
    rw [abs_lt] at hy
    rw [abs_le]
    constructor
    · have : roundEven ((-2 ^ 53 : ℤ) : ℚ) ≤ roundEven (x / 2 ^ ulpExp x) := roundEven_mono (by push_cast; linarith)
      rwa [roundEven_int] at this
    · have : roundEven (x / 2 ^ ulpExp x) ≤ roundEven ((2 ^ 53 : ℤ) : ℚ) := roundEven_mono (by push_cast; linarith)
      rwa [roundEven_int] at this

/-- Zero in scale. -/
theorem rnd_nonneg {x : ℚ} (h : 0 ≤ x) : 0 ≤ rnd x := by
  unfold rnd
  have hp := two_pos (ulpExp x)
  have : roundEven ((0 : ℤ) : ℚ) ≤ roundEven (x / 2 ^ ulpExp x) := roundEven_mono (by push_cast; positivity)
  rw [roundEven_int] at this
  exact mul_nonneg (by exact_mod_cast this) (le_of_lt hp)

theorem rnd_mono_pos {x y : ℚ} (hx : 0 < x) (h : x ≤ y) : rnd x ≤ rnd y := by
  have hy : 0 < y := lt_of_lt_of_le hx h
  have bx := log_bounds (ne_of_gt hx)
  have by_ := log_bounds (ne_of_gt hy)
  rw [abs_of_pos hx] at bx
  rw [abs_of_pos hy] at by_
  have he : ulpExp x ≤ ulpExp y := by
    have : ulpExp x + 52 < ulpExp y + 53 := (zpow_lt_zpow_iff_right₀ (by norm_num : (1 : ℚ) < 2)).1 (lt_of_le_of_lt bx.1 (lt_of_le_of_lt h by_.2))
    omega
  rcases lt_or_eq_of_le he with hl | he
  · -- a power of two is between
    have hpx := two_pos (ulpExp x)
    have hpy := two_pos (ulpExp y)
    have h1 : rnd x ≤ 2 ^ (ulpExp x + 53) := by
      unfold rnd
      have : roundEven (x / 2 ^ ulpExp x) ≤ roundEven ((2 ^ 53 : ℤ) : ℚ) := roundEven_mono (by
        rw [div_le_iff₀ hpx]
        have := bx.2
        rw [show (53 : ℤ) = ((53 : ℕ) : ℤ) by norm_num, zpow_split] at this
        push_cast
        linarith)
      rw [roundEven_int] at this
      rw [show (ulpExp x + 53 : ℤ) = ulpExp x + ((53 : ℕ) : ℤ) by norm_num, zpow_split, mul_comm]
      exact mul_le_mul_of_nonneg_left (by exact_mod_cast this) (le_of_lt hpx)
    have h2 : (2 : ℚ) ^ (ulpExp y + 52) ≤ rnd y := by
      unfold rnd
      have : roundEven ((2 ^ 52 : ℤ) : ℚ) ≤ roundEven (y / 2 ^ ulpExp y) := roundEven_mono (by
        rw [le_div_iff₀ hpy]
        have := by_.1
        rw [show (52 : ℤ) = ((52 : ℕ) : ℤ) by norm_num, zpow_split] at this
        push_cast
        linarith)
      rw [roundEven_int] at this
      rw [show (ulpExp y + 52 : ℤ) = ulpExp y + ((52 : ℕ) : ℤ) by norm_num, zpow_split, mul_comm]
      exact mul_le_mul_of_nonneg_right (by exact_mod_cast this) (le_of_lt hpy)
    have h3 : (2 : ℚ) ^ (ulpExp x + 53) ≤ 2 ^ (ulpExp y + 52) := zpow_le_zpow_right₀ (by norm_num) (by omega)
    linarith
  · unfold rnd
    rw [he]
    have hp := two_pos (ulpExp y)
    have : roundEven (x / 2 ^ ulpExp y) ≤ roundEven (y / 2 ^ ulpExp y) := roundEven_mono (by
      exact div_le_div_of_nonneg_right h (le_of_lt hp))
    exact mul_le_mul_of_nonneg_right (by exact_mod_cast this) (le_of_lt hp)

/-- Rounding keeps the order. -/
theorem rnd_mono {x y : ℚ} (h : x ≤ y) : rnd x ≤ rnd y := by
  rcases lt_trichotomy 0 x with hx | hx | hx
  · exact rnd_mono_pos hx h
  · rw [← hx, rnd_zero]
    exact rnd_nonneg (by linarith)
  · rcases lt_or_ge y 0 with hy | hy
    · have := rnd_mono_pos (x := -y) (y := -x) (by linarith) (by linarith)
      rw [rnd_neg, rnd_neg] at this
      linarith
    · have h1 := rnd_nonneg hy
      have h2 := rnd_nonneg (x := -x) (by linarith)
      rw [rnd_neg] at h2
      linarith

theorem roundEven_nearest (y : ℚ) (n : ℤ) : |(roundEven y : ℚ) - y| ≤ |n - y| := by
  have h1 := Int.floor_le y
  have h2 := Int.lt_floor_add_one y
  rcases le_or_gt n ⌊y⌋ with h | h
  · have hn : (n : ℚ) ≤ ⌊y⌋ := by exact_mod_cast h
    rw [abs_of_nonpos (by linarith : (n : ℚ) - y ≤ 0), abs_le]
    unfold roundEven
    split_ifs <;> push_cast <;> constructor <;> linarith
  · have hn : (⌊y⌋ : ℚ) + 1 ≤ n := by exact_mod_cast h
    rw [abs_of_nonneg (by linarith : 0 ≤ (n : ℚ) - y), abs_le]
    unfold roundEven
    split_ifs <;> push_cast <;> constructor <;> linarith

theorem grid_nearest (x : ℚ) (n : ℤ) : |rnd x - x| ≤ |n * 2 ^ ulpExp x - x| := by
  have hp := two_pos (ulpExp x)
  have h := roundEven_nearest (x / 2 ^ ulpExp x) n
  have e1 : rnd x - x = ((roundEven (x / 2 ^ ulpExp x) : ℚ) - x / 2 ^ ulpExp x) * 2 ^ ulpExp x := by
    unfold rnd
    field_simp
  have e2 : (n : ℚ) * 2 ^ ulpExp x - x = ((n : ℚ) - x / 2 ^ ulpExp x) * 2 ^ ulpExp x := by
    field_simp
  rw [e1, e2, abs_mul, abs_mul]
  exact mul_le_mul_of_nonneg_right h (abs_nonneg _)

theorem nearest_pos {x z : ℚ} (hx : 0 < x) (hz : IsDouble z) : |rnd x - x| ≤ |z - x| := by
  obtain ⟨l, _⟩ := log_bounds (ne_of_gt hx)
  rw [abs_of_pos hx] at l
  rcases lt_or_ge z (2 ^ (ulpExp x + 52)) with h | h
  · have hg := grid_nearest x (2 ^ 52)
    have e : ((2 ^ 52 : ℤ) : ℚ) * 2 ^ ulpExp x = 2 ^ (ulpExp x + 52) := by
      rw [show (ulpExp x + 52 : ℤ) = ulpExp x + ((52 : ℕ) : ℤ) by norm_num, zpow_split]
      push_cast
      ring
    rw [e, abs_of_nonpos (by linarith : (2 : ℚ) ^ (ulpExp x + 52) - x ≤ 0)] at hg
    rw [abs_of_nonpos (by linarith : z - x ≤ 0)]
    linarith
  · have hz0 : 0 < z := lt_of_lt_of_le (two_pos _) h
    obtain ⟨n, hn⟩ := hz.grid
    have lz := (log_bounds (ne_of_gt hz0)).2
    rw [abs_of_pos hz0] at lz
    have hlt : ulpExp x + 52 < ulpExp z + 53 := (zpow_lt_zpow_iff_right₀ (by norm_num : (1 : ℚ) < 2)).1 (lt_of_le_of_lt h lz)
    obtain ⟨m, hm⟩ := Int.le.dest (by omega : ulpExp x ≤ ulpExp z)
    have := grid_nearest x (n * 2 ^ m)
    have e : ((n * 2 ^ m : ℤ) : ℚ) * 2 ^ ulpExp x = z := by
      rw [hn, ← hm, zpow_split]
      push_cast
      ring
    rwa [e] at this

/-- The result is the nearest: no double is nearer to the exact result. -/
theorem rnd_nearest (x z : ℚ) (hz : IsDouble z) : |rnd x - x| ≤ |z - x| := by
  rcases lt_trichotomy 0 x with hx | hx | hx
  · exact nearest_pos hx hz
  · rw [← hx, rnd_zero, sub_self, abs_zero]
    exact abs_nonneg _
  · have hz' : IsDouble (-z) := by
      obtain ⟨k, j, hk, rfl⟩ := hz
      exact ⟨-k, j, by rwa [abs_neg], by push_cast; ring⟩
    have := nearest_pos (x := -x) (by linarith) hz'
    rw [rnd_neg, show -rnd x - -x = -(rnd x - x) by ring, show -z - -x = -(z - x) by ring, abs_neg, abs_neg] at this
    exact this

/-- For concrete numbers. -/
theorem rnd_eq {x : ℚ} (k e : ℤ) (h1 : (2 : ℚ) ^ (e + 52) ≤ |x|) (h2 : |x| < (2 : ℚ) ^ (e + 53)) (h : |x / 2 ^ e - k| < 1 / 2) : rnd x = k * 2 ^ e := by
  have he := ulpExp_unique h1 h2
  have : roundEven (x / 2 ^ e) = k := by
    have hb := roundEven_le (x / 2 ^ e)
    have : |((roundEven (x / 2 ^ e) - k : ℤ) : ℚ)| < 1 := by
      push_cast
      calc _ = |((roundEven (x / 2 ^ e) : ℚ) - x / 2 ^ e) + (x / 2 ^ e - k)| := by ring_nf
        _ ≤ _ := abs_add_le _ _
        _ < 1 := by linarith
    have h3 : |roundEven (x / 2 ^ e) - k| < 1 := by exact_mod_cast this
    have := abs_lt.1 h3
    omega
  unfold rnd
  rw [he, this]

end Verif.Double
