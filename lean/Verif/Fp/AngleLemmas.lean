import Verif.Fp.Model
import Mathlib.Analysis.Real.Pi.Bounds

/-! # Degrees and radians: lemmas -/

namespace Verif.Fp

open Verif
open Verif.Double (roundEven two_pos zpow_split)

variable {p : ℕ}

/-- `x` differs from `y` by at most the part `a` of `y`. -/
def Rel (a : ℝ) (x y : ℝ) : Prop := |x - y| ≤ a * |y|

theorem Rel.refl (x : ℝ) : Rel 0 x x := by simp [Rel]

theorem Rel.mono {a b x y : ℝ} (h : Rel a x y) (hab : a ≤ b) : Rel b x y :=
  le_trans h (mul_le_mul_of_nonneg_right hab (abs_nonneg _))

theorem Rel.abs_le {a x y : ℝ} (h : Rel a x y) : |x| ≤ (1 + a) * |y| := by
  have : |x| ≤ |x - y| + |y| := by
    have := abs_add_le (x - y) y
    rwa [sub_add_cancel] at this
  unfold Rel at h
  linarith

/-- Errors multiply. -/
theorem Rel.trans {a b x y z : ℝ} (hb : 0 ≤ b) (h1 : Rel b x y) (h2 : Rel a y z) : Rel (a + b + a * b) x z := by
  have h3 := h2.abs_le
  unfold Rel at *
  have : |x - z| ≤ |x - y| + |y - z| := by
    have := abs_add_le (x - y) (y - z)
    rwa [sub_add_sub_cancel] at this
  have h4 := mul_le_mul_of_nonneg_left h3 hb
  linarith

theorem Rel.mul_right {a x y : ℝ} (h : Rel a x y) (c : ℝ) : Rel a (x * c) (y * c) := by
  unfold Rel at *
  rw [← sub_mul, abs_mul, abs_mul]
  have := mul_le_mul_of_nonneg_right h (abs_nonneg c)
  linarith

theorem Rel.mul_left {a x y : ℝ} (h : Rel a x y) (c : ℝ) : Rel a (c * x) (c * y) := by
  rw [mul_comm c, mul_comm c]
  exact h.mul_right c

theorem Rel.div_right {a x y : ℝ} (h : Rel a x y) (c : ℝ) : Rel a (x / c) (y / c) := by
  rw [div_eq_mul_inv, div_eq_mul_inv]
  exact h.mul_right _

/-- The rounding of the type. -/
theorem rel_rnd (x : ℚ) : Rel (1 / 2 ^ (p + 1)) (rnd p x : ℚ) x := by
  have h := rnd_error (p := p) x
  unfold Rel
  have h' : ((|rnd p x - x| : ℚ) : ℝ) ≤ ((|x| / 2 ^ (p + 1) : ℚ) : ℝ) := by exact_mod_cast h
  push_cast at h'
  calc _ ≤ _ := h'
    _ = _ := by ring

/-- The smallest step of the precisions in question. -/
structure Prec (p : ℕ) (u : ℝ) : Prop where
  eq : u = 1 / 2 ^ (p + 1)
  pos : 0 < u
  small : u ≤ 1 / 1000
  large : 1 / 10 ^ 16 ≤ u

theorem prec (h1 : 9 ≤ p) (h2 : p ≤ 52) : Prec p (1 / 2 ^ (p + 1)) := by
  refine ⟨rfl, by positivity, ?_, ?_⟩
  · have : (2 : ℝ) ^ 10 ≤ 2 ^ (p + 1) := pow_le_pow_right₀ (by norm_num) (by omega)
    rw [div_le_div_iff₀ (by positivity) (by norm_num)]
    norm_num at this
    linarith
  · have : (2 : ℝ) ^ (p + 1) ≤ 2 ^ 53 := pow_le_pow_right₀ (by norm_num) (by omega)
    rw [div_le_div_iff₀ (by norm_num) (by positivity)]
    norm_num at this
    linarith

/-- `pi<T>()` is π up to two steps and a little. -/
theorem rel_pi (h1 : 9 ≤ p) (h2 : p ≤ 52) : Rel (21 / 10 / 2 ^ (p + 1)) (pi p : ℚ) Real.pi := by
  obtain ⟨_, h0, hs, hl⟩ := prec h1 h2
  have l1 : Rel (1 / 10 ^ 20) ((314159265358979323846 / 10 ^ 20 : ℚ) : ℝ) Real.pi := by
    have a := Real.pi_gt_d20
    have b := Real.pi_lt_d20
    unfold Rel
    rw [abs_of_pos Real.pi_pos]
    push_cast
    rw [abs_le]
    norm_num at a b ⊢
    constructor <;> linarith
  have l2 := (rel_rnd (p := 52) (314159265358979323846 / 10 ^ 20)).trans (by positivity) l1
  have l3 := (rel_rnd (p := p) (rnd 52 (314159265358979323846 / 10 ^ 20))).trans (by positivity) l2
  refine Rel.mono l3 ?_
  have e : (21 / 10 / 2 ^ (p + 1) : ℝ) = 21 / 10 * (1 / 2 ^ (p + 1)) := by ring
  rw [e]
  have h53 : (1 / 2 ^ (52 + 1) : ℝ) ≤ 1 / 2 ^ (p + 1) := by
    have : (2 : ℝ) ^ (p + 1) ≤ 2 ^ 53 := pow_le_pow_right₀ (by norm_num) (by omega)
    exact one_div_le_one_div_of_le (by positivity) this
  generalize (1 / 2 ^ (p + 1) : ℝ) = u at *
  generalize (1 / 2 ^ (52 + 1) : ℝ) = v at *
  have hv : v ≤ 1 / 1000 := le_trans h53 hs
  have hw : (1 / 10 ^ 20 : ℝ) ≤ u / 1000 := by norm_num at hl ⊢; linarith
  have hw0 : (0 : ℝ) ≤ 1 / 10 ^ 20 := by norm_num
  generalize (1 / 10 ^ 20 : ℝ) = w at *
  have h3 : w * v ≤ w * (1 / 1000) := mul_le_mul_of_nonneg_left hv hw0
  have h4 : w + v + w * v ≤ 1002 / 1000 * u := by linarith
  have h5 : (w + v + w * v) * u ≤ 1002 / 1000 * u * u := mul_le_mul_of_nonneg_right h4 (le_of_lt h0)
  have h6 : u * u ≤ 1 / 1000 * u := mul_le_mul_of_nonneg_right hs (le_of_lt h0)
  linarith

theorem pi_pos : 0 < pi p := by
  have h1 : (1 : ℚ) ≤ rnd 52 (314159265358979323846 / 10 ^ 20) := by
    have := rnd_mono (p := 52) (show ((1 : ℤ) : ℚ) ≤ 314159265358979323846 / 10 ^ 20 by norm_num)
    rw [rnd_int (by norm_num)] at this
    exact_mod_cast this
  have h2 := rnd_mono (p := p) (show ((1 : ℤ) : ℚ) ≤ rnd 52 (314159265358979323846 / 10 ^ 20) by exact_mod_cast h1)
  rw [rnd_int (by rw [abs_one]; exact one_le_pow₀ (by norm_num))] at h2
  unfold pi
  have : ((1 : ℤ) : ℚ) = 1 := by norm_num
  linarith

/-- Multiplication by a power of two is exact. -/
theorem rnd_scale (x : ℚ) (k : ℤ) : rnd p (x * 2 ^ k) = rnd p x * 2 ^ k := by
  by_cases hx : x = 0
  · subst hx
    simp [rnd_zero]
  have hk := two_pos k
  obtain ⟨a, b⟩ := log_bounds (p := p) hx
  have he : ulpExp p (x * 2 ^ k) = ulpExp p x + k := by
    apply ulpExp_unique
    · rw [abs_mul, abs_of_pos hk, zpow_add₀ (by norm_num)]
      nlinarith
    · rw [abs_mul, abs_of_pos hk, zpow_add₀ (by norm_num)]
      nlinarith
  unfold rnd
  rw [he, zpow_add₀ (by norm_num)]
  have : x * 2 ^ k / (2 ^ ulpExp p x * 2 ^ k) = x / 2 ^ ulpExp p x := mul_div_mul_right _ _ (ne_of_gt hk)
  rw [this]
  ring

theorem pi_double : rnd 52 (314159265358979323846 / 10 ^ 20) = 7074237752028440 * 2 ^ (-51 : ℤ) := by
  have := rnd_eq (p := 52) (x := 314159265358979323846 / 10 ^ 20) 7074237752028440 (-51) (by norm_num) (by norm_num) (by norm_num [abs_lt])
  exact_mod_cast this

theorem quarter_double : rnd 52 (785398163397448309616 / 10 ^ 21) = 7074237752028440 * 2 ^ (-53 : ℤ) := by
  have := rnd_eq (p := 52) (x := 785398163397448309616 / 10 ^ 21) 7074237752028440 (-53) (by norm_num) (by norm_num) (by norm_num [abs_lt])
  exact_mod_cast this

theorem halfPi_eq : halfPi p = pi p * 2 ^ (-1 : ℤ) := by
  unfold halfPi pi
  rw [show (157079632679489661923 / 10 ^ 20 : ℚ) = 314159265358979323846 / 10 ^ 20 * 2 ^ (-1 : ℤ) by norm_num, rnd_scale, rnd_scale]

theorem quarterPi_eq : quarterPi p = pi p * 2 ^ (-2 : ℤ) := by
  unfold quarterPi pi
  rw [quarter_double, pi_double, ← rnd_scale]
  congr 1
  norm_num

end Verif.Fp
