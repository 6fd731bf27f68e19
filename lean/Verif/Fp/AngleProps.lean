import Verif.Fp.AngleLemmas

/-! # C135: degrees and radians -/

namespace Verif.Fp

open Verif
open Verif.Double (roundEven two_pos zpow_split)

variable {p : ℕ}

/-- C135: an angle in radians is the angle in degrees times π / 180, up to five halves of a unit of the last digit. -/
theorem c135_radians (h1 : 9 ≤ p) (h2 : p ≤ 52) (x : ℚ) : |(toRadians p x : ℝ) - x * Real.pi / 180| ≤ 5 / 2 ^ (p + 1) * |x * Real.pi / 180| := by
  obtain ⟨_, h0, hs, hl⟩ := prec h1 h2
  have a1 := (rel_rnd (p := p) (x / 180)).mul_right (pi p : ℚ)
  have a2 := (rel_pi h1 h2).mul_left ((x / 180 : ℚ) : ℝ)
  have a3 := a1.trans (by positivity) a2
  have a4 := (rel_rnd (p := p) (rnd p (x / 180) * pi p))
  have a4' : Rel (1 / 2 ^ (p + 1)) (toRadians p x : ℚ) ((rnd p (x / 180) : ℚ) * (pi p : ℚ)) := by
    unfold toRadians
    push_cast at a4 ⊢
    exact a4
  have a5 := a4'.trans (by positivity) a3
  have e : ((x / 180 : ℚ) : ℝ) * Real.pi = x * Real.pi / 180 := by push_cast; ring
  rw [e] at a5
  refine Rel.mono a5 ?_
  rw [show (21 / 10 / 2 ^ (p + 1) : ℝ) = 21 / 10 * (1 / 2 ^ (p + 1)) by ring, show (5 / 2 ^ (p + 1) : ℝ) = 5 * (1 / 2 ^ (p + 1)) by ring]
  generalize (1 / 2 ^ (p + 1) : ℝ) = u at *
  nlinarith [mul_pos h0 h0, mul_pos (mul_pos h0 h0) h0]

/-- C135: and back. -/
theorem c135_degrees (h1 : 9 ≤ p) (h2 : p ≤ 52) (x : ℚ) : |(toDegrees p x : ℝ) - x / Real.pi * 180| ≤ 5 / 2 ^ (p + 1) * |x / Real.pi * 180| := by
  obtain ⟨_, h0, hs, hl⟩ := prec h1 h2
  have hpp : (0 : ℝ) < (pi p : ℚ) := by exact_mod_cast pi_pos
  have hpi := Real.pi_pos
  -- the reciprocal of pi
  have b1 : Rel (22 / 10 * (1 / 2 ^ (p + 1))) (1 / ((pi p : ℚ) : ℝ)) (1 / Real.pi) := by
    have h := rel_pi h1 h2
    unfold Rel at h ⊢
    rw [show (21 / 10 / 2 ^ (p + 1) : ℝ) = 21 / 10 * (1 / 2 ^ (p + 1)) by ring] at h
    generalize ((pi p : ℚ) : ℝ) = P at *
    generalize (1 / 2 ^ (p + 1) : ℝ) = u at *
    rw [abs_of_pos hpi] at h
    have e : 1 / P - 1 / Real.pi = (Real.pi - P) / (P * Real.pi) := by field_simp
    rw [e, abs_div, abs_sub_comm, abs_of_pos (mul_pos hpp hpi), abs_of_pos (one_div_pos.2 hpi), div_le_iff₀ (mul_pos hpp hpi)]
    have e2 : 22 / 10 * u * (1 / Real.pi) * (P * Real.pi) = 22 / 10 * u * P := by field_simp
    rw [e2]
    have h3 := (abs_le.1 h).1
    nlinarith [mul_pos h0 hpi]
  have a1 := (rel_rnd (p := p) (x / pi p)).mul_right (180 : ℝ)
  have a2 := (b1.mul_left (x : ℝ)).mul_right (180 : ℝ)
  have e1 : ((x / pi p : ℚ) : ℝ) * 180 = (x : ℝ) * (1 / ((pi p : ℚ) : ℝ)) * 180 := by push_cast; ring
  rw [e1] at a1
  have a3 := a1.trans (by positivity) a2
  have a4 := (rel_rnd (p := p) (rnd p (x / pi p) * 180))
  have a4' : Rel (1 / 2 ^ (p + 1)) (toDegrees p x : ℚ) ((rnd p (x / pi p) : ℚ) * 180) := by
    unfold toDegrees
    push_cast at a4 ⊢
    exact a4
  have a5 := a4'.trans (by positivity) a3
  have e : (x : ℝ) * (1 / Real.pi) * 180 = x / Real.pi * 180 := by ring
  rw [e] at a5
  refine Rel.mono a5 ?_
  rw [show (5 / 2 ^ (p + 1) : ℝ) = 5 * (1 / 2 ^ (p + 1)) by ring]
  generalize (1 / 2 ^ (p + 1) : ℝ) = u at *
  nlinarith [mul_pos h0 h0, mul_pos (mul_pos h0 h0) h0]

/-- C135: converting to radians and back, or the other way round, gives the number up to five halves of a unit of the last digit. -/
theorem c135_round_trip (h1 : 9 ≤ p) (x : ℚ) : |toDegrees p (toRadians p x) - x| ≤ 5 / 2 ^ (p + 1) * |x| ∧ |toRadians p (toDegrees p x) - x| ≤ 5 / 2 ^ (p + 1) * |x| := by
  have h0 : (0 : ℝ) < 1 / 2 ^ (p + 1) := by positivity
  have hs : (1 / 2 ^ (p + 1) : ℝ) ≤ 1 / 1000 := by
    have : (2 : ℝ) ^ 10 ≤ 2 ^ (p + 1) := pow_le_pow_right₀ (by norm_num) (by omega)
    rw [div_le_div_iff₀ (by positivity) (by norm_num)]
    norm_num at this
    linarith
  have hpp : (pi p : ℚ) ≠ 0 := ne_of_gt pi_pos
  have hpr : ((pi p : ℚ) : ℝ) ≠ 0 := by exact_mod_cast hpp
  -- two inverse factors, four roundings
  have key : ∀ (c d : ℚ) (x : ℚ), c ≠ 0 → d ≠ 0 → Rel (5 / 2 ^ (p + 1)) ((rnd p (rnd p (rnd p (rnd p (x / c) * d) / d) * c) : ℚ) : ℝ) x := by
    intro c d x hc hd
    have hcr : (c : ℝ) ≠ 0 := by exact_mod_cast hc
    have hdr : (d : ℝ) ≠ 0 := by exact_mod_cast hd
    have s1 := (rel_rnd (p := p) (x / c)).mul_right (d : ℝ)
    have s2 := rel_rnd (p := p) (rnd p (x / c) * d)
    push_cast at s1 s2
    have t2 := (s2.trans (by positivity) s1).div_right (d : ℝ)
    have s3 := rel_rnd (p := p) (rnd p (rnd p (x / c) * d) / d)
    push_cast at s3
    have t3 := (s3.trans (by positivity) t2).mul_right (c : ℝ)
    have s4 := rel_rnd (p := p) (rnd p (rnd p (rnd p (x / c) * d) / d) * c)
    push_cast at s4
    have t4 := s4.trans (by positivity) t3
    have e : (x : ℝ) / c * d / d * c = x := by field_simp
    rw [e] at t4
    refine Rel.mono t4 ?_
    rw [show (5 / 2 ^ (p + 1) : ℝ) = 5 * (1 / 2 ^ (p + 1)) by ring]
    generalize (1 / 2 ^ (p + 1) : ℝ) = u at *
    nlinarith [mul_pos h0 h0, mul_pos (mul_pos h0 h0) h0, mul_pos (mul_pos (mul_pos h0 h0) h0) h0]
  have back : ∀ y : ℚ, Rel (5 / 2 ^ (p + 1)) (y : ℝ) x → |y - x| ≤ 5 / 2 ^ (p + 1) * |x| := by
    intro y h
    unfold Rel at h
    have : ((|y - x| : ℚ) : ℝ) ≤ ((5 / 2 ^ (p + 1) * |x| : ℚ) : ℝ) := by push_cast; exact h
    exact_mod_cast this
  exact ⟨back _ (key 180 (pi p) x (by norm_num) hpp), back _ (key (pi p) 180 x hpp (by norm_num))⟩

/-- C135: the conversions keep the order and the sign. -/
theorem c135_order {x y : ℚ} (h : x ≤ y) : toRadians p x ≤ toRadians p y ∧ toDegrees p x ≤ toDegrees p y ∧ toRadians p (-x) = -toRadians p x ∧
    toDegrees p (-x) = -toDegrees p x := by
  have hp := pi_pos (p := p)
  refine ⟨?_, ?_, ?_, ?_⟩
  · exact rnd_mono (mul_le_mul_of_nonneg_right (rnd_mono (div_le_div_of_nonneg_right h (by norm_num))) (le_of_lt hp))
  · exact rnd_mono (mul_le_mul_of_nonneg_right (rnd_mono (div_le_div_of_nonneg_right h (le_of_lt hp))) (by norm_num))
  · unfold toRadians
    rw [neg_div, rnd_neg, neg_mul, rnd_neg]
  · unfold toDegrees
    rw [neg_div, rnd_neg, neg_mul, rnd_neg]

/-- C135: 180, 90 and 45 degrees are `pi`, `half_pi` and `quarter_pi`, which are a half and a quarter of `pi`; so are all multiples by powers of two. -/
theorem c135_constants (hp : 9 ≤ p) : (∀ k : ℤ, toRadians p (180 * 2 ^ k) = pi p * 2 ^ k ∧ toDegrees p (pi p * 2 ^ k) = 180 * 2 ^ k) ∧
    toRadians p 180 = pi p ∧ toRadians p 90 = halfPi p ∧ toRadians p 45 = quarterPi p ∧
    toDegrees p (pi p) = 180 ∧ toDegrees p (halfPi p) = 90 ∧ toDegrees p (quarterPi p) = 45 ∧ halfPi p = pi p / 2 ∧ quarterPi p = pi p / 4 := by
  have h10 : (2 : ℤ) ^ 10 ≤ 2 ^ (p + 1) := pow_le_pow_right₀ (by norm_num) (by omega)
  have r1 : rnd p 1 = 1 := by
    have := rnd_int (p := p) (n := 1) (by norm_num at h10 ⊢; linarith)
    exact_mod_cast this
  have r180 : rnd p 180 = 180 := by
    have := rnd_int (p := p) (n := 180) (by norm_num at h10 ⊢; linarith)
    exact_mod_cast this
  have hpp := ne_of_gt (pi_pos (p := p))
  have rp : rnd p (pi p) = pi p := rnd_is (is_rnd _)
  have main : ∀ k : ℤ, toRadians p (180 * 2 ^ k) = pi p * 2 ^ k ∧ toDegrees p (pi p * 2 ^ k) = 180 * 2 ^ k := by
    intro k
    constructor
    · unfold toRadians
      rw [show (180 : ℚ) * 2 ^ k / 180 = 1 * 2 ^ k by ring, rnd_scale, r1, show (1 : ℚ) * 2 ^ k * pi p = pi p * 2 ^ k by ring, rnd_scale, rp]
    · unfold toDegrees
      rw [show pi p * 2 ^ k / pi p = 1 * 2 ^ k by field_simp, rnd_scale, r1, show (1 : ℚ) * 2 ^ k * 180 = 180 * 2 ^ k by ring, rnd_scale, r180]
  have e1 : (2 : ℚ) ^ (-1 : ℤ) = 1 / 2 := by norm_num
  have e2 : (2 : ℚ) ^ (-2 : ℤ) = 1 / 4 := by norm_num
  refine ⟨main, ?_, ?_, ?_, ?_, ?_, ?_, ?_, ?_⟩
  · have := (main 0).1; simpa using this
  · have := (main (-1)).1; rw [← halfPi_eq, e1] at this; norm_num at this; exact this
  · have := (main (-2)).1; rw [← quarterPi_eq, e2] at this; norm_num at this; exact this
  · have := (main 0).2; simpa using this
  · have := (main (-1)).2; rw [← halfPi_eq, e1] at this; norm_num at this; exact this
  · have := (main (-2)).2; rw [← quarterPi_eq, e2] at this; norm_num at this; exact this
  · rw [halfPi_eq, e1]; ring
  · rw [quarterPi_eq, e2]; ring

/-! ### Samples: `float` and `double` -/

example : toRadians 23 360 = 2 * pi 23 ∧ toDegrees 52 (halfPi 52) = 90 := by
  have h1 := (c135_constants (p := 23) (by norm_num)).1 1
  have h2 := (c135_constants (p := 52) (by norm_num)).2.2.2.2.2.1
  refine ⟨?_, h2⟩
  have := h1.1
  norm_num at this
  rw [this]; ring
example : |toDegrees 52 (toRadians 52 1) - 1| ≤ 5 / 2 ^ 53 * |1| := (c135_round_trip (p := 52) (by norm_num) 1).1

end Verif.Fp
