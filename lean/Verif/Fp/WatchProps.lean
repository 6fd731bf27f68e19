import Verif.Fp.WatchLemmas

/-! # C136: stop watches with floating point numbers -/

namespace Verif.Fp

open Verif
open Verif.Double (two_pos)

variable {p : ℕ}

/-- C136: the count of the elapsed time in a period of `d / n` nanoseconds, in floating point: three units of the last digit. -/
theorem c136_count (hp : 9 ≤ p) {n d : ℕ} (hd : 0 < d) (e : ℤ) : |cast p n d e - e * n / d| ≤ 6 / 2 ^ (p + 1) * |(e : ℚ) * n / d| := by
  have hd' : (0 : ℚ) < d := by exact_mod_cast hd
  have h0 : (0 : ℚ) < 1 / 2 ^ (p + 1) := by positivity
  have hs := step_small hp
  have a1 := (near_rnd (p := p) (n : ℚ)).mul_left (e : ℚ)
  have a2 := ((near_rnd (p := p) (e : ℚ)).mul_right (rnd p n)).trans (le_of_lt h0) a1
  have a3 := (((near_rnd (p := p) (rnd p e * rnd p n)).trans (le_of_lt h0) a2)).div_right (rnd p d)
  have a4 := (near_inv hp hd').mul_left ((e : ℚ) * n)
  have e1 : (e : ℚ) * n / rnd p d = e * n * (1 / rnd p d) := by ring
  have e2 : (e : ℚ) * n / d = e * n * (1 / d) := by ring
  rw [e1] at a3
  rw [e2]
  have a5 := (near_rnd (p := p) (rnd p (rnd p e * rnd p n) / rnd p d)).trans (le_of_lt h0) (a3.trans (by positivity) a4)
  refine Near.mono a5 ?_
  rw [show (11 / 10 / 2 ^ (p + 1) : ℚ) = 11 / 10 * (1 / 2 ^ (p + 1)) by ring, show (6 / 2 ^ (p + 1) : ℚ) = 6 * (1 / 2 ^ (p + 1)) by ring]
  generalize (1 / 2 ^ (p + 1) : ℚ) = u at *
  have k2 : u * u ≤ u / 1000 := by nlinarith
  have k3 : u * u * u ≤ u / 1000 := by nlinarith [mul_pos h0 h0]
  have k4 : u * u * u * u ≤ u / 1000 := by nlinarith [mul_pos h0 h0, mul_pos (mul_pos h0 h0) h0]
  have k5 : u * u * u * u * u ≤ u / 1000 := by nlinarith [mul_pos h0 h0, mul_pos (mul_pos h0 h0) h0, mul_pos (mul_pos (mul_pos h0 h0) h0) h0]
  nlinarith [mul_pos h0 h0]

/-- C136: a later count is not less, and time before the start is negative. -/
theorem c136_order (n d : ℕ) {e f : ℤ} (h : e ≤ f) : cast p n d e ≤ cast p n d f ∧ cast p n d (-e) = -cast p n d e := by
  have hn : (0 : ℚ) ≤ rnd p n := rnd_nonneg (Nat.cast_nonneg n)
  have hd : (0 : ℚ) ≤ rnd p d := rnd_nonneg (Nat.cast_nonneg d)
  constructor
  · have h' : (e : ℚ) ≤ f := by exact_mod_cast h
    exact rnd_mono (div_le_div_of_nonneg_right (rnd_mono (mul_le_mul_of_nonneg_right (rnd_mono h') hn)) hd)
  · unfold cast
    rw [rnd_neg, neg_mul, rnd_neg, neg_div, rnd_neg]

/-- C136: the elapsed seconds: one and a half units of the last digit, and the number next to the exact one if the nanoseconds have no more digits than the type. -/
theorem c136_seconds (hp : 20 ≤ p) (e : ℤ) : |seconds p e - e / 10 ^ 9| ≤ 3 / 2 ^ (p + 1) * |(e : ℚ) / 10 ^ 9| ∧
    (|e| ≤ 2 ^ (p + 1) → ∀ z, Is p z → |seconds p e - e / 10 ^ 9| ≤ |z - e / 10 ^ 9|) := by
  rw [seconds_eq hp]
  constructor
  · have h0 : (0 : ℚ) < 1 / 2 ^ (p + 1) := by positivity
    have hs := step_small (p := p) (by omega)
    have a1 := (near_rnd (p := p) (e : ℚ)).div_right (10 ^ 9)
    have a2 := (near_rnd (p := p) (rnd p e / 10 ^ 9)).trans (le_of_lt h0) a1
    refine Near.mono a2 ?_
    rw [show (3 / 2 ^ (p + 1) : ℚ) = 3 * (1 / 2 ^ (p + 1)) by ring]
    generalize (1 / 2 ^ (p + 1) : ℚ) = u at *
    nlinarith
  · intro he z hz
    rw [rnd_int he]
    exact rnd_nearest _ _ hz

/-- C136: whole seconds are told exactly. -/
theorem c136_whole (hp : 20 ≤ p) {n : ℤ} (h : |n| * 5 ^ 9 ≤ 2 ^ (p + 1)) : seconds p (n * 10 ^ 9) = n := by
  rw [seconds_eq hp]
  have h1 : Is p ((n * 10 ^ 9 : ℤ) : ℚ) := ⟨n * 5 ^ 9, 9, by rw [abs_mul]; norm_num at h ⊢; linarith, by push_cast; ring⟩
  rw [rnd_is h1]
  push_cast
  rw [mul_div_assoc, show (1000000000 / 10 ^ 9 : ℚ) = 1 by norm_num, mul_one]
  apply rnd_int
  have := abs_nonneg n
  norm_num at h ⊢
  linarith

/-- C136: an interval of floating point seconds has elapsed if and only if the time has come, up to a nanosecond and the rounding of the interval. -/
theorem c136_elapsed_partial (hp : 20 ≤ p) {x : ℚ} (hx : Is p x) {e : ℤ} :
    (hasElapsed p x e = .ok true → x * 10 ^ 9 < e + 1 + |x * 10 ^ 9| / 2 ^ (p + 1)) ∧
    (hasElapsed p x e = .ok false → (e : ℚ) < x * 10 ^ 9 + |x * 10 ^ 9| / 2 ^ (p + 1)) := by
  have h1 := abs_le.1 (rnd_error (p := p) (x * 10 ^ 9))
  obtain ⟨h2, h3⟩ := trunc_bounds (rnd p (x * 10 ^ 9))
  obtain ⟨h4, h5⟩ := h1
  constructor <;> intro h <;> have h := hasElapsed_ok hp hx h
  · have h : trunc (rnd p (x * 10 ^ 9)) ≤ e := by simpa using h
    have h : (trunc (rnd p (x * 10 ^ 9)) : ℚ) ≤ e := by exact_mod_cast h
    generalize trunc (rnd p (x * 10 ^ 9)) = i at *
    generalize |x * 10 ^ 9| / 2 ^ (p + 1) = w at *
    generalize rnd p (x * 10 ^ 9) = q at *
    generalize x * 10 ^ 9 = y at *
    linarith
  · have h : e < trunc (rnd p (x * 10 ^ 9)) := by simpa using h
    have h : e + 1 ≤ trunc (rnd p (x * 10 ^ 9)) := h
    have h : (e : ℚ) + 1 ≤ trunc (rnd p (x * 10 ^ 9)) := by exact_mod_cast h
    generalize trunc (rnd p (x * 10 ^ 9)) = i at *
    generalize |x * 10 ^ 9| / 2 ^ (p + 1) = w at *
    generalize rnd p (x * 10 ^ 9) = q at *
    generalize x * 10 ^ 9 = y at *
    linarith

/-- C136: and exactly so for a whole number of seconds. -/
theorem c136_elapsed_whole (hp : 20 ≤ p) {n : ℤ} (h : |n| * 5 ^ 9 ≤ 2 ^ (p + 1)) (h' : |n| ≤ 2 ^ 33) (e : ℤ) :
    hasElapsed p n e = .ok (decide (n * 10 ^ 9 ≤ e)) := by
  have h0 := abs_nonneg n
  have hx : Is p (n : ℚ) := is_int (by norm_num at h ⊢; linarith)
  unfold hasElapsed
  rw [nanos_eq hp hx]
  have h1 : Is p ((n * 10 ^ 9 : ℤ) : ℚ) := ⟨n * 5 ^ 9, 9, by rw [abs_mul]; norm_num at h ⊢; linarith, by push_cast; ring⟩
  rw [show (n : ℚ) * 10 ^ 9 = ((n * 10 ^ 9 : ℤ) : ℚ) by push_cast; ring, rnd_is h1, trunc_int]
  have := abs_le.1 h'
  exact if_pos ⟨by norm_num at this ⊢; omega, by norm_num at this ⊢; omega⟩

/-- C136: the call is defined for intervals of less than 146 years (2^62 nanoseconds), and undefined for those of more than 585. -/
theorem c136_defined (hp : 20 ≤ p) {x : ℚ} (hx : Is p x) (e : ℤ) : (|x * 10 ^ 9| ≤ 2 ^ 62 → ∃ b, hasElapsed p x e = .ok b) ∧
    (2 ^ 64 ≤ |x * 10 ^ 9| → hasElapsed p x e = .ub) := by
  have e1 := rnd_error (p := p) (x * 10 ^ 9)
  have hs := step_small (p := p) (by omega)
  have e2 : |rnd p (x * 10 ^ 9) - x * 10 ^ 9| ≤ |x * 10 ^ 9| / 1000 := by
    refine le_trans e1 ?_
    have := mul_le_mul_of_nonneg_left hs (abs_nonneg (x * 10 ^ 9))
    calc _ = |x * 10 ^ 9| * (1 / 2 ^ (p + 1)) := by ring
      _ ≤ _ := this
      _ = _ := by ring
  obtain ⟨t1, t2⟩ := trunc_bounds (rnd p (x * 10 ^ 9))
  obtain ⟨e3, e4⟩ := abs_le.1 e2
  unfold hasElapsed
  rw [nanos_eq hp hx]
  generalize trunc (rnd p (x * 10 ^ 9)) = i at *
  clear e1
  generalize rnd p (x * 10 ^ 9) = q at *
  generalize x * 10 ^ 9 = y at *
  constructor
  · intro h
    obtain ⟨b1, b2⟩ := abs_le.1 h
    have k1 : (-2 ^ 63 : ℚ) ≤ i := by linarith
    have k2 : (i : ℚ) < 2 ^ 63 := by linarith
    exact ⟨_, if_pos ⟨by exact_mod_cast k1, by exact_mod_cast k2⟩⟩
  · intro h
    refine if_neg ?_
    rintro ⟨k1, k2⟩
    have k1 : (-2 ^ 63 : ℚ) ≤ i := by exact_mod_cast k1
    have k2 : (i : ℚ) < 2 ^ 63 := by exact_mod_cast k2
    rcases abs_cases y with ⟨q, _⟩ | ⟨q, _⟩ <;> rw [q] at e3 e4 h <;> linarith

/-- C136: what has elapsed stays so, and so have the shorter intervals. -/
theorem c136_stays (hp : 20 ≤ p) {x y : ℚ} (hx : Is p x) (hy : Is p y) (hxy : y ≤ x) {e f : ℤ} (hef : e ≤ f) {b : Bool}
    (h : hasElapsed p x e = .ok true) (h' : hasElapsed p y f = .ok b) : b = true := by
  have h1 := hasElapsed_ok hp hx h
  have h2 := hasElapsed_ok hp hy h'
  have h3 : trunc (rnd p (y * 10 ^ 9)) ≤ trunc (rnd p (x * 10 ^ 9)) := trunc_mono (rnd_mono (by linarith))
  have h4 : trunc (rnd p (x * 10 ^ 9)) ≤ e := by simpa using h1
  rw [h2]
  simp only [decide_eq_true_eq]
  omega

/-- C136: the seconds that a watch has told have elapsed at that time, and had not two nanoseconds before. -/
theorem c136_round_trip (hp : 20 ≤ p) {e : ℤ} (h0 : 0 ≤ e) (h : e < 2 ^ p) (h' : e < 2 ^ 63) {f : ℤ} :
    (e ≤ f → hasElapsed p (seconds p e) f = .ok true) ∧ (f ≤ e - 2 → hasElapsed p (seconds p e) f = .ok false) := by
  have hpow : (2 : ℤ) ^ (p + 1) = 2 * 2 ^ p := by rw [pow_succ]; ring
  have he : |e| ≤ 2 ^ (p + 1) := by rw [abs_of_nonneg h0, hpow]; linarith
  have hq0 : (0 : ℚ) ≤ e := by exact_mod_cast h0
  have hqs : (e : ℚ) < 2 ^ p := by exact_mod_cast h
  have hx : Is p (seconds p e) := by rw [seconds_eq hp]; exact is_rnd _
  have s0 : 0 ≤ seconds p e := by
    rw [seconds_eq hp]
    exact rnd_nonneg (div_nonneg (rnd_nonneg hq0) (by norm_num))
  have s1 : |seconds p e * 10 ^ 9 - (e : ℚ)| ≤ (e : ℚ) / 2 ^ (p + 1) := by
    rw [seconds_eq hp, rnd_int he]
    have := rnd_error (p := p) ((e : ℚ) / 10 ^ 9)
    rw [abs_of_nonneg (show (0 : ℚ) ≤ (e : ℚ) / 10 ^ 9 from div_nonneg hq0 (by norm_num))] at this
    have e1 : rnd p ((e : ℚ) / 10 ^ 9) * 10 ^ 9 - e = (rnd p ((e : ℚ) / 10 ^ 9) - e / 10 ^ 9) * 10 ^ 9 := by ring
    rw [e1, abs_mul, abs_of_pos (show (0 : ℚ) < 10 ^ 9 by norm_num)]
    calc _ ≤ (e : ℚ) / 10 ^ 9 / 2 ^ (p + 1) * 10 ^ 9 := mul_le_mul_of_nonneg_right this (by norm_num)
      _ = _ := by ring
  have s2 := rnd_nearest (p := p) (seconds p e * 10 ^ 9) e (is_int he)
  have s3 : (e : ℚ) / 2 ^ (p + 1) < 1 / 2 := by
    rw [pow_succ, div_lt_div_iff₀ (by positivity) (by norm_num)]
    linarith
  have s4 : |(e : ℚ) - seconds p e * 10 ^ 9| = |seconds p e * 10 ^ 9 - e| := abs_sub_comm _ _
  obtain ⟨a1, a2⟩ := abs_le.1 s1
  obtain ⟨b1, b2⟩ := abs_le.1 s2
  rw [s4] at b1 b2
  have c0 : 0 ≤ rnd p (seconds p e * 10 ^ 9) := rnd_nonneg (mul_nonneg s0 (by norm_num))
  have s5 : |seconds p e * 10 ^ 9 - (e : ℚ)| < 1 / 2 := lt_of_le_of_lt s1 s3
  obtain ⟨a3, a4⟩ := abs_lt.1 s5
  have b3 := lt_of_le_of_lt b2 s5
  have b4 := lt_of_lt_of_le (neg_lt_neg s5) b1
  clear b1 b2 a1 a2
  have c1 : rnd p (seconds p e * 10 ^ 9) < e + 1 := by
    generalize rnd p (seconds p e * 10 ^ 9) = q at *
    generalize seconds p e * 10 ^ 9 = y at *
    linarith
  have c2 : (e : ℚ) - 1 < rnd p (seconds p e * 10 ^ 9) := by
    generalize rnd p (seconds p e * 10 ^ 9) = q at *
    generalize seconds p e * 10 ^ 9 = y at *
    linarith
  have hi : trunc (rnd p (seconds p e * 10 ^ 9)) ≤ e ∧ e - 1 ≤ trunc (rnd p (seconds p e * 10 ^ 9)) := by
    unfold trunc
    rw [if_pos c0]
    constructor
    · have : (⌊rnd p (seconds p e * 10 ^ 9)⌋ : ℚ) < e + 1 := lt_of_le_of_lt (Int.floor_le _) c1
      have : ⌊rnd p (seconds p e * 10 ^ 9)⌋ < e + 1 := by exact_mod_cast this
      omega
    · rw [Int.le_floor]
      push_cast
      exact le_of_lt c2
  unfold hasElapsed
  rw [nanos_eq hp hx]
  clear c0 c1 c2
  generalize trunc (rnd p (seconds p e * 10 ^ 9)) = i at *
  have g : -2 ^ 63 ≤ i ∧ i < 2 ^ 63 := by norm_num at h' ⊢; omega
  constructor
  · intro hf
    have : decide (i ≤ f) = true := decide_eq_true (by omega)
    rw [← this]
    exact if_pos g
  · intro hf
    have : decide (i ≤ f) = false := decide_eq_false (by omega)
    rw [← this]
    exact if_pos g

/-- C136, the defect: an interval may be said to have elapsed up to a nanosecond early. -/
theorem c136_early_violated (hp : 20 ≤ p) : ∃ x : ℚ, Is p x ∧ ∃ e : ℤ, (e : ℚ) < x * 10 ^ 9 ∧ hasElapsed p x e = .ok true := by
  have h16 : (2 : ℤ) ^ 21 ≤ 2 ^ (p + 1) := pow_le_pow_right₀ (by norm_num) (by omega)
  have hx : Is p (15 / 2 ^ 33) := ⟨15, -33, by norm_num at h16 ⊢; linarith, by norm_num⟩
  refine ⟨15 / 2 ^ 33, hx, 1, by norm_num, ?_⟩
  unfold hasElapsed
  rw [nanos_eq hp hx]
  have a : rnd p ((1 : ℤ) : ℚ) ≤ rnd p (15 / 2 ^ 33 * 10 ^ 9) := rnd_mono (by norm_num)
  have b : rnd p (15 / 2 ^ 33 * 10 ^ 9) ≤ rnd p (7 / 4) := rnd_mono (by norm_num)
  have i1 : Is p (7 / 4) := ⟨7, -2, by norm_num at h16 ⊢; linarith, by norm_num⟩
  rw [rnd_is i1] at b
  rw [rnd_int (by norm_num at h16 ⊢; linarith)] at a
  have t : trunc (rnd p (15 / 2 ^ 33 * 10 ^ 9)) = 1 := by
    unfold trunc
    have h1 : (1 : ℚ) ≤ rnd p (15 / 2 ^ 33 * 10 ^ 9) := by exact_mod_cast a
    rw [if_pos (by linarith), Int.floor_eq_iff]
    push_cast
    exact ⟨h1, by linarith⟩
  rw [t]
  rfl

/-! ### Samples -/

example : seconds 52 (86400 * 10 ^ 9) = 86400 := by
  have := c136_whole (p := 52) (by norm_num) (n := 86400) (by norm_num)
  exact_mod_cast this
example : hasElapsed 23 5 (5 * 10 ^ 9 - 1) = .ok false := by
  have := c136_elapsed_whole (p := 23) (by norm_num) (n := 5) (by norm_num) (by norm_num) (5 * 10 ^ 9 - 1)
  exact_mod_cast this
example : hasElapsed 52 (seconds 52 123456789) 123456787 = .ok false :=
  (c136_round_trip (p := 52) (by norm_num) (e := 123456789) (by norm_num) (by norm_num) (by norm_num)).2 (by norm_num)
example : ∃ b, hasElapsed 52 (1 / 2) 3 = .ok b :=
  (c136_defined (p := 52) (by norm_num) (x := 1 / 2) ⟨1, -1, by norm_num, by norm_num⟩ 3).1 (by norm_num [abs_of_pos])

end Verif.Fp
