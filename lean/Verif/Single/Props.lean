import Verif.Single.Model
import Verif.Double.Props

/-!
# C183: decimals and floats
-/

namespace Verif.Single

open Verif Verif.Decimal
open Verif.Double (IsDouble castD makeRounded)

variable {c : Cfg}

theorem rnd_int {n : ℤ} (h : |n| ≤ 2 ^ 24) : rnd n = n := rnd_float ⟨n, 0, h, by simp⟩

theorem castF_eq (h : c.Good) {d : Dec} (hd : d.WF c) (he : d.exp ≤ 22) :
    castF c d = .ok (rnd (Double.rnd (rnd d.mantissa / 10 ^ d.exp))) := by
  have hp : ¬ (10 ^ d.exp = 0) := by positivity
  simp only [castF, h.denom (WF.exp_le hd), Res.ok_bind, if_neg hp, Double.rnd_ten he]

theorem mantissa_small {d : Dec} (hm : d.man ≤ 2 ^ 24) : |d.mantissa| ≤ 2 ^ 24 := by
  have := mantissa_abs d
  rw [Int.abs_eq_natAbs]
  omega

/-- C183, the part that holds: with a mantissa up to 2^24 the conversion to `float` is the `float` nearest to the `double` of the decimal, that is, the same as the
conversion to `double` and then to `float`.  Missing: larger mantissas, see `c183_nearest_violated`. -/
theorem c183_as_double_partial (h : c.Good) {d : Dec} (hd : d.WF c) (hm : d.man ≤ 2 ^ 24) (he : d.exp ≤ 22) :
    ∃ u v, castD c d = .ok u ∧ castF c d = .ok v ∧ IsFloat v ∧ ∀ z, IsFloat z → |v - u| ≤ |z - u| := by
  refine ⟨_, _, Double.castD_eq h hd (by omega) he, ?_, rnd_isFloat (Double.rnd d.value), fun z hz => rnd_nearest _ z hz⟩
  rw [castF_eq h hd he, rnd_int (mantissa_small hm), value_eq]

/-- C183: a decimal whose number a `float` can hold becomes this number, if the mantissa is at most 2^24. -/
theorem c183_exact_partial (h : c.Good) {d : Dec} (hd : d.WF c) (hm : d.man ≤ 2 ^ 24) (he : d.exp ≤ 22) (hf : IsFloat d.value) :
    castF c d = .ok d.value := by
  have hdb : IsDouble d.value := by
    obtain ⟨k, j, hk, e⟩ := hf
    exact ⟨k, j, by linarith [hk, (by norm_num : (2 : ℤ) ^ 24 ≤ 2 ^ 53)], e⟩
  rw [castF_eq h hd he, rnd_int (mantissa_small hm), ← value_eq, Double.rnd_double hdb, rnd_float hf]

/-- C183: whatever the mantissa is, the `float` is near to the number: the relative error is at most 2^-22 (four times that of the nearest one). -/
theorem c183_close (h : c.Good) {d : Dec} (hd : d.WF c) (he : d.exp ≤ 22) :
    ∃ v, castF c d = .ok v ∧ IsFloat v ∧ |v - d.value| ≤ |d.value| / 2 ^ 22 := by
  refine ⟨_, castF_eq h hd he, rnd_isFloat _, ?_⟩
  rw [value_eq]
  set m : ℚ := (d.mantissa : ℚ) with hmq
  have hD : (0 : ℚ) < 10 ^ d.exp := by positivity
  set D : ℚ := 10 ^ d.exp with hDq
  set q := rnd m / D with hq
  set b := Double.rnd q with hb
  have h1 : |q - m / D| ≤ |m / D| / 2 ^ 24 := by
    have := rnd_error m
    have e : q - m / D = (rnd m - m) / D := by rw [hq]; ring
    rw [e, abs_div, abs_div, abs_of_pos hD]
    calc |rnd m - m| / D ≤ |m| / 2 ^ 24 / D := div_le_div_of_nonneg_right this (le_of_lt hD)
      _ = _ := by ring
  have h2 : |b - q| ≤ |q| / 2 ^ 53 := Double.rnd_error q
  have h3 : |rnd b - b| ≤ |b| / 2 ^ 24 := rnd_error b
  have h4 : |q| ≤ |q - m / D| + |m / D| := by
    calc |q| = |(q - m / D) + m / D| := by ring_nf
      _ ≤ _ := abs_add_le _ _
  have h5 : |b| ≤ |b - q| + |q| := by
    calc |b| = |(b - q) + q| := by ring_nf
      _ ≤ _ := abs_add_le _ _
  have h6 : |rnd b - m / D| ≤ |rnd b - b| + (|b - q| + |q - m / D|) := by
    calc |rnd b - m / D| = |(rnd b - b) + ((b - q) + (q - m / D))| := by ring_nf
      _ ≤ |rnd b - b| + |(b - q) + (q - m / D)| := abs_add_le _ _
      _ ≤ _ := by linarith [abs_add_le (b - q) (q - m / D)]
  have h0 := abs_nonneg (m / D)
  linarith

/-- C183: the order of decimals with the same number of digits is that of their floats, whatever the mantissas are. -/
theorem c183_order (h : c.Good) {x y : Dec} (hx : x.WF c) (hy : y.WF c) (he : x.exp ≤ 22) (hxy : x.exp = y.exp) (hv : x.value ≤ y.value) :
    ∃ u v, castF c x = .ok u ∧ castF c y = .ok v ∧ u ≤ v := by
  refine ⟨_, _, castF_eq h hx he, castF_eq h hy (hxy ▸ he), ?_⟩
  have hD : (0 : ℚ) < 10 ^ x.exp := by positivity
  rw [value_eq, value_eq, ← hxy, div_le_div_iff_of_pos_right hD] at hv
  rw [← hxy]
  exact rnd_mono (Double.rnd_mono (div_le_div_of_nonneg_right (rnd_mono hv) (le_of_lt hD)))

/-- C183: with mantissas up to 2^24 this holds for any numbers of digits.  Missing: larger mantissas with different numbers of digits. -/
theorem c183_order_partial (h : c.Good) {x y : Dec} (hx : x.WF c) (hy : y.WF c) (mx : x.man ≤ 2 ^ 24) (my : y.man ≤ 2 ^ 24) (ex : x.exp ≤ 22) (ey : y.exp ≤ 22)
    (hv : x.value ≤ y.value) : ∃ u v, castF c x = .ok u ∧ castF c y = .ok v ∧ u ≤ v := by
  refine ⟨_, _, castF_eq h hx ex, castF_eq h hy ey, ?_⟩
  rw [rnd_int (mantissa_small mx), rnd_int (mantissa_small my), ← value_eq, ← value_eq]
  exact rnd_mono (Double.rnd_mono hv)

/-- The error of the conversion and of the multiplication. -/
theorem back_error {m : ℤ} {D : ℚ} (hD : 0 < D) (hm : |m| < 2 ^ 22) : |Double.rnd (rnd (Double.rnd (m / D)) * D) - m| < 1 / 2 := by
  have h1 := Double.rnd_error (m / D)
  set b := Double.rnd (m / D) with hb
  have h2 := rnd_error b
  set v := rnd b with hv
  have h3 := Double.rnd_error (v * D)
  have hmq : |(m : ℚ)| ≤ 2 ^ 22 - 1 := by
    have : |m| ≤ 2 ^ 22 - 1 := by omega
    exact_mod_cast this
  have e1 : |b * D - m| ≤ |(m : ℚ)| / 2 ^ 53 := by
    have : b * D - m = (b - m / D) * D := by field_simp
    rw [this, abs_mul, abs_of_pos hD]
    rw [abs_div, abs_of_pos hD] at h1
    calc |b - m / D| * D ≤ |(m : ℚ)| / D / 2 ^ 53 * D := mul_le_mul_of_nonneg_right h1 (le_of_lt hD)
      _ = |(m : ℚ)| / 2 ^ 53 := by field_simp
  have e2 : |v * D - b * D| ≤ |b * D| / 2 ^ 24 := by
    rw [← sub_mul, abs_mul, abs_mul, abs_of_pos hD]
    calc |v - b| * D ≤ |b| / 2 ^ 24 * D := mul_le_mul_of_nonneg_right h2 (le_of_lt hD)
      _ = _ := by ring
  have e3 : |b * D| ≤ |b * D - m| + |(m : ℚ)| := by
    calc |b * D| = |(b * D - m) + m| := by ring_nf
      _ ≤ _ := abs_add_le _ _
  have e4 : |v * D| ≤ |v * D - b * D| + |b * D| := by
    calc |v * D| = |(v * D - b * D) + b * D| := by ring_nf
      _ ≤ _ := abs_add_le _ _
  have e5 : |Double.rnd (v * D) - m| ≤ |Double.rnd (v * D) - v * D| + (|v * D - b * D| + |b * D - m|) := by
    calc |Double.rnd (v * D) - m| = |(Double.rnd (v * D) - v * D) + ((v * D - b * D) + (b * D - m))| := by ring_nf
      _ ≤ |Double.rnd (v * D) - v * D| + |(v * D - b * D) + (b * D - m)| := abs_add_le _ _
      _ ≤ _ := by linarith [abs_add_le (v * D - b * D) (b * D - m)]
  have h0 := abs_nonneg (m : ℚ)
  linarith

/-- C183, the part that holds: a decimal of up to six significant digits (a mantissa below 2^22) that is converted to `float` comes back with `make_rounded`.
Missing: larger mantissas, see `c183_round_trip_violated`. -/
theorem c183_round_trip_partial (h : c.Good) (hw : 24 ≤ c.w) {d : Dec} (hd : d.WF c) (hm : d.man < 2 ^ 22) (he : d.exp ≤ 22) :
    ∃ v d', castF c d = .ok v ∧ makeRounded c v d.exp = .ok d' ∧ d'.WF c ∧ d'.exp = d.exp ∧ d'.mantissa = d.mantissa ∧ d'.value = d.value := by
  have hma := mantissa_abs d
  have hk := WF.exp_le hd
  have hml := WF.man_le hd
  obtain ⟨d', a, b1, b2, b3⟩ := Double.made h hk (m := d.mantissa) (by omega)
  refine ⟨_, d', castF_eq h hd he, ?_, b1, b2, b3, by rw [value_eq, value_eq, b2, b3]⟩
  have hp : (0 : ℚ) < 10 ^ d.exp := by positivity
  have hb := back_error (m := d.mantissa) hp (by rw [Int.abs_eq_natAbs]; omega)
  rw [rnd_int (mantissa_small (by omega))]
  have hl := Double.llround_eq hb (by rw [Int.abs_eq_natAbs]; omega)
  have hwr : Double.wrapInt c d.mantissa = d.mantissa := by
    obtain ⟨w, hw'⟩ : ∃ w, c.w = w + 24 := ⟨c.w - 24, by omega⟩
    unfold Double.wrapInt
    rw [hw', show w + 24 - 1 = w + 23 by omega]
    have h1 : (2 : ℤ) ^ (w + 24) = 2 * 2 ^ (w + 23) := by ring
    have h2 : (2 : ℤ) ^ 23 ≤ 2 ^ (w + 23) := pow_le_pow_right₀ (by norm_num) (by omega)
    rw [Int.emod_eq_of_lt (by omega) (by omega)]
    ring
  simp only [makeRounded, Double.ofDigits_exp hk, h.denom hk, Res.ok_bind, Double.rnd_ten he, hl, hwr, a]

/-! ### The violations -/

theorem rnd_16777217 : rnd 16777217 = 16777216 := by
  have hu : ulpExp 16777217 = 1 := ulpExp_unique (by norm_num) (by norm_num)
  have hf : ⌊(16777217 / 2 : ℚ)⌋ = 8388608 := by rw [Int.floor_eq_iff]; norm_num
  have : Double.roundEven (16777217 / 2) = 8388608 := by
    unfold Double.roundEven
    rw [hf]
    norm_num
  unfold rnd
  rw [hu, zpow_one, this]
  norm_num

theorem double_16777216 : Double.rnd (16777216 / 100) = 5764607523034235 * 2 ^ (-35 : ℤ) := by
  have := Double.rnd_eq (x := 16777216 / 100) 5764607523034235 (-35) (by norm_num) (by norm_num) (by norm_num)
  exact_mod_cast this

theorem float_16777216 : rnd (5764607523034235 * 2 ^ (-35 : ℤ)) = 10737418 * 2 ^ (-6 : ℤ) := by
  have := rnd_eq (x := 5764607523034235 * 2 ^ (-35 : ℤ)) 10737418 (-6) (by norm_num) (by norm_num) (by norm_num)
  exact_mod_cast this

theorem cast_16777217 : castF c64 ⟨true, 2, 16777217⟩ = .ok (10737418 * 2 ^ (-6 : ℤ)) := by
  rw [castF_eq Double.good64 (by constructor <;> decide) (by decide)]
  have e : ((Dec.mantissa ⟨true, 2, 16777217⟩ : ℤ) : ℚ) = 16777217 := by norm_num [Dec.mantissa]
  rw [e, rnd_16777217]
  show Res.ok (rnd (Double.rnd (16777216 / 10 ^ 2))) = _
  rw [show (16777216 / 10 ^ 2 : ℚ) = 16777216 / 100 by norm_num, double_16777216, float_16777216]

theorem back_16777217 : makeRounded c64 (10737418 * 2 ^ (-6 : ℤ)) 2 = .ok ⟨true, 2, 16777216⟩ := by
  have hr : Double.rnd (10737418 * 2 ^ (-6 : ℤ) * 10 ^ 2) = 16777215.625 := by
    rw [Double.rnd_double ⟨134217725, -3, by norm_num, by norm_num⟩]
    norm_num
  have hl : Double.llround 16777215.625 = .ok 16777216 := by
    unfold Double.llround
    have : ⌊(16777215.625 + 1 / 2 : ℚ)⌋ = 16777216 := by rw [Int.floor_eq_iff]; norm_num
    have h0 : (0 : ℚ) ≤ 16777215.625 := by norm_num
    simp only [if_pos h0, this]
    rfl
  have h2 : (2 : ℕ) ≤ c64.maxExp := by decide
  simp only [makeRounded, Double.ofDigits_exp h2, Double.good64.denom h2, Res.ok_bind, Double.rnd_ten (by decide : 2 ≤ 22), hr, hl]
  decide +kernel

/-- C183 is violated: 167772.17 becomes 167772.15625, though 167772.171875 is a `float` and nearer to it. -/
theorem c183_nearest_violated : castF c64 ⟨true, 2, 16777217⟩ = .ok (167772.15625 : ℚ) ∧ Dec.value ⟨true, 2, 16777217⟩ = (167772.17 : ℚ) ∧
    IsFloat (167772.171875 : ℚ) ∧ |(167772.171875 : ℚ) - 167772.17| < |(167772.15625 : ℚ) - 167772.17| := by
  refine ⟨?_, ?_, ⟨10737419, -6, by norm_num, by norm_num⟩, ?_⟩
  · rw [cast_16777217]
    norm_num
  · rw [value_eq]
    norm_num [Dec.mantissa]
  · norm_num [abs_of_pos, abs_of_neg]

/-- C183 is violated: so 167772.17 does not come back as a decimal of two digits; it becomes 167772.16. -/
theorem c183_round_trip_violated : ∃ v, castF c64 ⟨true, 2, 16777217⟩ = .ok v ∧ makeRounded c64 v 2 = .ok ⟨true, 2, 16777216⟩ :=
  ⟨_, cast_16777217, back_16777217⟩

theorem rnd_16777219 : rnd 16777219 = 16777220 := by
  have hu : ulpExp 16777219 = 1 := ulpExp_unique (by norm_num) (by norm_num)
  have hf : ⌊(16777219 / 2 : ℚ)⌋ = 8388609 := by rw [Int.floor_eq_iff]; norm_num
  have : Double.roundEven (16777219 / 2) = 8388610 := by
    unfold Double.roundEven
    rw [hf]
    norm_num
  unfold rnd
  rw [hu, zpow_one, this]
  norm_num

theorem rnd_167772195 : rnd 167772195 = 167772192 := by
  have := rnd_eq (x := 167772195) 10485762 4 (by norm_num) (by norm_num) (by norm_num [abs_of_pos])
  rw [this]
  norm_num

theorem cast_16777219 : castF c64 ⟨true, 2, 16777219⟩ = .ok (10737421 * 2 ^ (-6 : ℤ)) := by
  rw [castF_eq Double.good64 (by constructor <;> decide) (by decide)]
  have e : ((Dec.mantissa ⟨true, 2, 16777219⟩ : ℤ) : ℚ) = 16777219 := by norm_num [Dec.mantissa]
  rw [e, rnd_16777219]
  show Res.ok (rnd (Double.rnd (16777220 / 10 ^ 2))) = _
  have h1 : Double.rnd (16777220 / 10 ^ 2) = 5764608897423770 * 2 ^ (-35 : ℤ) := by
    have := Double.rnd_eq (x := 16777220 / 10 ^ 2) 5764608897423770 (-35) (by norm_num) (by norm_num) (by norm_num [abs_of_pos, abs_of_neg])
    exact_mod_cast this
  have h2 : rnd (5764608897423770 * 2 ^ (-35 : ℤ)) = 10737421 * 2 ^ (-6 : ℤ) := by
    have := rnd_eq (x := 5764608897423770 * 2 ^ (-35 : ℤ)) 10737421 (-6) (by norm_num) (by norm_num) (by norm_num [abs_of_pos, abs_of_neg])
    exact_mod_cast this
  rw [h1, h2]

theorem cast_167772195 : castF c64 ⟨true, 3, 167772195⟩ = .ok (10737420 * 2 ^ (-6 : ℤ)) := by
  rw [castF_eq Double.good64 (by constructor <;> decide) (by decide)]
  have e : ((Dec.mantissa ⟨true, 3, 167772195⟩ : ℤ) : ℚ) = 167772195 := by norm_num [Dec.mantissa]
  rw [e, rnd_167772195]
  show Res.ok (rnd (Double.rnd (167772192 / 10 ^ 3))) = _
  have h1 : Double.rnd (167772192 / 10 ^ 3) = 5764608622545863 * 2 ^ (-35 : ℤ) := by
    have := Double.rnd_eq (x := 167772192 / 10 ^ 3) 5764608622545863 (-35) (by norm_num) (by norm_num) (by norm_num [abs_of_pos, abs_of_neg])
    exact_mod_cast this
  have h2 : rnd (5764608622545863 * 2 ^ (-35 : ℤ)) = 10737420 * 2 ^ (-6 : ℤ) := by
    have := rnd_eq (x := 5764608622545863 * 2 ^ (-35 : ℤ)) 10737420 (-6) (by norm_num) (by norm_num) (by norm_num [abs_of_pos, abs_of_neg])
    exact_mod_cast this
  rw [h1, h2]

/-- C183 is violated: 167772.19 is less than 167772.195, but its `float` is greater. -/
theorem c183_order_violated : Dec.value ⟨true, 2, 16777219⟩ < Dec.value ⟨true, 3, 167772195⟩ ∧
    ∃ u v, castF c64 ⟨true, 2, 16777219⟩ = .ok u ∧ castF c64 ⟨true, 3, 167772195⟩ = .ok v ∧ v < u := by
  refine ⟨?_, _, _, cast_16777219, cast_167772195, ?_⟩
  · rw [value_eq, value_eq]
    norm_num [Dec.mantissa]
  · norm_num

/-! ### Cases -/

example : Dec.WF c64 ⟨false, 3, 123456⟩ ∧ 123456 < 2 ^ 22 ∧ 24 ≤ c64.w := ⟨by constructor <;> decide, by decide, by decide⟩

/-- 12.5 is a `float`. -/
example : Dec.WF c64 ⟨true, 2, 1250⟩ ∧ IsFloat (Dec.value ⟨true, 2, 1250⟩) :=
  ⟨by constructor <;> decide, 25, -1, by norm_num, by rw [value_eq]; norm_num [Dec.mantissa]⟩

example : Dec.value ⟨false, 2, 16777217⟩ ≤ Dec.value ⟨true, 2, 99999999999⟩ := by
  rw [value_eq, value_eq]
  norm_num [Dec.mantissa]

end Verif.Single
