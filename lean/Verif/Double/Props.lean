import Verif.Double.Model
import Verif.Decimal.Props

/-!
# C125: decimals as doubles and back, C126: decimals made of doubles, C127: arithmetic of decimals with doubles
-/

namespace Verif.Double

open Verif Verif.Decimal

variable {c : Cfg}

/-! ### Helpers -/

theorem isDouble_int {n : ℤ} (h : |n| ≤ 2 ^ 53) : IsDouble n := ⟨n, 0, h, by simp⟩

theorem rnd_int {n : ℤ} (h : |n| ≤ 2 ^ 53) : rnd n = n := rnd_double (isDouble_int h)

theorem rnd_ten {e : ℕ} (h : e ≤ 22) : rnd ((10 ^ e : ℕ) : ℚ) = 10 ^ e := by
  have : IsDouble ((10 ^ e : ℕ) : ℚ) := by
    refine ⟨5 ^ e, e, ?_, ?_⟩
    · rw [abs_of_nonneg (by positivity)]
      calc (5 : ℤ) ^ e ≤ 5 ^ 22 := pow_le_pow_right₀ (by norm_num) h
        _ ≤ 2 ^ 53 := by norm_num
    · rw [zpow_natCast]
      push_cast
      rw [← mul_pow]
      norm_num
  rw [rnd_double this]
  push_cast
  rfl

theorem trunc_int (n : ℤ) : trunc n = n := by
  unfold trunc
  split <;> simp

theorem trunc_bounds (x : ℚ) : |(trunc x : ℚ)| ≤ |x| ∧ |(trunc x : ℚ) - x| < 1 := by
  unfold trunc
  have h1 := Int.floor_le x
  have h2 := Int.lt_floor_add_one x
  have h3 := Int.le_ceil x
  have h4 := Int.ceil_lt_add_one x
  split
  · rename_i h
    have : (0 : ℚ) ≤ ⌊x⌋ := by exact_mod_cast Int.floor_nonneg.2 h
    rw [abs_of_nonneg this, abs_of_nonneg h, abs_lt]
    exact ⟨h1, by linarith, by linarith⟩
  · rename_i h
    have h0 : x ≤ 0 := by linarith
    have : (⌈x⌉ : ℚ) ≤ 0 := by exact_mod_cast Int.ceil_le.2 (by simpa using h0)
    rw [abs_of_nonpos this, abs_of_nonpos h0, abs_lt]
    exact ⟨by linarith, by linarith, by linarith⟩

theorem llround_eq {x : ℚ} {m : ℤ} (h : |x - m| < 1 / 2) (hm : |m| < 2 ^ 62) : llround x = .ok m := by
  rw [abs_lt] at h hm
  have hr : (if 0 ≤ x then ⌊x + 1 / 2⌋ else -⌊-x + 1 / 2⌋) = m := by
    split
    · rw [Int.floor_eq_iff]
      constructor <;> linarith
    · have : ⌊-x + 1 / 2⌋ = -m := by
        rw [Int.floor_eq_iff]
        push_cast
        constructor <;> linarith
      omega
  unfold llround
  simp only [hr]
  rw [if_pos (by omega)]

/-- The integers that a mantissa and a double can hold. -/
theorem setMantissa_eq (h : c.Good) {m : ℤ} {k : ℕ} (hm : m.natAbs ≤ c.maxMan) (hk : k ≤ c.maxExp) :
    ∃ d, fromMantissa c m k = .ok d ∧ d.WF c ∧ d.exp = k ∧ d.mantissa = m := by
  obtain ⟨d, h1, h2, h3, h4⟩ := fromMantissa_spec h (m := m) (k := k) (by omega) hk
  refine ⟨d, h1, h2, h3, ?_⟩
  have := h4.2 hm
  rw [value_eq, h3] at this
  have hp : (10 : ℚ) ^ k ≠ 0 := by positivity
  have := (div_left_inj' hp).1 this
  exact_mod_cast this

theorem toInt_eq (h : c.Good) {x : ℚ} (hx : |x| ≤ c.maxMan) : toInt c x = .ok (trunc x) ∧ (trunc x).natAbs ≤ c.maxMan := by
  have h1 := (trunc_bounds x).1
  have h2 : |(trunc x : ℚ)| ≤ c.maxMan := le_trans h1 hx
  have h3 : |trunc x| ≤ (c.maxMan : ℤ) := by exact_mod_cast h2
  have h4 := h.two_man
  have h5 : (trunc x).natAbs ≤ c.maxMan := by rw [Int.abs_eq_natAbs] at h3; omega
  refine ⟨?_, h5⟩
  unfold toInt
  apply sint_ok
  rw [abs_le] at h3
  omega

/-- `|v * 10^e|` fits: then the rounded product fits. -/
theorem rnd_fits {x : ℚ} {M : ℕ} (h1 : |x| ≤ 2 ^ 53) (h2 : |x| ≤ M) : |rnd x| ≤ M ∧ |rnd x| ≤ 2 ^ 53 := by
  have key : ∀ n : ℤ, 0 ≤ n → n ≤ 2 ^ 53 → |x| ≤ n → |rnd x| ≤ n := by
    intro n h0 hn hx
    rw [abs_le] at hx ⊢
    have e : rnd n = n := rnd_int (by rw [abs_of_nonneg h0]; exact hn)
    constructor
    · have := rnd_mono hx.1
      rw [rnd_neg, e] at this
      exact this
    · have := rnd_mono hx.2
      rw [e] at this
      exact this
  have k2 := key (2 ^ 53) (by norm_num) le_rfl (by push_cast; exact h1)
  push_cast at k2
  refine ⟨?_, k2⟩
  rcases le_total M (2 ^ 53) with h | h
  · have := key M (by positivity) (by exact_mod_cast h) (by exact_mod_cast h2)
    exact_mod_cast this
  · have : (2 : ℚ) ^ 53 ≤ M := by exact_mod_cast h
    linarith

theorem ofDigits_exp {k : ℕ} (hk : k ≤ c.maxExp) : (ofDigits c k).exp = k := by
  have := two_e_le (c := c)
  exact Nat.mod_eq_of_lt (by omega)

/-- What the functions that make a decimal of an integer `m` do. -/
theorem made (h : c.Good) {k : ℕ} (hk : k ≤ c.maxExp) {m : ℤ} (hm : m.natAbs ≤ c.maxMan) :
    ∃ d, (ofDigits c k).setMantissa c m = .ok d ∧ d.WF c ∧ d.exp = k ∧ d.mantissa = m := setMantissa_eq h hm hk

theorem makeDecimal_eq (h : c.Good) {k : ℕ} (hk : k ≤ c.maxExp) (h22 : k ≤ 22) {v : ℚ} (h1 : |v * 10 ^ k| ≤ 2 ^ 53) (h2 : |v * 10 ^ k| ≤ c.maxMan) :
    ∃ d, makeDecimal c v k = .ok d ∧ d.WF c ∧ d.exp = k ∧ d.mantissa = trunc (rnd (v * 10 ^ k)) := by
  obtain ⟨e1, e2⟩ := toInt_eq h (rnd_fits h1 h2).1
  obtain ⟨d, a, b⟩ := made h hk e2
  refine ⟨d, ?_, b⟩
  simp only [makeDecimal, assign, ofDigits_exp hk, h.denom hk, Res.ok_bind, rnd_ten h22, e1, a]

/-! ## C125 -/

/-- C125: the conversion to double is the double nearest to the number, for up to 2^53 as mantissa and 22 digits behind the point. -/
theorem c125_cast (h : c.Good) {d : Dec} (hd : d.WF c) (hm : d.man ≤ 2 ^ 53) (he : d.exp ≤ 22) :
    ∃ v, castD c d = .ok v ∧ IsDouble v ∧ ∀ z, IsDouble z → |v - d.value| ≤ |z - d.value| := by
  have hma : |d.mantissa| ≤ 2 ^ 53 := by
    have := mantissa_abs d
    rw [Int.abs_eq_natAbs]
    omega
  refine ⟨rnd d.value, ?_, rnd_isDouble _, fun z hz => rnd_nearest _ z hz⟩
  have hp : ¬ (10 ^ d.exp = 0) := by positivity
  simp only [castD, h.denom (WF.exp_le hd), Res.ok_bind, if_neg hp, rnd_int hma, rnd_ten he, value_eq]

theorem castD_eq (h : c.Good) {d : Dec} (hd : d.WF c) (hm : d.man ≤ 2 ^ 53) (he : d.exp ≤ 22) : castD c d = .ok (rnd d.value) := by
  have hma : |d.mantissa| ≤ 2 ^ 53 := by
    have := mantissa_abs d
    rw [Int.abs_eq_natAbs]
    omega
  have hp : ¬ (10 ^ d.exp = 0) := by positivity
  simp only [castD, h.denom (WF.exp_le hd), Res.ok_bind, if_neg hp, rnd_int hma, rnd_ten he, value_eq]

/-- C125: the order of decimals is that of their doubles. -/
theorem c125_order (h : c.Good) {x y : Dec} (hx : x.WF c) (hy : y.WF c) (mx : x.man ≤ 2 ^ 53) (my : y.man ≤ 2 ^ 53) (ex : x.exp ≤ 22) (ey : y.exp ≤ 22)
    (hxy : x.value ≤ y.value) : ∃ u v, castD c x = .ok u ∧ castD c y = .ok v ∧ u ≤ v :=
  ⟨_, _, castD_eq h hx mx ex, castD_eq h hy my ey, rnd_mono hxy⟩

/-- The error of the conversion and of the multiplication. -/
theorem back_error {m : ℤ} {D : ℚ} (hD : 0 < D) (hm : |m| < 2 ^ 51) : |rnd (rnd (m / D) * D) - m| < 1 / 2 := by
  have h1 := rnd_error (m / D)
  have h2 := rnd_error (rnd (m / D) * D)
  set v := rnd (m / D) with hv
  have hmq : |(m : ℚ)| ≤ 2 ^ 51 - 1 := by
    have : |m| ≤ 2 ^ 51 - 1 := by omega
    exact_mod_cast this
  have e1 : |v * D - m| ≤ |(m : ℚ)| / 2 ^ 53 := by
    have : v * D - m = (v - m / D) * D := by field_simp
    rw [this, abs_mul, abs_of_pos hD]
    rw [abs_div, abs_of_pos hD] at h1
    calc |v - m / D| * D ≤ |(m : ℚ)| / D / 2 ^ 53 * D := mul_le_mul_of_nonneg_right h1 (le_of_lt hD)
      _ = |(m : ℚ)| / 2 ^ 53 := by field_simp
  have e2 : |v * D| ≤ |(m : ℚ)| + |(m : ℚ)| / 2 ^ 53 := by
    calc |v * D| = |(v * D - m) + m| := by ring_nf
      _ ≤ |v * D - m| + |(m : ℚ)| := abs_add_le _ _
      _ ≤ _ := by linarith
  calc |rnd (v * D) - m| = |(rnd (v * D) - v * D) + (v * D - m)| := by ring_nf
    _ ≤ |rnd (v * D) - v * D| + |v * D - m| := abs_add_le _ _
    _ ≤ (|(m : ℚ)| + |(m : ℚ)| / 2 ^ 53) / 2 ^ 53 + |(m : ℚ)| / 2 ^ 53 := by
      have : |v * D| / 2 ^ 53 ≤ (|(m : ℚ)| + |(m : ℚ)| / 2 ^ 53) / 2 ^ 53 := div_le_div_of_nonneg_right e2 (by positivity)
      linarith
    _ < 1 / 2 := by
      have h0 : (0 : ℚ) ≤ |(m : ℚ)| := abs_nonneg _
      rw [show (|(m : ℚ)| + |(m : ℚ)| / 2 ^ 53) / 2 ^ 53 + |(m : ℚ)| / 2 ^ 53 = |(m : ℚ)| * ((2 + 1 / 2 ^ 53) / 2 ^ 53) by ring]
      calc |(m : ℚ)| * ((2 + 1 / 2 ^ 53) / 2 ^ 53) ≤ (2 ^ 51 - 1) * ((2 + 1 / 2 ^ 53) / 2 ^ 53) := mul_le_mul_of_nonneg_right hmq (by positivity)
        _ < 1 / 2 := by norm_num

/-- C125: a decimal of up to 15 significant digits (a mantissa below 2^51) that is converted to double comes back with `make_rounded`. -/
theorem c125_round_trip_partial (h : c.Good) (hw : 53 ≤ c.w) {d : Dec} (hd : d.WF c) (hm : d.man < 2 ^ 51) (he : d.exp ≤ 22) :
    ∃ v d', castD c d = .ok v ∧ makeRounded c v d.exp = .ok d' ∧ d'.WF c ∧ d'.exp = d.exp ∧ d'.mantissa = d.mantissa ∧ d'.value = d.value := by
  have hma := mantissa_abs d
  have hk := WF.exp_le hd
  have hml := WF.man_le hd
  obtain ⟨d', a, b1, b2, b3⟩ := made h hk (m := d.mantissa) (by omega)
  refine ⟨_, d', castD_eq h hd (by omega) he, ?_, b1, b2, b3, by rw [value_eq, value_eq, b2, b3]⟩
  have hp : (0 : ℚ) < 10 ^ d.exp := by positivity
  have hb := back_error (m := d.mantissa) hp (by rw [Int.abs_eq_natAbs]; omega)
  rw [← value_eq] at hb
  have hl := llround_eq hb (by rw [Int.abs_eq_natAbs]; omega)
  have hwr : wrapInt c d.mantissa = d.mantissa := by
    obtain ⟨w, hw'⟩ : ∃ w, c.w = w + 53 := ⟨c.w - 53, by omega⟩
    unfold wrapInt
    rw [hw', show w + 53 - 1 = w + 52 by omega]
    have h1 : (2 : ℤ) ^ (w + 53) = 2 * 2 ^ (w + 52) := by ring
    have h2 : (2 : ℤ) ^ 52 ≤ 2 ^ (w + 52) := pow_le_pow_right₀ (by norm_num) (by omega)
    rw [Int.emod_eq_of_lt (by omega) (by omega)]
    ring
  simp only [makeRounded, ofDigits_exp hk, h.denom hk, Res.ok_bind, rnd_ten he, hl, hwr, a]

/-- C125: so different decimals with the same number of digits have different doubles. -/
theorem c125_distinct_partial (h : c.Good) (hw : 53 ≤ c.w) {x y : Dec} (hx : x.WF c) (hy : y.WF c) (mx : x.man < 2 ^ 51) (my : y.man < 2 ^ 51)
    (ex : x.exp ≤ 22) (he : x.exp = y.exp) (hxy : castD c x = castD c y) : x.value = y.value := by
  obtain ⟨v, d, a1, a2, _, _, _, a3⟩ := c125_round_trip_partial h hw hx mx ex
  obtain ⟨v', d', b1, b2, _, _, _, b3⟩ := c125_round_trip_partial h hw hy my (he ▸ ex)
  rw [a1, b1] at hxy
  cases hxy
  rw [he, b2] at a2
  cases a2
  rw [← a3, ← b3]

theorem rnd_29 : rnd (29 / 100) = 5224175567749775 * 2 ^ (-54 : ℤ) := by
  have := rnd_eq (x := 29 / 100) 5224175567749775 (-54) (by norm_num) (by norm_num) (by norm_num)
  exact_mod_cast this

theorem rnd_29_100 : rnd (rnd (29 / 100) * 100) = 8162774324609023 * 2 ^ (-48 : ℤ) := by
  rw [rnd_29]
  have := rnd_eq (x := 5224175567749775 * 2 ^ (-54 : ℤ) * 100) 8162774324609023 (-48) (by norm_num) (by norm_num) (by norm_num)
  exact_mod_cast this

theorem trunc_29 : trunc (rnd (rnd (29 / 100) * 100)) = 28 := by
  rw [rnd_29_100]
  unfold trunc
  rw [if_pos (by norm_num), Int.floor_eq_iff]
  norm_num

theorem good64 : c64.Good := ⟨by decide, by decide, by decide⟩

/-- C125 is violated for the assignment, `make_decimal` and `make_truncated`: 0.29 as a double comes back as 0.28. -/
theorem c125_assign_violated : ∃ v, castD c64 ⟨true, 2, 29⟩ = .ok v ∧ makeDecimal c64 v 2 = .ok ⟨true, 2, 28⟩ ∧ assign c64 ⟨true, 2, 29⟩ v = .ok ⟨true, 2, 28⟩ := by
  refine ⟨rnd (29 / 100), ?_, ?_, ?_⟩
  · rw [castD_eq good64 ⟨by decide, by decide⟩ (by norm_num) (by norm_num)]
    norm_num [Dec.value]
  · simp only [makeDecimal, assign]
    rw [show (ofDigits c64 2).exp = 2 from rfl, good64.denom (by decide), Res.ok_bind, rnd_ten (by norm_num), show (10 : ℚ) ^ 2 = 100 by norm_num]
    unfold toInt
    rw [trunc_29]
    rfl
  · simp only [assign]
    rw [good64.denom (by decide), Res.ok_bind, rnd_ten (by norm_num), show (10 : ℚ) ^ 2 = 100 by norm_num]
    unfold toInt
    rw [trunc_29]
    rfl

/-- C125 is violated for more than 2^53: 9007199254740992 and 9007199254740993 are the same double. -/
theorem c125_digits_violated : castD c64 ⟨true, 0, 9007199254740992⟩ = castD c64 ⟨true, 0, 9007199254740993⟩ := by
  have h0 : rnd 9007199254740993 = 9007199254740992 := by
    have he : ulpExp 9007199254740993 = 1 := ulpExp_unique (by norm_num) (by norm_num)
    have hf : ⌊(9007199254740993 / 2 : ℚ)⌋ = 4503599627370496 := by rw [Int.floor_eq_iff]; norm_num
    unfold rnd roundEven
    rw [he, zpow_one, hf]
    norm_num
  have h1 : rnd 9007199254740992 = 9007199254740992 := by
    have := rnd_int (n := 9007199254740992) (by norm_num)
    exact_mod_cast this
  simp only [castD]
  rw [good64.denom (by decide)]
  simp only [Res.ok_bind, Dec.mantissa]
  norm_num [h0, h1]

/-- A price of 12345678.29. -/
example : Dec.WF c64 ⟨true, 2, 1234567829⟩ ∧ 1234567829 < 2 ^ 51 ∧ c64.Good ∧ 53 ≤ c64.w := ⟨⟨by decide, by decide⟩, by norm_num, good64, by decide⟩

/-! ## C126 -/

/-- C126: truncation, if the product is a number that a double can hold. -/
theorem c126_exact_partial (h : c.Good) {k : ℕ} (hk : k ≤ c.maxExp) (h22 : k ≤ 22) {v : ℚ} (h1 : |v * 10 ^ k| ≤ 2 ^ 53) (h2 : |v * 10 ^ k| ≤ c.maxMan)
    (hv : IsDouble (v * 10 ^ k)) : ∃ d, makeDecimal c v k = .ok d ∧ d.WF c ∧ d.exp = k ∧ |d.value| ≤ |v| ∧ |d.value - v| * 10 ^ k < 1 := by
  obtain ⟨d, a, b, e, m⟩ := makeDecimal_eq h hk h22 h1 h2
  rw [rnd_double hv] at m
  obtain ⟨t1, t2⟩ := trunc_bounds (v * 10 ^ k)
  have hp : (0 : ℚ) < 10 ^ k := by positivity
  refine ⟨d, a, b, e, ?_, ?_⟩
  · rw [value_eq, e, m, abs_div, abs_of_pos hp, div_le_iff₀ hp]
    rwa [abs_mul, abs_of_pos hp] at t1
  · rw [value_eq, e, m, ← abs_of_pos hp, ← abs_mul]
    simp only [abs_of_pos hp, sub_mul, div_mul_cancel₀ _ (ne_of_gt hp)]
    exact t2

/-- C126: in particular a number with so many digits is not changed. -/
theorem c126_same (h : c.Good) {k : ℕ} (hk : k ≤ c.maxExp) (h22 : k ≤ 22) {v : ℚ} {n : ℤ} (hn : v * 10 ^ k = n) (h1 : |n| ≤ 2 ^ 53) (h2 : |n| ≤ (c.maxMan : ℤ)) :
    ∃ d, makeDecimal c v k = .ok d ∧ d.exp = k ∧ d.value = v := by
  obtain ⟨d, a, b, e, m⟩ := makeDecimal_eq h hk h22 (v := v) (by rw [hn]; exact_mod_cast h1) (by rw [hn]; exact_mod_cast h2)
  refine ⟨d, a, e, ?_⟩
  have hp : (10 : ℚ) ^ k ≠ 0 := by positivity
  rw [value_eq, e, m, hn, rnd_int h1, trunc_int, ← hn]
  field_simp

/-- C126: for every number the error is less than one unit of the last digit and 2^-53 of the number. -/
theorem c126_error_partial (h : c.Good) {k : ℕ} (hk : k ≤ c.maxExp) (h22 : k ≤ 22) {v : ℚ} (h1 : |v * 10 ^ k| ≤ 2 ^ 53) (h2 : |v * 10 ^ k| ≤ c.maxMan) :
    ∃ d, makeDecimal c v k = .ok d ∧ d.exp = k ∧ |d.value - v| * 10 ^ k < 1 + |v * 10 ^ k| / 2 ^ 53 := by
  obtain ⟨d, a, b, e, m⟩ := makeDecimal_eq h hk h22 h1 h2
  have hp : (0 : ℚ) < 10 ^ k := by positivity
  refine ⟨d, a, e, ?_⟩
  have hv : |d.value - v| * 10 ^ k = |(trunc (rnd (v * 10 ^ k)) : ℚ) - v * 10 ^ k| := by
    rw [value_eq, e, m]
    generalize rnd (v * 10 ^ k) = y
    rw [show (trunc y : ℚ) - v * 10 ^ k = ((trunc y : ℚ) / 10 ^ k - v) * 10 ^ k by rw [sub_mul, div_mul_cancel₀ _ (ne_of_gt hp)], abs_mul, abs_of_pos hp]
  rw [hv]
  calc _ = |((trunc (rnd (v * 10 ^ k)) : ℚ) - rnd (v * 10 ^ k)) + (rnd (v * 10 ^ k) - v * 10 ^ k)| := by ring_nf
    _ ≤ |(trunc (rnd (v * 10 ^ k)) : ℚ) - rnd (v * 10 ^ k)| + |rnd (v * 10 ^ k) - v * 10 ^ k| := abs_add_le _ _
    _ < _ := by
      have t := (trunc_bounds (rnd (v * 10 ^ k))).2
      have r := rnd_error (v * 10 ^ k)
      linarith

theorem half_up (x : ℚ) (h : |x| ≤ 2 ^ 53) : ∃ r : ℤ, llround x = .ok r ∧ |(r : ℚ) - x| ≤ 1 / 2 ∧ |(r : ℚ)| ≤ |x| + 1 / 2 := by
  set r : ℤ := if 0 ≤ x then ⌊x + 1 / 2⌋ else -⌊-x + 1 / 2⌋ with hr
  have hd : |(r : ℚ) - x| ≤ 1 / 2 := by
    rw [hr, abs_le]
    split
    · have h1 := Int.floor_le (x + 1 / 2)
      have h2 := Int.lt_floor_add_one (x + 1 / 2)
      constructor <;> linarith
    · have h1 := Int.floor_le (-x + 1 / 2)
      have h2 := Int.lt_floor_add_one (-x + 1 / 2)
      push_cast
      constructor <;> linarith
  have ha : |(r : ℚ)| ≤ |x| + 1 / 2 := by
    calc |(r : ℚ)| = |((r : ℚ) - x) + x| := by ring_nf
      _ ≤ |(r : ℚ) - x| + |x| := abs_add_le _ _
      _ ≤ _ := by linarith
  refine ⟨r, ?_, hd, ha⟩
  have hb : |(r : ℚ)| < 2 ^ 63 := by linarith [show (2 : ℚ) ^ 53 + 1 / 2 < 2 ^ 63 by norm_num]
  have hb' : |r| < 2 ^ 63 := by exact_mod_cast hb
  rw [abs_lt] at hb'
  unfold llround
  simp only [← hr]
  exact if_pos ⟨le_of_lt hb'.1, hb'.2⟩

theorem wrapInt_eq (h : c.Good) {m : ℤ} (hm : m.natAbs ≤ c.maxMan) : wrapInt c m = m := by
  have h4 := h.two_man
  have hw : 1 ≤ c.w := by have := h.man; omega
  obtain ⟨w, hw'⟩ : ∃ w, c.w = w + 1 := ⟨c.w - 1, by omega⟩
  unfold wrapInt
  rw [hw'] at h4 ⊢
  rw [show w + 1 - 1 = w by omega] at h4 ⊢
  have h1 : (2 : ℤ) ^ (w + 1) = 2 * 2 ^ w := by ring
  have h5 : (2 * c.maxMan : ℤ) < 2 ^ w := by exact_mod_cast h4
  rw [Int.emod_eq_of_lt (by omega) (by omega)]
  ring

/-- C126: `make_rounded` is off by at most half a unit of the last digit and 2^-53 of the number. -/
theorem c126_rounded_partial (h : c.Good) {k : ℕ} (hk : k ≤ c.maxExp) (h22 : k ≤ 22) {v : ℚ} (h1 : |v * 10 ^ k| ≤ 2 ^ 53) (h2 : |v * 10 ^ k| + 1 ≤ c.maxMan) :
    ∃ d, makeRounded c v k = .ok d ∧ d.WF c ∧ d.exp = k ∧ |d.value - v| * 10 ^ k ≤ 1 / 2 + |v * 10 ^ k| / 2 ^ 53 := by
  have hp : (0 : ℚ) < 10 ^ k := by positivity
  have hm1 : 1 ≤ c.maxMan := by
    have : (1 : ℚ) ≤ c.maxMan := le_trans (by linarith [abs_nonneg (v * 10 ^ k)]) h2
    exact_mod_cast this
  have hM : ((c.maxMan - 1 : ℕ) : ℚ) = c.maxMan - 1 := by push_cast [hm1]; rfl
  obtain ⟨f1, f2⟩ := rnd_fits (M := c.maxMan - 1) h1 (by rw [hM]; linarith)
  rw [hM] at f1
  obtain ⟨r, r1, r2, r3⟩ := half_up _ f2
  have hr : |(r : ℚ)| ≤ c.maxMan := by linarith
  have hr' : |r| ≤ (c.maxMan : ℤ) := by exact_mod_cast hr
  have hn : r.natAbs ≤ c.maxMan := by rw [Int.abs_eq_natAbs] at hr'; omega
  obtain ⟨d, a, b1, b2, b3⟩ := made h hk hn
  refine ⟨d, ?_, b1, b2, ?_⟩
  · simp only [makeRounded, ofDigits_exp hk, h.denom hk, Res.ok_bind, rnd_ten h22, r1, wrapInt_eq h hn, a]
  · have hv : |d.value - v| * 10 ^ k = |(r : ℚ) - v * 10 ^ k| := by
      rw [value_eq, b2, b3, show (r : ℚ) - v * 10 ^ k = ((r : ℚ) / 10 ^ k - v) * 10 ^ k by rw [sub_mul, div_mul_cancel₀ _ (ne_of_gt hp)], abs_mul, abs_of_pos hp]
    rw [hv]
    have e := rnd_error (v * 10 ^ k)
    calc _ = |((r : ℚ) - rnd (v * 10 ^ k)) + (rnd (v * 10 ^ k) - v * 10 ^ k)| := by ring_nf
      _ ≤ |(r : ℚ) - rnd (v * 10 ^ k)| + |rnd (v * 10 ^ k) - v * 10 ^ k| := abs_add_le _ _
      _ ≤ _ := by linarith

theorem fits_int (h : c.Good) {n : ℤ} (hn : |n| ≤ (c.maxMan : ℤ)) : toInt c (n : ℚ) = .ok n := by
  have : |(n : ℚ)| ≤ c.maxMan := by exact_mod_cast hn
  rw [(toInt_eq h this).1, trunc_int]

/-- C126: `make_floored` and `make_ceiled` enclose the number, if the product is a number that a double can hold. -/
theorem c126_enclosed_partial (h : c.Good) {k : ℕ} (hk : k ≤ c.maxExp) (h22 : k ≤ 22) {v : ℚ} (h2 : |v * 10 ^ k| ≤ c.maxMan)
    (hv : IsDouble (v * 10 ^ k)) : ∃ a b, makeFloored c v k = .ok a ∧ makeCeiled c v k = .ok b ∧ a.exp = k ∧ b.exp = k ∧ a.value ≤ v ∧ v ≤ b.value ∧
      (v - a.value) * 10 ^ k < 1 ∧ (b.value - v) * 10 ^ k < 1 := by
  have hp : (0 : ℚ) < 10 ^ k := by positivity
  have f1 := Int.floor_le (v * 10 ^ k)
  have f2 := Int.lt_floor_add_one (v * 10 ^ k)
  have g1 := Int.le_ceil (v * 10 ^ k)
  have g2 := Int.ceil_lt_add_one (v * 10 ^ k)
  have hb := abs_le.1 h2
  have hf : |⌊v * 10 ^ k⌋| ≤ (c.maxMan : ℤ) := by
    rw [abs_le]
    refine ⟨Int.le_floor.2 (by push_cast; exact hb.1), ?_⟩
    have : (⌊v * 10 ^ k⌋ : ℚ) ≤ c.maxMan := le_trans f1 hb.2
    exact_mod_cast this
  have hc : |⌈v * 10 ^ k⌉| ≤ (c.maxMan : ℤ) := by
    rw [abs_le]
    refine ⟨?_, Int.ceil_le.2 (by push_cast; exact hb.2)⟩
    have : (-(c.maxMan : ℤ) : ℚ) ≤ ⌈v * 10 ^ k⌉ := by push_cast; exact le_trans hb.1 g1
    exact_mod_cast this
  obtain ⟨a, a1, _, a3, a4⟩ := made h hk (m := ⌊v * 10 ^ k⌋) (by rw [Int.abs_eq_natAbs] at hf; omega)
  obtain ⟨b, b1, _, b3, b4⟩ := made h hk (m := ⌈v * 10 ^ k⌉) (by rw [Int.abs_eq_natAbs] at hc; omega)
  refine ⟨a, b, ?_, ?_, a3, b3, ?_, ?_, ?_, ?_⟩
  · simp only [makeFloored, ofDigits_exp hk, h.denom hk, Res.ok_bind, rnd_ten h22, rnd_double hv, fits_int h hf, a1]
  · simp only [makeCeiled, ofDigits_exp hk, h.denom hk, Res.ok_bind, rnd_ten h22, rnd_double hv, fits_int h hc, b1]
  · rw [value_eq, a3, a4, div_le_iff₀ hp]
    exact f1
  · rw [value_eq, b3, b4, le_div_iff₀ hp]
    exact g1
  · rw [value_eq, a3, a4, sub_mul, div_mul_cancel₀ _ (ne_of_gt hp)]
    linarith
  · rw [value_eq, b3, b4, sub_mul, div_mul_cancel₀ _ (ne_of_gt hp)]
    linarith

theorem rnd_15 : rnd (15 / 100) = 5404319552844595 * 2 ^ (-55 : ℤ) := by
  have := rnd_eq (x := 15 / 100) 5404319552844595 (-55) (by norm_num) (by norm_num) (by norm_num)
  exact_mod_cast this

theorem rnd_15_100 : rnd (rnd (15 / 100) * 100) = 15 := by
  rw [rnd_15]
  have := rnd_eq (x := 5404319552844595 * 2 ^ (-55 : ℤ) * 100) (15 * 2 ^ 49) (-49) (by norm_num) (by norm_num) (by norm_num)
  rw [this]
  norm_num

theorem rnd_1 : rnd (1 / 100) = 5764607523034235 * 2 ^ (-59 : ℤ) := by
  have := rnd_eq (x := 1 / 100) 5764607523034235 (-59) (by norm_num) (by norm_num) (by norm_num)
  exact_mod_cast this

theorem rnd_1_100 : rnd (rnd (1 / 100) * 100) = 1 := by
  rw [rnd_1]
  have := rnd_eq (x := 5764607523034235 * 2 ^ (-59 : ℤ) * 100) (2 ^ 52) (-52) (by norm_num) (by norm_num) (by norm_num)
  rw [this]
  norm_num

/-- C126 is violated: the double 0.15 is less than 15/100, but truncated and floored it is 15/100. -/
theorem c126_larger_violated : rnd (15 / 100) < 15 / 100 ∧ makeDecimal c64 (rnd (15 / 100)) 2 = .ok ⟨true, 2, 15⟩ ∧
    makeFloored c64 (rnd (15 / 100)) 2 = .ok ⟨true, 2, 15⟩ := by
  refine ⟨by rw [rnd_15]; norm_num, ?_, ?_⟩
  · simp only [makeDecimal, assign]
    rw [show (ofDigits c64 2).exp = 2 from rfl, good64.denom (by decide), Res.ok_bind, rnd_ten (by norm_num), show (10 : ℚ) ^ 2 = 100 by norm_num, rnd_15_100,
      show (15 : ℚ) = ((15 : ℤ) : ℚ) by norm_num, fits_int good64 (by decide)]
    rfl
  · simp only [makeFloored]
    rw [show (ofDigits c64 2).exp = 2 from rfl, good64.denom (by decide), Res.ok_bind, rnd_ten (by norm_num), show (10 : ℚ) ^ 2 = 100 by norm_num, rnd_15_100,
      show ⌊(15 : ℚ)⌋ = 15 by rw [Int.floor_eq_iff]; norm_num, fits_int good64 (by decide)]
    rfl

/-- C126 is violated: the double 0.01 is greater than 1/100, but rounded up it is 1/100. -/
theorem c126_smaller_violated : 1 / 100 < rnd (1 / 100) ∧ makeCeiled c64 (rnd (1 / 100)) 2 = .ok ⟨true, 2, 1⟩ := by
  refine ⟨by rw [rnd_1]; norm_num, ?_⟩
  simp only [makeCeiled]
  rw [show (ofDigits c64 2).exp = 2 from rfl, good64.denom (by decide), Res.ok_bind, rnd_ten (by norm_num), show (10 : ℚ) ^ 2 = 100 by norm_num, rnd_1_100,
    show ⌈(1 : ℚ)⌉ = 1 by rw [Int.ceil_eq_iff]; norm_num, fits_int good64 (by decide)]
  rfl

/-- C126 is violated: 2^59 is stored as 0 without an exception, and 2^63 is undefined behaviour. -/
theorem c126_large_violated : makeDecimal c64 (2 ^ 59) 0 = .ok ⟨true, 0, 0⟩ ∧ makeDecimal c64 (2 ^ 63) 0 = .ub := by
  have r1 : rnd (2 ^ 59) = 2 ^ 59 := rnd_double ⟨1, 59, by norm_num, by norm_num⟩
  have r2 : rnd (2 ^ 63) = 2 ^ 63 := rnd_double ⟨1, 63, by norm_num, by norm_num⟩
  have t1 : trunc (2 ^ 59) = 2 ^ 59 := by have := trunc_int (2 ^ 59); exact_mod_cast this
  have t2 : trunc (2 ^ 63) = 2 ^ 63 := by have := trunc_int (2 ^ 63); exact_mod_cast this
  constructor
  · simp only [makeDecimal, assign]
    rw [show (ofDigits c64 0).exp = 0 from rfl, good64.denom (by decide), Res.ok_bind, rnd_ten (by norm_num), pow_zero, mul_one, r1]
    unfold toInt
    rw [t1]
    rfl
  · simp only [makeDecimal, assign]
    rw [show (ofDigits c64 0).exp = 0 from rfl, good64.denom (by decide), Res.ok_bind, rnd_ten (by norm_num), pow_zero, mul_one, r2]
    unfold toInt
    rw [t2]
    rfl

/-- 2.625 with two digits: the product 262.5 is a double. -/
example : IsDouble (2625 / 1000 * 10 ^ 2) ∧ |(2625 / 1000 * 10 ^ 2 : ℚ)| ≤ 2 ^ 53 ∧ |(2625 / 1000 * 10 ^ 2 : ℚ)| ≤ c64.maxMan :=
  ⟨⟨525, -1, by norm_num, by norm_num⟩, by norm_num, by
    have : c64.maxMan = 2 ^ 59 - 1 := rfl
    rw [this]
    norm_num⟩

/-! ## C127 -/

/-- C127: adding a double with so many digits is exact. -/
theorem c127_add_exact (h : c.Good) {d : Dec} (hd : d.WF c) (h22 : d.exp ≤ 22) {v : ℚ} {n : ℤ} (hn : v * 10 ^ d.exp = n) (h1 : |n| ≤ 2 ^ 53)
    (h2 : |n| ≤ (c.maxMan : ℤ)) (hs : |(d.value + v) * 10 ^ d.exp| ≤ c.maxMan) : ∃ r, addD c d v = .ok r ∧ r.exp = d.exp ∧ r.value = d.value + v := by
  have hk := WF.exp_le hd
  obtain ⟨o, a, b, e, m⟩ := makeDecimal_eq h hk h22 (v := v) (by rw [hn]; exact_mod_cast h1) (by rw [hn]; exact_mod_cast h2)
  have hp : (10 : ℚ) ^ d.exp ≠ 0 := by positivity
  have ov : o.value = v := by
    rw [value_eq, e, m, hn, rnd_int h1, trunc_int, ← hn]
    field_simp
  have hx : |d.at d.exp| ≤ c.maxMan := by
    have := WF.man_le hd
    rw [Dec.at, value_eq, div_mul_cancel₀ _ hp]
    have h3 := mantissa_abs d
    have : |d.mantissa| ≤ (c.maxMan : ℤ) := by rw [Int.abs_eq_natAbs]; omega
    exact_mod_cast this
  have hy : |o.at d.exp| ≤ c.maxMan := by
    rw [Dec.at, ov, hn]
    exact_mod_cast h2
  obtain ⟨r, r1, _, r3, r4⟩ := (c25_add_partial h hd b (k := d.exp) (by omega)).2 ⟨hx, hy⟩
  refine ⟨r, ?_, r3, ?_⟩
  · have : makeOther c d v = .ok o := a
    simp only [addD, this, Res.ok_bind, r1]
  · rw [r4.2 (by rw [ov]; exact hs), ov]

/-- C127: adding any double is off by less than one unit of the last digit and 2^-53 of the double. -/
theorem c127_add_partial (h : c.Good) {d : Dec} (hd : d.WF c) (h22 : d.exp ≤ 22) {v : ℚ} (h1 : |v * 10 ^ d.exp| ≤ 2 ^ 53) (h2 : |v * 10 ^ d.exp| ≤ c.maxMan)
    (hs : |d.mantissa| + |v * 10 ^ d.exp| + 2 ≤ c.maxMan) :
    ∃ r, addD c d v = .ok r ∧ r.exp = d.exp ∧ |r.value - (d.value + v)| * 10 ^ d.exp < 1 + |v * 10 ^ d.exp| / 2 ^ 53 := by
  have hk := WF.exp_le hd
  obtain ⟨o, a, b, e, m⟩ := makeDecimal_eq h hk h22 h1 h2
  obtain ⟨o', a', e', err⟩ := c126_error_partial h hk h22 h1 h2
  rw [a] at a'
  cases a'
  have hp : (0 : ℚ) < 10 ^ d.exp := by positivity
  have hpn : (10 : ℚ) ^ d.exp ≠ 0 := by positivity
  have hx : |d.at d.exp| ≤ c.maxMan := by
    rw [Dec.at, value_eq, div_mul_cancel₀ _ hpn]
    have : (0 : ℚ) ≤ |v * 10 ^ d.exp| := abs_nonneg _
    have h3 : ((|d.mantissa| : ℤ) : ℚ) = |(d.mantissa : ℚ)| := by push_cast; rfl
    linarith
  have hy : |o.at d.exp| ≤ c.maxMan := by
    rw [Dec.at, value_eq, e, div_mul_cancel₀ _ hpn]
    have := WF.man_le b
    have h3 := mantissa_abs o
    have : |o.mantissa| ≤ (c.maxMan : ℤ) := by rw [Int.abs_eq_natAbs]; omega
    exact_mod_cast this
  obtain ⟨r, r1, _, r3, r4⟩ := (c25_add_partial h hd b (k := d.exp) (by omega)).2 ⟨hx, hy⟩
  have hval : r.value = d.value + o.value := by
    rw [r4, add_mul]
    have t1 : d.value * 10 ^ d.exp = d.mantissa := by rw [value_eq, div_mul_cancel₀ _ hpn]
    have t2 : |o.value * 10 ^ d.exp| ≤ |v * 10 ^ d.exp| + 2 := by
      have e1 : o.value * 10 ^ d.exp = (o.value - v) * 10 ^ d.exp + v * 10 ^ d.exp := by ring
      have e2 : |(o.value - v) * 10 ^ d.exp| < 2 := by
        rw [abs_mul, abs_of_pos hp]
        have : |v * 10 ^ d.exp| / 2 ^ 53 ≤ 1 := by
          rw [div_le_one (by positivity)]
          exact h1
        linarith
      rw [e1]
      have := abs_add_le ((o.value - v) * 10 ^ d.exp) (v * 10 ^ d.exp)
      linarith
    rw [t1]
    have := abs_add_le (d.mantissa : ℚ) (o.value * 10 ^ d.exp)
    have h3 : ((|d.mantissa| : ℤ) : ℚ) = |(d.mantissa : ℚ)| := by push_cast; rfl
    linarith
  refine ⟨r, ?_, r3, ?_⟩
  · have : makeOther c d v = .ok o := a
    simp only [addD, this, Res.ok_bind, r1]
  · rw [hval, show d.value + o.value - (d.value + v) = o.value - v by ring]
    exact err

/-- C127: subtracting a double with so many digits is exact. -/
theorem c127_sub_exact (h : c.Good) {d : Dec} (hd : d.WF c) (h22 : d.exp ≤ 22) {v : ℚ} {n : ℤ} (hn : v * 10 ^ d.exp = n) (h1 : |n| ≤ 2 ^ 53)
    (h2 : |n| ≤ (c.maxMan : ℤ)) (hs : |(d.value - v) * 10 ^ d.exp| ≤ c.maxMan) : ∃ r, subD c d v = .ok r ∧ r.exp = d.exp ∧ r.value = d.value - v := by
  have hk := WF.exp_le hd
  obtain ⟨o, a, b, e, m⟩ := makeDecimal_eq h hk h22 (v := v) (by rw [hn]; exact_mod_cast h1) (by rw [hn]; exact_mod_cast h2)
  have hp : (10 : ℚ) ^ d.exp ≠ 0 := by positivity
  have ov : o.value = v := by
    rw [value_eq, e, m, hn, rnd_int h1, trunc_int, ← hn]
    field_simp
  have hx : |d.at d.exp| ≤ c.maxMan := by
    have := WF.man_le hd
    rw [Dec.at, value_eq, div_mul_cancel₀ _ hp]
    have h3 := mantissa_abs d
    have : |d.mantissa| ≤ (c.maxMan : ℤ) := by rw [Int.abs_eq_natAbs]; omega
    exact_mod_cast this
  have hy : |o.at d.exp| ≤ c.maxMan := by
    rw [Dec.at, ov, hn]
    exact_mod_cast h2
  obtain ⟨r, r1, _, r3, r4⟩ := (c25_sub_partial h hd b (k := d.exp) (by omega)).2 ⟨hx, hy⟩
  refine ⟨r, ?_, r3, ?_⟩
  · have : makeOther c d v = .ok o := a
    simp only [subD, this, Res.ok_bind, r1]
  · rw [r4.2 (by rw [ov]; exact hs), ov]

/-- C127: subtracting any double is off by less than one unit of the last digit and 2^-53 of the double. -/
theorem c127_sub_partial (h : c.Good) {d : Dec} (hd : d.WF c) (h22 : d.exp ≤ 22) {v : ℚ} (h1 : |v * 10 ^ d.exp| ≤ 2 ^ 53) (h2 : |v * 10 ^ d.exp| ≤ c.maxMan)
    (hs : |d.mantissa| + |v * 10 ^ d.exp| + 2 ≤ c.maxMan) :
    ∃ r, subD c d v = .ok r ∧ r.exp = d.exp ∧ |r.value - (d.value - v)| * 10 ^ d.exp < 1 + |v * 10 ^ d.exp| / 2 ^ 53 := by
  have hk := WF.exp_le hd
  obtain ⟨o, a, b, e, m⟩ := makeDecimal_eq h hk h22 h1 h2
  obtain ⟨o', a', e', err⟩ := c126_error_partial h hk h22 h1 h2
  rw [a] at a'
  cases a'
  have hp : (0 : ℚ) < 10 ^ d.exp := by positivity
  have hpn : (10 : ℚ) ^ d.exp ≠ 0 := by positivity
  have hx : |d.at d.exp| ≤ c.maxMan := by
    rw [Dec.at, value_eq, div_mul_cancel₀ _ hpn]
    have : (0 : ℚ) ≤ |v * 10 ^ d.exp| := abs_nonneg _
    have h3 : ((|d.mantissa| : ℤ) : ℚ) = |(d.mantissa : ℚ)| := by push_cast; rfl
    linarith
  have hy : |o.at d.exp| ≤ c.maxMan := by
    rw [Dec.at, value_eq, e, div_mul_cancel₀ _ hpn]
    have := WF.man_le b
    have h3 := mantissa_abs o
    have : |o.mantissa| ≤ (c.maxMan : ℤ) := by rw [Int.abs_eq_natAbs]; omega
    exact_mod_cast this
  obtain ⟨r, r1, _, r3, r4⟩ := (c25_sub_partial h hd b (k := d.exp) (by omega)).2 ⟨hx, hy⟩
  have hval : r.value = d.value - o.value := by
    rw [r4, sub_mul]
    have t1 : d.value * 10 ^ d.exp = d.mantissa := by rw [value_eq, div_mul_cancel₀ _ hpn]
    have t2 : |o.value * 10 ^ d.exp| ≤ |v * 10 ^ d.exp| + 2 := by
      have e1 : o.value * 10 ^ d.exp = (o.value - v) * 10 ^ d.exp + v * 10 ^ d.exp := by ring
      have e2 : |(o.value - v) * 10 ^ d.exp| < 2 := by
        rw [abs_mul, abs_of_pos hp]
        have : |v * 10 ^ d.exp| / 2 ^ 53 ≤ 1 := by
          rw [div_le_one (by positivity)]
          exact h1
        linarith
      rw [e1]
      have := abs_add_le ((o.value - v) * 10 ^ d.exp) (v * 10 ^ d.exp)
      linarith
    rw [t1]
    have := abs_sub (d.mantissa : ℚ) (o.value * 10 ^ d.exp)
    have h3 : ((|d.mantissa| : ℤ) : ℚ) = |(d.mantissa : ℚ)| := by push_cast; rfl
    linarith
  refine ⟨r, ?_, r3, ?_⟩
  · have : makeOther c d v = .ok o := a
    simp only [subD, this, Res.ok_bind, r1]
  · rw [hval, show d.value - o.value - (d.value - v) = -(o.value - v) by ring, abs_neg]
    exact err

/-- C127: multiplication by a double is off by less than one unit of the last digit and 2^-51 of the product. -/
theorem c127_mul_partial (h : c.Good) {d : Dec} (hd : d.WF c) (hm : d.man ≤ 2 ^ 53) (h22 : d.exp ≤ 22) {a : ℚ} (h1 : |d.value * a * 10 ^ d.exp| ≤ 2 ^ 52)
    (h2 : |d.value * a * 10 ^ d.exp| + 2 ≤ c.maxMan) :
    ∃ r, mulAssign c d a = .ok r ∧ r.exp = d.exp ∧ |r.value - d.value * a| * 10 ^ d.exp < 1 + |d.value * a * 10 ^ d.exp| / 2 ^ 51 := by
  have hk := WF.exp_le hd
  have hp : (0 : ℚ) < 10 ^ d.exp := by positivity
  have hcast := castD_eq h hd hm h22
  set D : ℚ := 10 ^ d.exp with hD
  set p : ℚ := d.value * a with hpd
  set b := rnd d.value with hb
  set x := rnd (a * b) with hx
  -- the errors of the two roundings
  have eb := rnd_error d.value
  rw [← hb] at eb
  have e1 : |a * b - p| ≤ |p| / 2 ^ 53 := by
    rw [show a * b - p = a * (b - d.value) by rw [hpd]; ring, abs_mul]
    calc |a| * |b - d.value| ≤ |a| * (|d.value| / 2 ^ 53) := mul_le_mul_of_nonneg_left eb (abs_nonneg _)
      _ = |p| / 2 ^ 53 := by rw [hpd, abs_mul]; ring
  have e2 := rnd_error (a * b)
  rw [← hx] at e2
  have e3 : |a * b| ≤ |p| + |p| / 2 ^ 53 := by
    calc |a * b| = |(a * b - p) + p| := by ring_nf
      _ ≤ |a * b - p| + |p| := abs_add_le _ _
      _ ≤ _ := by linarith
  have hp0 : 0 ≤ |p| := abs_nonneg _
  have e4 : |x - p| ≤ |p| * (5 / 2 / 2 ^ 53) := by
    calc |x - p| = |(x - a * b) + (a * b - p)| := by ring_nf
      _ ≤ |x - a * b| + |a * b - p| := abs_add_le _ _
      _ ≤ (|p| + |p| / 2 ^ 53) / 2 ^ 53 + |p| / 2 ^ 53 := by
        have : |a * b| / 2 ^ 53 ≤ (|p| + |p| / 2 ^ 53) / 2 ^ 53 := div_le_div_of_nonneg_right e3 (by positivity)
        linarith
      _ = |p| * ((2 + 1 / 2 ^ 53) / 2 ^ 53) := by ring
      _ ≤ |p| * (5 / 2 / 2 ^ 53) := mul_le_mul_of_nonneg_left (by norm_num) hp0
  have e5 : |x * D - p * D| ≤ |p * D| * (5 / 2 / 2 ^ 53) := by
    rw [← sub_mul, abs_mul, abs_mul, abs_of_pos hp]
    calc |x - p| * D ≤ |p| * (5 / 2 / 2 ^ 53) * D := mul_le_mul_of_nonneg_right e4 (le_of_lt hp)
      _ = _ := by ring
  have e6 : |x * D| ≤ |p * D| * (1 + 5 / 2 / 2 ^ 53) := by
    calc |x * D| = |(x * D - p * D) + p * D| := by ring_nf
      _ ≤ |x * D - p * D| + |p * D| := abs_add_le _ _
      _ ≤ _ := by linarith
  have q0 : 0 ≤ |p * D| := abs_nonneg _
  have f1 : |x * D| ≤ 2 ^ 53 := by
    calc |x * D| ≤ |p * D| * (1 + 5 / 2 / 2 ^ 53) := e6
      _ ≤ 2 ^ 52 * (1 + 5 / 2 / 2 ^ 53) := mul_le_mul_of_nonneg_right h1 (by positivity)
      _ ≤ 2 ^ 53 := by norm_num
  have f2 : |x * D| ≤ c.maxMan := by
    have : |p * D| * (5 / 2 / 2 ^ 53) ≤ 2 ^ 52 * (5 / 2 / 2 ^ 53) := mul_le_mul_of_nonneg_right h1 (by positivity)
    have : (2 : ℚ) ^ 52 * (5 / 2 / 2 ^ 53) ≤ 2 := by norm_num
    linarith
  obtain ⟨r, r1, r2, r3⟩ := c126_error_partial h hk h22 f1 f2
  refine ⟨r, ?_, r2, ?_⟩
  · have : makeOther c d x = .ok r := r1
    simp only [mulAssign, mulD, hcast, Res.ok_bind]
    exact this
  · calc |r.value - p| * D = |(r.value - x) * D + (x * D - p * D)| := by
          nth_rewrite 1 [← abs_of_pos hp]
          rw [← abs_mul]
          ring_nf
      _ ≤ |(r.value - x) * D| + |x * D - p * D| := abs_add_le _ _
      _ < 1 + |x * D| / 2 ^ 53 + |p * D| * (5 / 2 / 2 ^ 53) := by
        rw [abs_mul, abs_of_pos hp]
        linarith
      _ ≤ 1 + |p * D| * (1 + 5 / 2 / 2 ^ 53) / 2 ^ 53 + |p * D| * (5 / 2 / 2 ^ 53) := by
        have : |x * D| / 2 ^ 53 ≤ |p * D| * (1 + 5 / 2 / 2 ^ 53) / 2 ^ 53 := div_le_div_of_nonneg_right e6 (by positivity)
        linarith
      _ ≤ _ := by
        have : |p * D| * (1 + 5 / 2 / 2 ^ 53) / 2 ^ 53 + |p * D| * (5 / 2 / 2 ^ 53) = |p * D| * ((7 / 2 + 5 / 2 / 2 ^ 53) / 2 ^ 53) := by ring
        have h8 : |p * D| * ((7 / 2 + 5 / 2 / 2 ^ 53) / 2 ^ 53) ≤ |p * D| * (1 / 2 ^ 51) := mul_le_mul_of_nonneg_left (by norm_num) q0
        have h9 : |p * D| / 2 ^ 51 = |p * D| * (1 / 2 ^ 51) := by ring
        linarith

/-- C127: division by a double, in the same way. -/
theorem c127_div_partial (h : c.Good) {d : Dec} (hd : d.WF c) (hm : d.man ≤ 2 ^ 53) (h22 : d.exp ≤ 22) {a : ℚ} (ha : a ≠ 0)
    (h1 : |d.value / a * 10 ^ d.exp| ≤ 2 ^ 52) (h2 : |d.value / a * 10 ^ d.exp| + 2 ≤ c.maxMan) :
    ∃ r, divAssign c d a = .ok r ∧ r.exp = d.exp ∧ |r.value - d.value / a| * 10 ^ d.exp < 1 + |d.value / a * 10 ^ d.exp| / 2 ^ 51 := by
  obtain ⟨r, r1, r2⟩ := c127_mul_partial h hd hm h22 (a := a⁻¹) h1 h2
  refine ⟨r, ?_, r2⟩
  rw [← r1]
  simp only [divAssign, mulAssign, mulD, castD_eq h hd hm h22, Res.ok_bind, if_neg ha, div_eq_mul_inv, mul_comm]

/-- C127 is violated: adding 0.29 to 0.00 gives 0.28, and 0.29 times or divided by one is 0.28. -/
theorem c127_neutral_violated : addD c64 ⟨true, 2, 0⟩ (rnd (29 / 100)) = .ok ⟨true, 2, 28⟩ ∧ mulAssign c64 ⟨true, 2, 29⟩ 1 = .ok ⟨true, 2, 28⟩ ∧
    divAssign c64 ⟨true, 2, 29⟩ 1 = .ok ⟨true, 2, 28⟩ := by
  obtain ⟨v, h1, h2, _⟩ := c125_assign_violated
  have hc : castD c64 ⟨true, 2, 29⟩ = .ok (rnd (29 / 100)) := by
    rw [castD_eq good64 ⟨by decide, by decide⟩ (by norm_num) (by norm_num)]
    norm_num [Dec.value]
  rw [hc] at h1
  cases h1
  have hr : rnd (rnd (29 / 100)) = rnd (29 / 100) := rnd_double (rnd_isDouble _)
  refine ⟨?_, ?_, ?_⟩
  · have : makeOther c64 ⟨true, 2, 0⟩ (rnd (29 / 100)) = .ok ⟨true, 2, 28⟩ := h2
    simp only [addD, this, Res.ok_bind]
    rfl
  · simp only [mulAssign, mulD, hc, Res.ok_bind, one_mul, hr]
    exact h2
  · simp only [divAssign, hc, Res.ok_bind, div_one, hr, if_neg one_ne_zero]
    exact h2

/-- 12.50 plus 0.75. -/
example : Dec.WF c64 ⟨true, 2, 1250⟩ ∧ (75 / 100 : ℚ) * 10 ^ 2 = (75 : ℤ) ∧ c64.Good := ⟨⟨by decide, by decide⟩, by norm_num, good64⟩

end Verif.Double
