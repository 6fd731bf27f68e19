import Verif.Double.IntModel
import Verif.Double.Props

/-!
# C132: a decimal made of an integer is that integer, and the integer part of a decimal is its integer part

Specification: `Dec.value`, the number a decimal stands for, a rational number; the integer part of a number is the integer next to it towards zero.
-/

namespace Verif.Double

open Verif Verif.Decimal

variable {c : Cfg}

/-- The integer part: the largest integer not above a number that is not negative, and symmetric. -/
def IntPart (x : ℚ) (n : ℤ) : Prop := (0 ≤ x → (n : ℚ) ≤ x ∧ x < n + 1) ∧ (x < 0 → x ≤ n ∧ (n : ℚ) - 1 < x)

/-! ### Helpers -/

theorem mantissa_lt {d : Dec} {B : ℕ} (h : d.man < B) : |(d.mantissa : ℚ)| < B := by
  have h1 := mantissa_abs d
  have h2 : |d.mantissa| < (B : ℤ) := by rw [Int.abs_eq_natAbs]; omega
  exact_mod_cast h2

/-- A quotient does not reach the next integer by rounding. -/
theorem quotient_lt {m : ℤ} {D : ℕ} (hD : 0 < D) (hm : |(m : ℚ)| < 2 ^ 53) {N : ℤ} (h : (m : ℚ) / D < N) : rnd ((m : ℚ) / D) < N := by
  have hp : (0 : ℚ) < D := by exact_mod_cast hD
  have h1 := abs_le.1 (rnd_error ((m : ℚ) / D))
  rw [abs_div, abs_of_pos hp] at h1
  have h2 : (m : ℚ) < N * D := (div_lt_iff₀ hp).1 h
  have h3 : (m : ℤ) + 1 ≤ N * D := by
    have : m < N * D := by exact_mod_cast h2
    omega
  have h4 : (m : ℚ) + 1 ≤ N * D := by exact_mod_cast h3
  have h5 : (m : ℚ) / D + 1 / D ≤ N := by rw [← add_div, div_le_iff₀ hp]; exact h4
  have h6 : |(m : ℚ)| / D / 2 ^ 53 < 1 / D := by
    rw [div_div, div_lt_div_iff₀ (by positivity) hp, one_mul, mul_comm]
    exact mul_lt_mul_of_pos_left hm hp
  linarith [h1.2]

theorem quotient_gt {m : ℤ} {D : ℕ} (hD : 0 < D) (hm : |(m : ℚ)| < 2 ^ 53) {N : ℤ} (h : (N : ℚ) < (m : ℚ) / D) : (N : ℚ) < rnd ((m : ℚ) / D) := by
  have h1 := quotient_lt (m := -m) hD (by push_cast; rwa [abs_neg]) (N := -N) (by push_cast; rw [neg_div]; linarith)
  push_cast at h1
  rw [neg_div, rnd_neg] at h1
  linarith

theorem quotient_eq {m : ℤ} {D : ℕ} (hD : 0 < D) (hm : |(m : ℚ)| < 2 ^ 53) {N : ℤ} (h : (m : ℚ) / D = N) : rnd ((m : ℚ) / D) = N := by
  have hp : (1 : ℚ) ≤ D := by exact_mod_cast hD
  rw [h]
  apply rnd_int
  have h1 : |(N : ℚ)| ≤ |(m : ℚ)| := by
    rw [← h, abs_div, abs_of_pos (by linarith : (0 : ℚ) < D)]
    exact div_le_self (abs_nonneg _) hp
  have : |(N : ℚ)| ≤ 2 ^ 53 := by linarith
  exact_mod_cast this

theorem trunc_quotient {m : ℤ} {D : ℕ} (hD : 0 < D) (hm : |(m : ℚ)| < 2 ^ 53) : trunc (rnd ((m : ℚ) / D)) = trunc ((m : ℚ) / D) := by
  have h0 : 0 ≤ rnd ((m : ℚ) / D) ↔ 0 ≤ (m : ℚ) / D := by
    constructor
    · intro h
      by_contra hn
      have := quotient_lt hD hm (N := 0) (by push_cast; linarith)
      push_cast at this
      linarith
    · exact rnd_nonneg
  unfold trunc
  by_cases hx : 0 ≤ (m : ℚ) / D
  · rw [if_pos hx, if_pos (h0.2 hx), Int.floor_eq_iff]
    constructor
    · rcases lt_or_eq_of_le (Int.floor_le ((m : ℚ) / D)) with h | h
      · exact le_of_lt (quotient_gt hD hm h)
      · exact le_of_eq (quotient_eq hD hm h.symm).symm
    · have := quotient_lt hD hm (N := ⌊(m : ℚ) / D⌋ + 1) (by push_cast; exact Int.lt_floor_add_one _)
      push_cast at this
      exact this
  · rw [if_neg hx, if_neg (fun h => hx (h0.1 h)), Int.ceil_eq_iff]
    constructor
    · have := quotient_gt hD hm (N := ⌈(m : ℚ) / D⌉ - 1) (by push_cast; linarith [Int.ceil_lt_add_one ((m : ℚ) / D)])
      push_cast at this
      exact this
    · rcases lt_or_eq_of_le (Int.le_ceil ((m : ℚ) / D)) with h | h
      · exact le_of_lt (quotient_lt hD hm h)
      · exact le_of_eq (quotient_eq hD hm h)

theorem intPart_trunc (x : ℚ) : IntPart x (trunc x) := by
  unfold trunc
  constructor
  · intro h
    rw [if_pos h]
    exact ⟨Int.floor_le x, Int.lt_floor_add_one x⟩
  · intro h
    rw [if_neg (not_le.2 h)]
    exact ⟨Int.le_ceil x, by linarith [Int.ceil_lt_add_one x]⟩

theorem IntPart.unique {x : ℚ} {n m : ℤ} (hn : IntPart x n) (hm : IntPart x m) : n = m := by
  rcases le_or_gt 0 x with h | h
  · have h1 := hn.1 h
    have h2 := hm.1 h
    have h3 : (n : ℚ) < m + 1 := by linarith
    have h4 : (m : ℚ) < n + 1 := by linarith
    have h5 : n < m + 1 := by exact_mod_cast h3
    have h6 : m < n + 1 := by exact_mod_cast h4
    omega
  · have h1 := hn.2 h
    have h2 := hm.2 h
    have h3 : (n : ℚ) - 1 < m := by linarith
    have h4 : (m : ℚ) - 1 < n := by linarith
    have h5 : n - 1 < m := by exact_mod_cast h3
    have h6 : m - 1 < n := by exact_mod_cast h4
    omega

theorem IntTy.wrap_eq {t : IntTy} (hb : 1 ≤ t.bits) {x : ℤ} (h : t.lo ≤ x ∧ x ≤ t.hi) : t.wrap x = x := by
  unfold IntTy.wrap
  have hp : (2 : ℤ) ^ t.bits = 2 * 2 ^ (t.bits - 1) := by
    obtain ⟨b, hb'⟩ : ∃ b, t.bits = b + 1 := ⟨t.bits - 1, by omega⟩
    rw [hb', Nat.add_sub_cancel, pow_succ, mul_comm]
  have hr : t.hi - t.lo < 2 ^ t.bits := by
    unfold IntTy.hi IntTy.lo
    split <;> omega
  rw [Int.emod_eq_of_lt (by omega) (by omega)]
  omega

/-! ### The property -/

/-- An integer `n` with `k` digits, if `n` and `n * 10^k` are numbers that a double can hold and a mantissa can hold the latter: the decimal is `n`. -/
theorem c132_make_partial (h : c.Good) {k : ℕ} (hk : k ≤ c.maxExp) (h22 : k ≤ 22) {n : ℤ} (h1 : IsDouble n) (h2 : IsDouble (n * 10 ^ k)) (h3 : |n * 10 ^ k| ≤ (c.maxMan : ℤ)) :
    ∃ d, makeInt c n k = .ok d ∧ d.WF c ∧ d.exp = k ∧ d.value = n := by
  have e0 : rnd (rnd (n : ℚ) * 10 ^ k) = ((n * 10 ^ k : ℤ) : ℚ) := by
    rw [rnd_double h1, rnd_double h2]; push_cast; rfl
  have e1 := fits_int h h3
  obtain ⟨d, a, b, e, m⟩ := made h hk (m := n * 10 ^ k) (by rw [Int.abs_eq_natAbs] at h3; omega)
  refine ⟨d, ?_, b, e, ?_⟩
  · simp only [makeInt, assignInt, assign, ofDigits_exp hk, h.denom hk, Res.ok_bind, rnd_ten h22, e0, e1, a]
  · have hp : (10 : ℚ) ^ k ≠ 0 := by positivity
    rw [value_eq, e, m]
    push_cast
    field_simp

/-- In particular if `n * 10^k` is at most 2^53. -/
theorem c132_make_small_partial (h : c.Good) {k : ℕ} (hk : k ≤ c.maxExp) (h22 : k ≤ 22) {n : ℤ} (h2 : |n * 10 ^ k| ≤ 2 ^ 53) (h3 : |n * 10 ^ k| ≤ (c.maxMan : ℤ)) :
    ∃ d, makeInt c n k = .ok d ∧ d.WF c ∧ d.exp = k ∧ d.value = n := by
  refine c132_make_partial h hk h22 (isDouble_int ?_) ?_ h3
  · refine le_trans ?_ h2
    rw [abs_mul, abs_of_pos (by positivity : (0 : ℤ) < 10 ^ k)]
    exact le_mul_of_one_le_right (abs_nonneg _) (one_le_pow₀ (by norm_num))
  · have := isDouble_int h2
    push_cast at this
    exact this

/-- The cast to an integer type gives the integer part, if the mantissa is below 2^53 and the type can hold the mantissa. -/
theorem c132_cast_partial (h : c.Good) {d : Dec} (hd : d.WF c) (hm : d.man < 2 ^ 53) (he : d.exp ≤ 22) {t : IntTy} (hb : 1 ≤ t.bits)
    (ht : t.lo ≤ d.mantissa ∧ d.mantissa ≤ t.hi) : ∃ n, castInt c t d = .ok n ∧ IntPart d.value n := by
  have hma : |d.mantissa| ≤ 2 ^ 53 := by
    have := mantissa_abs d
    rw [Int.abs_eq_natAbs]
    omega
  have hml : |(d.mantissa : ℚ)| < 2 ^ 53 := by have := mantissa_lt hm; push_cast at this; exact this
  have hp : ¬ (10 ^ d.exp = 0) := by positivity
  have hv : d.value = (d.mantissa : ℚ) / ((10 ^ d.exp : ℕ) : ℚ) := by rw [value_eq]; push_cast; rfl
  have hq : trunc (rnd ((d.mantissa : ℚ) / ((10 ^ d.exp : ℕ) : ℚ))) = trunc d.value := by
    rw [trunc_quotient (by positivity) hml, hv]
  refine ⟨trunc d.value, ?_, intPart_trunc _⟩
  have hr : t.lo ≤ trunc d.value ∧ trunc d.value ≤ t.hi := by
    have hlo : t.lo ≤ 0 := by unfold IntTy.lo; split
                              · have : (0 : ℤ) < 2 ^ (t.bits - 1) := by positivity
                                omega
                              · omega
    have hp1 : (1 : ℚ) ≤ ((10 ^ d.exp : ℕ) : ℚ) := by exact_mod_cast Nat.one_le_pow _ _ (by norm_num)
    have hp0 : (0 : ℚ) < ((10 ^ d.exp : ℕ) : ℚ) := by linarith
    have hi := intPart_trunc d.value
    rcases le_or_gt 0 d.mantissa with hs | hs
    · have hs' : (0 : ℚ) ≤ d.mantissa := by exact_mod_cast hs
      have hv0 : 0 ≤ d.value := by rw [hv]; positivity
      have hv1 : d.value ≤ d.mantissa := by rw [hv]; exact div_le_self hs' hp1
      have h1 := hi.1 hv0
      have h2 : ((trunc d.value : ℤ) : ℚ) ≤ (d.mantissa : ℚ) := by linarith
      have h3 : trunc d.value ≤ d.mantissa := by exact_mod_cast h2
      have h4 : (0 : ℚ) < ((trunc d.value : ℤ) : ℚ) + 1 := by linarith
      have h5 : 0 < trunc d.value + 1 := by exact_mod_cast h4
      omega
    · have hs' : (d.mantissa : ℚ) < 0 := by exact_mod_cast hs
      have hv0 : d.value < 0 := by rw [hv]; exact div_neg_of_neg_of_pos hs' hp0
      have hv1 : (d.mantissa : ℚ) ≤ d.value := by
        rw [hv, le_div_iff₀ hp0]
        nlinarith
      have h1 := hi.2 hv0
      have h2 : (d.mantissa : ℚ) ≤ ((trunc d.value : ℤ) : ℚ) := by linarith
      have h3 : d.mantissa ≤ trunc d.value := by exact_mod_cast h2
      have h4 : ((trunc d.value : ℤ) : ℚ) - 1 < 0 := by linarith
      have h5 : trunc d.value - 1 < 0 := by exact_mod_cast h4
      have hhi : 0 ≤ t.hi := by
        unfold IntTy.hi
        have h6 : (0 : ℤ) < 2 ^ (t.bits - 1) := by positivity
        have h7 : (0 : ℤ) < 2 ^ t.bits := by positivity
        split <;> omega
      omega
  unfold castInt
  rw [h.denom (WF.exp_le hd), Res.ok_bind]
  simp only [if_neg hp, IntTy.wrap_eq hb ht, rnd_int hma, rnd_ten he]
  rw [show ((10 : ℚ) ^ d.exp) = ((10 ^ d.exp : ℕ) : ℚ) by push_cast; rfl, hq, if_pos hr]

/-- An integer comes back. -/
theorem c132_round_trip_partial (h : c.Good) {k : ℕ} (hk : k ≤ c.maxExp) (h22 : k ≤ 22) {n : ℤ} (h2 : |n * 10 ^ k| < 2 ^ 53) (h3 : |n * 10 ^ k| ≤ (c.maxMan : ℤ))
    {t : IntTy} (hb : 1 ≤ t.bits) (ht : t.lo ≤ n * 10 ^ k ∧ n * 10 ^ k ≤ t.hi) : ∃ d, makeInt c n k = .ok d ∧ castInt c t d = .ok n := by
  obtain ⟨d, h4, h5, h6, h7⟩ := c132_make_small_partial h hk h22 (le_of_lt h2) h3
  have hm : d.mantissa = n * 10 ^ k := by
    have hp : (10 : ℚ) ^ k ≠ 0 := by positivity
    rw [value_eq, h6, div_eq_iff hp] at h7
    exact_mod_cast h7
  obtain ⟨n', h8, h9⟩ := c132_cast_partial h h5 (by
    have := mantissa_abs d
    rw [hm] at this
    rw [Int.abs_eq_natAbs] at h2
    omega) (by rw [h6]; exact h22) hb (by rw [hm]; exact ht)
  refine ⟨d, h4, ?_⟩
  rw [h8]
  congr 1
  refine h9.unique ⟨fun _ => ?_, fun _ => ?_⟩ <;> rw [h7] <;> constructor <;> linarith

/-- Comparisons with integers are those of the numbers, if the mantissa is below 2^53 and the integer not above it. -/
theorem c132_compare_partial (h : c.Good) {d : Dec} (hd : d.WF c) (hm : d.man < 2 ^ 53) (he : d.exp ≤ 22) {n : ℤ} (hn : |n| ≤ 2 ^ 53) :
    lessInt c d n = .ok (decide (d.value < n)) ∧ equalInt c d n = .ok (decide (d.value = n)) ∧ greaterInt c d n = .ok (decide ((n : ℚ) < d.value)) := by
  have hml : |(d.mantissa : ℚ)| < 2 ^ 53 := by have := mantissa_lt hm; push_cast at this; exact this
  have hv : d.value = (d.mantissa : ℚ) / ((10 ^ d.exp : ℕ) : ℚ) := by rw [value_eq]; push_cast; rfl
  have hD : 0 < 10 ^ d.exp := by positivity
  unfold lessInt equalInt greaterInt
  rw [castD_eq h hd (le_of_lt hm) he, Res.ok_bind, Res.ok_bind, Res.ok_bind, rnd_int hn]
  rcases lt_trichotomy d.value n with h1 | h1 | h1
  · have h2 : rnd d.value < n := by rw [hv] at h1 ⊢; exact quotient_lt hD hml h1
    refine ⟨?_, ?_, ?_⟩ <;> congr 1 <;> rw [decide_eq_decide]
    · exact ⟨fun _ => h1, fun _ => h2⟩
    · exact ⟨fun h => by rw [h] at h2; exact absurd h2 (lt_irrefl _), fun h => by rw [h] at h1; exact absurd h1 (lt_irrefl _)⟩
    · exact ⟨fun h => absurd (lt_trans h h2) (lt_irrefl _), fun h => absurd (lt_trans h h1) (lt_irrefl _)⟩
  · have h2 : rnd d.value = n := by rw [hv] at h1 ⊢; exact quotient_eq hD hml h1
    rw [h2, h1]
    exact ⟨rfl, rfl, rfl⟩
  · have h2 : (n : ℚ) < rnd d.value := by rw [hv] at h1 ⊢; exact quotient_gt hD hml h1
    refine ⟨?_, ?_, ?_⟩ <;> congr 1 <;> rw [decide_eq_decide]
    · exact ⟨fun h => absurd (lt_trans h h2) (lt_irrefl _), fun h => absurd (lt_trans h h1) (lt_irrefl _)⟩
    · exact ⟨fun h => by rw [h] at h2; exact absurd h2 (lt_irrefl _), fun h => by rw [h] at h1; exact absurd h1 (lt_irrefl _)⟩
    · exact ⟨fun _ => h1, fun _ => h2⟩

/-! ### Violations -/

theorem rnd_53 : rnd 9007199254740993 = 9007199254740992 := by
  have he : ulpExp 9007199254740993 = 1 := ulpExp_unique (by norm_num) (by norm_num)
  have hf : ⌊(9007199254740993 / 2 : ℚ)⌋ = 4503599627370496 := by rw [Int.floor_eq_iff]; norm_num
  unfold rnd roundEven
  rw [he, zpow_one, hf]
  norm_num

/-- C132 is violated: 9007199254740993 (2^53 + 1), which a decimal can hold, becomes 9007199254740992 without an exception; 1000000000 with 9 digits becomes
423539247.696576512. -/
theorem c132_make_violated : makeInt c64 9007199254740993 0 = .ok ⟨true, 0, 9007199254740992⟩ ∧ makeInt c64 1000000000 9 = .ok ⟨true, 9, 423539247696576512⟩ := by
  constructor
  · simp only [makeInt, assignInt, assign]
    rw [show (ofDigits c64 0).exp = 0 from rfl, good64.denom (by decide), Res.ok_bind, rnd_ten (by norm_num), pow_zero, mul_one]
    push_cast
    rw [rnd_53]
    have r : rnd 9007199254740992 = 9007199254740992 := by
      have := rnd_int (n := 9007199254740992) (by norm_num)
      exact_mod_cast this
    have t : trunc 9007199254740992 = 9007199254740992 := by have := trunc_int 9007199254740992; exact_mod_cast this
    rw [r]
    unfold toInt
    rw [t]
    rfl
  · simp only [makeInt, assignInt, assign]
    rw [show (ofDigits c64 9).exp = 9 from rfl, good64.denom (by decide), Res.ok_bind, rnd_ten (by norm_num), rnd_int (n := 1000000000) (by norm_num)]
    have r : rnd (((1000000000 : ℤ) : ℚ) * 10 ^ 9) = 1000000000000000000 := by
      have h : IsDouble (((1000000000 : ℤ) : ℚ) * 10 ^ 9) := ⟨3814697265625, 18, by norm_num, by norm_num⟩
      rw [rnd_double h]
      norm_num
    have t : trunc 1000000000000000000 = 1000000000000000000 := by have := trunc_int 1000000000000000000; exact_mod_cast this
    rw [r]
    unfold toInt
    rw [t]
    rfl

/-- C132 is violated: `cast<int>()` of 30.00000000 is -12, because the mantissa is converted before it is divided. -/
theorem c132_cast_violated : castInt c64 ⟨32, true⟩ ⟨true, 8, 3000000000⟩ = .ok (-12) ∧ Dec.value ⟨true, 8, 3000000000⟩ = 30 := by
  constructor
  · unfold castInt
    rw [good64.denom (by decide), Res.ok_bind]
    simp only [show ¬ (10 ^ 8 = 0) by norm_num, if_false]
    have w : IntTy.wrap ⟨32, true⟩ (Dec.mantissa ⟨true, 8, 3000000000⟩) = -1294967296 := by decide
    have r1 := rnd_int (n := -1294967296) (by norm_num)
    have t : trunc (rnd (((-1294967296 : ℤ) : ℚ) / ((10 ^ 8 : ℕ) : ℚ))) = -12 := by
      rw [trunc_quotient (by norm_num) (by norm_num)]
      unfold trunc
      rw [if_neg (by norm_num), Int.ceil_eq_iff]
      norm_num
    rw [w, r1, rnd_ten (by norm_num), show ((10 : ℚ) ^ 8) = ((10 ^ 8 : ℕ) : ℚ) by norm_num, t]
    decide
  · norm_num [Dec.value]

/-- C132 is violated for large mantissas: `cast<int64_t>()` of 99.999999999999999 is 100, and it compares equal to 100. -/
theorem c132_round_up_violated : castInt c64 ⟨64, true⟩ ⟨true, 15, 99999999999999999⟩ = .ok 100 ∧ equalInt c64 ⟨true, 15, 99999999999999999⟩ 100 = .ok true ∧
    Dec.value ⟨true, 15, 99999999999999999⟩ < 100 := by
  have r1 : rnd 99999999999999999 = 100000000000000000 := by
    have := rnd_eq (x := 99999999999999999) 6250000000000000 4 (by norm_num) (by norm_num) (by norm_num [abs_lt])
    rw [this]
    norm_num
  have r2 : rnd ((100000000000000000 : ℚ) / 10 ^ 15) = 100 := by
    rw [show (100000000000000000 : ℚ) / 10 ^ 15 = ((100 : ℤ) : ℚ) by norm_num, rnd_int (by norm_num)]
    norm_num
  have rd : rnd 1000000000000000 = 10 ^ 15 := by have := rnd_ten (e := 15) (by norm_num); push_cast at this; norm_num at this ⊢; exact this
  have r3 : rnd ((100 : ℤ) : ℚ) = 100 := by rw [rnd_int (by norm_num)]; norm_num
  have m : Dec.mantissa ⟨true, 15, 99999999999999999⟩ = 99999999999999999 := by decide
  refine ⟨?_, ?_, ?_⟩
  · unfold castInt
    rw [good64.denom (by decide), Res.ok_bind]
    simp only [show ¬ (10 ^ 15 = 0) by norm_num, if_false]
    have w : IntTy.wrap ⟨64, true⟩ 99999999999999999 = 99999999999999999 := by decide
    have t : trunc 100 = 100 := by have := trunc_int 100; exact_mod_cast this
    rw [m, w]
    push_cast
    rw [r1, rd, r2, t]
    decide
  · unfold equalInt castD
    rw [good64.denom (by decide), Res.ok_bind]
    simp only [show ¬ (10 ^ 15 = 0) by norm_num, if_false]
    rw [m]
    push_cast
    rw [r1, rd, r2, Res.ok_bind]
    have := r3
    push_cast at this
    rw [this]
    rfl
  · norm_num [Dec.value]

/-! ### Examples -/

/-- 1234 with two digits, to `int`. -/
example : c64.Good ∧ 2 ≤ c64.maxExp ∧ |1234 * 10 ^ 2| < (2 : ℤ) ^ 53 ∧ |1234 * 10 ^ 2| ≤ (c64.maxMan : ℤ) ∧ (IntTy.mk 32 true).lo ≤ 1234 * 10 ^ 2 ∧ 1234 * 10 ^ 2 ≤ (IntTy.mk 32 true).hi :=
  ⟨good64, by decide, by norm_num, by decide, by decide, by decide⟩

/-- 10^17 is a double, though it is above 2^53. -/
example : IsDouble ((10 ^ 17 : ℤ) : ℚ) ∧ |(10 ^ 17 : ℤ) * 10 ^ 0| ≤ (c64.maxMan : ℤ) := ⟨⟨762939453125, 17, by norm_num, by norm_num⟩, by decide⟩

example : IntPart (-29 / 10) (-2) := ⟨fun h => by norm_num at h, fun _ => by norm_num⟩

end Verif.Double
