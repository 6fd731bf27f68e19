import Verif.Decimal.FormulaSpec
import Verif.Decimal.Props
import Verif.Decimal.BalanceProps

/-! # C160: a formula calculated in decimals is exact -/

namespace Verif.Decimal

variable {c : Cfg}

/-! ## Lemmas -/

theorem whole_iff {k : Nat} {x : ℚ} : Whole k x ↔ OnGrid k x := by
  have p : (10 : ℚ) ^ k ≠ 0 := by positivity
  constructor
  · rintro ⟨n, h⟩; exact ⟨n, by rw [eq_div_iff p, h]⟩
  · rintro ⟨n, h⟩; exact ⟨n, by rw [h, div_mul_cancel₀ _ p]⟩

theorem whole_mono {j k : Nat} (h : j ≤ k) {x : ℚ} (hx : Whole j x) : Whole k x := by
  obtain ⟨n, hn⟩ := hx
  refine ⟨n * 10 ^ (k - j), ?_⟩
  rw [show k = j + (k - j) by omega, pow_add, ← mul_assoc, hn]
  simp

theorem whole_value (d : Dec) : Whole d.exp d.value := whole_iff.2 (onGrid_value d)

theorem needs_unique {j k : Nat} {x : ℚ} (hj : Needs j x) (hk : Needs k x) : j = k := by
  rcases lt_trichotomy j k with h | h | h
  · exact absurd hj.1 (hk.2 j h)
  · exact h
  · exact absurd hk.1 (hj.2 k h)

theorem normal_needs {d : Dec} (h : d.Normal) : Needs d.exp d.value := by
  refine ⟨whole_value d, fun j hj hw => ?_⟩
  obtain ⟨n, hn⟩ := whole_mono (show j ≤ d.exp - 1 by omega) hw
  have he : d.exp = (d.exp - 1) + 1 := by omega
  have p : (10 : ℚ) ^ (d.exp - 1) ≠ 0 := by positivity
  have hm : (d.mantissa : ℚ) = n * 10 := by
    rw [value_eq] at hn
    have e : (10 : ℚ) ^ d.exp = 10 ^ (d.exp - 1) * 10 := by rw [← pow_succ, ← he]
    rw [e, div_mul_eq_mul_div, div_eq_iff (by positivity)] at hn
    have : (d.mantissa : ℚ) * 10 ^ (d.exp - 1) = n * 10 * 10 ^ (d.exp - 1) := by rw [hn]; ring
    exact mul_right_cancel₀ p this
  have hm' : d.mantissa = n * 10 := by exact_mod_cast hm
  rcases h.2 with h0 | h0 | h0
  · rw [h.1 h0] at hj; omega
  · omega
  · apply h0
    simp only [Dec.mantissa] at hm'
    split at hm' <;> omega

/-- A decimal that is read from a text has no zeros at the end. -/
theorem fromString_needs (h : c.Wide) {t ds fs : List Nat} {neg : Bool} {k : Nat} (ht : t ≠ []) (hl : Literal t neg ds fs) (hlen : fs.length ≤ 255)
    (hn : Needs k (literalValue neg ds fs)) (hk : k ≤ c.maxExp) (hm : |literalValue neg ds fs * 10 ^ k| ≤ c.maxMan) :
    ∃ d, fromString c t = .ok d ∧ d.WF c ∧ d.value = literalValue neg ds fs ∧ d.exp = k := by
  have e1 := two_e_le (c := c)
  have e2 := maxMan_succ (c := c)
  obtain ⟨-, -, -, h4⟩ := c28_parse_partial h ht
  obtain ⟨h5, h6⟩ := h4 neg ds fs hl hlen
  obtain ⟨n, hn1⟩ := hn.1
  have hp : (10 : ℚ) ^ k ≠ 0 := by positivity
  have hex : ∃ d : Dec, d.WF c ∧ d.value = literalValue neg ds fs := by
    refine ⟨⟨decide (0 ≤ n), k, n.natAbs⟩, ⟨by simp only; omega, ?_⟩, ?_⟩
    · rw [hn1, ← natAbs_le_iff] at hm
      simp only; omega
    · rw [value_eq, eq_comm, eq_div_iff hp, hn1]
      have hi : (if decide (0 ≤ n) = true then (n.natAbs : Int) else -n.natAbs) = n := by
        split <;> rename_i hc <;> simp only [decide_eq_true_eq] at hc <;> omega
      simp only [Dec.mantissa, hi]
  obtain ⟨d, hd⟩ := h5.2 hex
  obtain ⟨w, v, -⟩ := h6 d hd
  refine ⟨d, hd, w, v, needs_unique (x := d.value) ?_ (by rw [v]; exact hn)⟩
  refine normal_needs ?_
  rw [fromString_literal h hl ht hlen] at hd
  split at hd
  · rw [Res.ok.injEq] at hd
    subst hd
    have hz : ∀ m, m = number ds * 10 ^ (strip fs).length + number (strip fs) → (strip fs).length ≠ 0 → m % 10 ≠ 0 := by
      rintro m rfl hs
      obtain ⟨_, hf, _⟩ := hl
      rcases strip_last fs hf with h0 | h0
      · exact absurd (by rw [h0]; rfl) hs
      · rw [show (strip fs).length = ((strip fs).length - 1) + 1 by omega, pow_succ]
        have : number ds * (10 ^ ((strip fs).length - 1) * 10) = 10 * (number ds * 10 ^ ((strip fs).length - 1)) := by ring
        omega
    refine ⟨fun h0 => ?_, ?_⟩
    · by_contra hs
      exact hz _ rfl hs (by simp only at h0; omega)
    · by_cases hs : (strip fs).length = 0
      · exact .inr (.inl hs)
      · exact .inr (.inr (hz _ rfl hs))
  · exact absurd hd (by simp)

theorem abs_value (d : Dec) : |d.value| = (d.man : ℚ) / 10 ^ d.exp := by
  have nn : (0 : ℚ) ≤ (d.man : ℚ) / 10 ^ d.exp := by positivity
  cases hp : d.pos
  · rw [value_neg hp, abs_neg, abs_of_nonneg nn]
  · rw [value_pos hp, abs_of_nonneg nn]

/-- The truncated number is known by its properties. -/
theorem trunc_unique {k : Nat} {x y z : ℚ} (hy : Whole k y) (hz : Whole k z) (sy : 0 ≤ x * y) (sz : 0 ≤ x * z) (ly : |y| ≤ |x|) (lz : |z| ≤ |x|)
    (uy : |x| < |y| + 1 / 10 ^ k) (uz : |x| < |z| + 1 / 10 ^ k) : y = z := by
  have grid : ∀ {w : ℚ}, Whole k w → OnGrid k |w| := by
    intro w hw
    rcases abs_choice w with h | h <;> rw [h]
    · exact whole_iff.1 hw
    · obtain ⟨n, hn⟩ := whole_iff.1 hw
      exact ⟨-n, by rw [hn]; push_cast; rw [neg_div]⟩
  have h1 : |y| = |z| := le_antisymm (grid_gap (grid hy) (grid hz) (lt_of_le_of_lt ly uz)) (grid_gap (grid hz) (grid hy) (lt_of_le_of_lt lz uy))
  rcases abs_eq_abs.1 h1 with h | h
  · exact h
  · subst h
    have hx : x * z = 0 := by nlinarith
    rcases mul_eq_zero.1 hx with h0 | h0
    · rw [h0, abs_zero] at lz
      have := abs_nonpos_iff.1 lz
      rw [this]; simp
    · rw [h0]; simp

/-- A formula is calculated exactly. -/
theorem formula_exact (h : c.Wide) {f : Formula} {x : ℚ} {k : Nat} (hf : Calculates c f x k) : ∃ d, f.eval c = .ok d ∧ d.WF c ∧ d.value = x ∧ d.exp = k := by
  induction hf with
  | text ht hl hlen hn hk hm => exact fromString_needs h ht hl hlen hn hk hm
  | @add a b x y j k n _ _ hn h1 h2 h3 iha ihb =>
    obtain ⟨dx, ex, wx, vx, kx⟩ := iha
    obtain ⟨dy, ey, wy, vy, ky⟩ := ihb
    obtain ⟨d, e1, e2, e3, e4, -⟩ := add_exact h.toGood wx wy (k := n) (by omega) (by rw [Dec.at, vx]; exact h1) (by rw [Dec.at, vy]; exact h2) (by rw [vx, vy]; exact h3)
    exact ⟨d, by simp only [Formula.eval, ex, ey, Res.ok_bind, e1], e2, by rw [e4, vx, vy], by omega⟩
  | @sub a b x y j k n _ _ hn h1 h2 h3 iha ihb =>
    obtain ⟨dx, ex, wx, vx, kx⟩ := iha
    obtain ⟨dy, ey, wy, vy, ky⟩ := ihb
    obtain ⟨d, e1, e2, e3, e4⟩ := (c25_sub_partial h.toGood wx wy (k := n) (by omega)).2 ⟨by rw [Dec.at, vx]; exact h1, by rw [Dec.at, vy]; exact h2⟩
    exact ⟨d, by simp only [Formula.eval, ex, ey, Res.ok_bind, e1], e2, by rw [e4.2 (by rw [vx, vy]; exact h3), vx, vy], e3⟩
  | @mul a b x y j k _ _ h1 h2 iha ihb =>
    obtain ⟨dx, ex, wx, vx, kx⟩ := iha
    obtain ⟨dy, ey, wy, vy, ky⟩ := ihb
    have hm : dx.man * dy.man ≤ c.maxMan := by
      have px : (10 : ℚ) ^ dx.exp ≠ 0 := by positivity
      have py : (10 : ℚ) ^ dy.exp ≠ 0 := by positivity
      rw [← vx, ← vy, ← kx, ← ky, abs_mul, abs_mul, abs_value, abs_value, abs_of_pos (show (0 : ℚ) < 10 ^ (dx.exp + dy.exp) by positivity), pow_add] at h2
      have : (dx.man : ℚ) / 10 ^ dx.exp * (dy.man / 10 ^ dy.exp) * (10 ^ dx.exp * 10 ^ dy.exp) = dx.man * dy.man := by field_simp
      rw [this] at h2
      exact_mod_cast h2
    obtain ⟨d, e1, e2, e3, e4⟩ := c73_multiply_partial h.toGood hm (by rw [kx, ky]; exact h1) h.narrow
    exact ⟨d, by simp only [Formula.eval, ex, ey, Res.ok_bind, e1], e2, by rw [e4, vx, vy], by rw [e3, kx, ky]⟩
  | neg _ ih =>
    obtain ⟨d, e, w, v, k⟩ := ih
    exact ⟨d.neg, by simp only [Formula.eval, e, Res.ok_bind], neg_wf w, by rw [neg_value, v], k⟩
  | norm _ hn ih =>
    obtain ⟨d, e, w, v, k⟩ := ih
    obtain ⟨q1, q2, -, q4, -⟩ := normalize_spec w
    exact ⟨d.normalize c, by simp only [Formula.eval, e, Res.ok_bind], q1, by rw [q2, v], needs_unique (normal_needs q4) (by rw [q2, v]; exact hn)⟩
  | @trunc a x y j k n _ hn hw hs hl hu ih =>
    obtain ⟨d, e, w, v, hk⟩ := ih
    obtain ⟨d', q1, q2, q3, q4, q5, q6, -⟩ := c29_truncate h.toGood w k
    refine ⟨d', by simp only [Formula.eval, e, Res.ok_bind, q1], q2, ?_, by omega⟩
    rw [v] at q5 q6
    refine trunc_unique (k := k) (x := x) (whole_mono (by omega) (whole_value d')) hw ?_ hs q5 hl q6 hu
    rw [← v]
    have n1 : (0 : ℚ) ≤ (d.man : ℚ) / 10 ^ d.exp := by positivity
    have n2 : (0 : ℚ) ≤ (d'.man : ℚ) / 10 ^ d'.exp := by positivity
    cases hp : d.pos
    · rw [value_neg hp, value_neg (q3.trans hp), neg_mul_neg]; exact mul_nonneg n1 n2
    · rw [value_pos hp, value_pos (q3.trans hp)]; exact mul_nonneg n1 n2

/-! ## The property -/

/-- C160: a formula whose operands are texts is calculated exactly, and the printed result is the number, with the digits the rules of the formula give it. -/
theorem c160_text_to_text (h : c.Wide) {f : Formula} {x : ℚ} {k : Nat} (hf : Calculates c f x k) :
    ∃ d t neg ds fs, f.eval c = .ok d ∧ d.print c = .ok t ∧ Literal t neg ds fs ∧ literalValue neg ds fs = x ∧ fs.length = k := by
  obtain ⟨d, e, w, v, hk⟩ := formula_exact h hf
  obtain ⟨t, ds, fs, h1, h2, h3, h4, -⟩ := c27_printed_text h.toGood w
  exact ⟨d, t, _, ds, fs, e, h1, h2, by rw [h3, v], by rw [h4, hk]⟩

/-- C160: the results of two formulas compare as the numbers do, however they are calculated; in particular formulas that are equal by the laws of arithmetic give equal
decimals (that zeros may have a sign is left to C26). -/
theorem c160_compare (h : c.Wide) {f g : Formula} {x y : ℚ} {j k : Nat} (hf : Calculates c f x j) (hg : Calculates c g y k) (h0 : x ≠ 0 ∨ y ≠ 0) :
    ∃ d e, f.eval c = .ok d ∧ g.eval c = .ok e ∧ d.eq c e = decide (x = y) ∧ d.lt c e = .ok (decide (x < y)) ∧ d.le c e = .ok (decide (x ≤ y)) := by
  obtain ⟨d, e1, w1, v1, -⟩ := formula_exact h hf
  obtain ⟨e, e2, w2, v2, -⟩ := formula_exact h hg
  have hz : ¬ ZeroPair d e := by
    rintro ⟨a, b, -⟩
    rw [v1] at a; rw [v2] at b
    rcases h0 with h0 | h0
    · exact h0 a
    · exact h0 b
  obtain ⟨p1, -, p3, -, p5⟩ := c26_numeric_order_partial h.toGood w1 w2 hz
  exact ⟨d, e, e1, e2, by rw [p5, v1, v2], by rw [p1, v1, v2], by rw [p3, v1, v2]⟩

/-- C160: the value of a formula that fits is one number. -/
theorem c160_unique (h : c.Wide) {f : Formula} {x y : ℚ} {j k : Nat} (hf : Calculates c f x j) (hg : Calculates c f y k) : x = y ∧ j = k := by
  obtain ⟨d, e1, -, v1, k1⟩ := formula_exact h hf
  obtain ⟨e, e2, -, v2, k2⟩ := formula_exact h hg
  rw [e1, Res.ok.injEq] at e2
  subst e2
  exact ⟨v1.symm.trans v2, k1.symm.trans k2⟩

/-- C160: the distributive law, for any three formulas, if everything fits. -/
theorem c160_distributive (h : c.Wide) {f g r : Formula} {x y z : ℚ} {i j k : Nat} (hf : Calculates c f x i) (hg : Calculates c g y j) (hr : Calculates c r z k)
    (hx : x ≠ 0) (hyz : y + z ≠ 0) (hd : i + max j k ≤ c.maxExp) (hm : |x| * (|y| + |z|) * 10 ^ (i + max j k) ≤ c.maxMan) (hs : (|y| + |z|) * 10 ^ max j k ≤ c.maxMan) :
    ∃ d e, (Formula.mul f (.add g r)).eval c = .ok d ∧ (Formula.add (.mul f g) (.mul f r)).eval c = .ok e ∧ d.eq c e = true ∧ d.value = x * (y + z) := by
  have ny := abs_nonneg y
  have nz := abs_nonneg z
  have nx := abs_nonneg x
  have ax : |x| * (|y| + |z|) = |x| * |y| + |x| * |z| := by ring
  have nxy : 0 ≤ |x| * |y| := mul_nonneg nx ny
  have nxz : 0 ≤ |x| * |z| := mul_nonneg nx nz
  have c1 : Calculates c (.mul f (.add g r)) (x * (y + z)) (i + max j k) := by
    refine .mul hf (.add hg hr rfl (scaled_le (by linarith) hs) (scaled_le (by linarith) hs) (scaled_le (abs_add_le _ _) hs)) hd (scaled_le ?_ hm)
    rw [abs_mul]; exact mul_le_mul_of_nonneg_left (abs_add_le _ _) nx
  have c2 : Calculates c (.add (.mul f g) (.mul f r)) (x * y + x * z) (i + max j k) := by
    have b1 : |x * y * 10 ^ (i + max j k)| ≤ c.maxMan := scaled_le (by rw [abs_mul]; linarith) hm
    have b2 : |x * z * 10 ^ (i + max j k)| ≤ c.maxMan := scaled_le (by rw [abs_mul]; linarith) hm
    refine .add (.mul hf hg (by omega) (scaled_mono (by omega) b1)) (.mul hf hr (by omega) (scaled_mono (by omega) b2)) (by omega) b1 b2 (scaled_le ?_ hm)
    have := abs_add_le (x * y) (x * z)
    rw [abs_mul, abs_mul] at this; linarith
  obtain ⟨d, e, h1, h2, h3, -⟩ := c160_compare h c1 c2 (.inl (mul_ne_zero hx hyz))
  obtain ⟨d', h4, -, v, -⟩ := formula_exact h c1
  rw [h1, Res.ok.injEq] at h4
  subst h4
  exact ⟨d, e, h1, h2, by rw [h3, mul_add]; simp, v⟩

/-! ## Samples -/

/-- 19.90 * 3 - 0.5, truncated to a whole number: 59 -/
example : (Formula.trunc (.sub (.mul (.text [49, 57, 46, 57, 48]) (.text [51])) (.text [48, 46, 53])) 0).eval c64 = .ok ⟨true, 0, 59⟩ := by decide +kernel

/-- "0.50" needs one digit. -/
theorem half_calculates : Calculates c64 (.text [48, 46, 53, 48]) (1 / 2) 1 := by
  have hv : literalValue false [0] [5, 0] = 1 / 2 := by norm_num [literalValue, number]
  have := Calculates.text (c := c64) (t := [48, 46, 53, 48]) (ds := [0]) (fs := [5, 0]) (neg := false) (k := 1) (by simp)
    ⟨by simp, by simp, [], [46], by simp, by simp, by simp⟩ (by simp) ?_ (by decide) ?_
  · rw [hv] at this; exact this
  · rw [hv]
    refine ⟨⟨5, by norm_num⟩, fun j hj => ?_⟩
    obtain rfl : j = 0 := by omega
    rintro ⟨n, hn⟩
    have h2 : (1 : ℚ) = ((2 * n : Int) : ℚ) := by push_cast; linarith
    have h3 : (1 : Int) = 2 * n := by exact_mod_cast h2
    omega
  · rw [hv]; norm_num [Cfg.maxMan, Cfg.manLen, c64]

/-- 0.5 * (0.5 + 0.5) and 0.5 * 0.5 + 0.5 * 0.5 -/
example : ∃ d e, (Formula.mul (.text [48, 46, 53, 48]) (.add (.text [48, 46, 53, 48]) (.text [48, 46, 53, 48]))).eval c64 = .ok d ∧
    (Formula.add (.mul (.text [48, 46, 53, 48]) (.text [48, 46, 53, 48])) (.mul (.text [48, 46, 53, 48]) (.text [48, 46, 53, 48]))).eval c64 = .ok e ∧
    d.eq c64 e = true ∧ d.value = 1 / 2 * (1 / 2 + 1 / 2) :=
  c160_distributive c64_wide half_calculates half_calculates half_calculates (by norm_num) (by norm_num) (by decide)
    (by norm_num [Cfg.maxMan, Cfg.manLen, c64]) (by norm_num [Cfg.maxMan, Cfg.manLen, c64])

/-- 0.5 * 0.5, truncated to one digit: 0.2 -/
example : Calculates c64 (.trunc (.mul (.text [48, 46, 53, 48]) (.text [48, 46, 53, 48])) 1) (1 / 5) 1 :=
  .trunc (.mul half_calculates half_calculates (by decide) (by norm_num [Cfg.maxMan, Cfg.manLen, c64])) rfl ⟨2, by norm_num⟩ (by norm_num) (by norm_num [abs_of_pos]) (by norm_num [abs_of_pos])

end Verif.Decimal
