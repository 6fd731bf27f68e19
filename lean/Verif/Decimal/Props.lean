import Verif.Decimal.Text

/-!
# Properties of decimals (C25-C30, C73-C76)

The numbers are rationals: `Dec.value`.  `Cfg.Good` says that the powers of ten fit the integer type: true of 64 bits with 4
and of 128 bits with 5 bits for the digit count, false of the combinations 64/5, 64/6 and 128/6 that the tests also use (see
`c26_wrapped_powers_violated`).
-/

namespace Verif.Decimal

variable {c : Cfg}

/-- `decimal<uint64_t, 4>` and `decimal<__uint128_t, 5>` -/
def c64 : Cfg := ⟨64, 4⟩
def c128 : Cfg := ⟨128, 5⟩

theorem c64_good : c64.Good := ⟨by decide, by decide, by decide⟩
theorem c128_good : c128.Good := ⟨by decide, by decide, by decide +kernel⟩
theorem c64_wide : c64.Wide := ⟨c64_good, by decide, by decide⟩
theorem c128_wide : c128.Wide := ⟨c128_good, by decide, by decide⟩

/-! ## C25: addition and subtraction -/

theorem value_of_exp {d : Dec} {m : Int} {k : Nat} (he : d.exp = k) (hm : d.mantissa = m) : d.value = (m : ℚ) / 10 ^ k := by
  rw [value_eq, he, hm]

/-- What `+` and `-` do with the sum or the difference `m` of the mantissas. -/
theorem fromMantissa_spec (h : c.Good) {m : Int} {k : Nat} (hm : m.natAbs ≤ 2 * c.maxMan) (hk : k ≤ c.maxExp) :
    ∃ d, fromMantissa c m k = .ok d ∧ d.WF c ∧ d.exp = k ∧ (d.value = (m : ℚ) / 10 ^ k ↔ m.natAbs ≤ c.maxMan) := by
  refine ⟨_, fromMantissa_eq h hm hk, ⟨?_, ?_⟩, rfl, ?_⟩
  · have := two_e_le (c := c); show k < _; omega
  · exact Nat.mod_lt _ pow_man_pos
  · constructor
    · intro hv
      rw [value_eq, div_left_inj' (by positivity)] at hv
      have h1 : Dec.mantissa ⟨decide (0 ≤ m), k, m.natAbs % 2 ^ c.manLen⟩ = m := by exact_mod_cast hv
      have h2 := mantissa_abs ⟨decide (0 ≤ m), k, m.natAbs % 2 ^ c.manLen⟩
      rw [h1] at h2
      have h3 : m.natAbs % 2 ^ c.manLen < 2 ^ c.manLen := Nat.mod_lt _ pow_man_pos
      have h4 := maxMan_succ (c := c)
      simp only at h2
      omega
    · intro hle
      rw [value_eq, mod_man_eq hle]
      congr 2
      simp only [Dec.mantissa]
      by_cases h0 : 0 ≤ m
      · simp [h0]
      · simp only [h0, decide_false, Bool.false_eq_true, if_false]; omega

/-- The mantissa the number has when it is written with `k` digits behind the point. -/
def Dec.at (d : Dec) (k : Nat) : ℚ := d.value * 10 ^ k

theorem at_eq {d : Dec} {k : Nat} (h : d.exp ≤ k) : d.at k = ((if d.pos then (1 : Int) else -1) * (d.man * 10 ^ (k - d.exp) : Nat) : Int) := by
  have : (10 : ℚ) ^ k = 10 ^ d.exp * 10 ^ (k - d.exp) := by rw [← pow_add]; congr 1; omega
  simp only [Dec.at, Dec.value, this]
  have h10 : (10 : ℚ) ^ d.exp ≠ 0 := by positivity
  split <;> push_cast <;> field_simp

theorem at_abs {d : Dec} {k : Nat} (h : d.exp ≤ k) : |d.at k| ≤ c.maxMan ↔ d.man * 10 ^ (k - d.exp) ≤ c.maxMan := by
  rw [at_eq h]
  have : |(((if d.pos then (1 : Int) else -1) * (d.man * 10 ^ (k - d.exp) : Nat) : Int) : ℚ)| = ((d.man * 10 ^ (k - d.exp) : Nat) : ℚ) := by
    rw [← Int.cast_abs, abs_mul]
    split <;> simp
  rw [this]
  exact_mod_cast Iff.rfl

theorem natAbs_le_iff {m : Int} {n : Nat} : m.natAbs ≤ n ↔ |(m : ℚ)| ≤ n := by
  rw [← Int.cast_abs, Int.abs_eq_natAbs, Int.cast_natCast, Nat.cast_le]

/-- Addition of decimals.  `k` is the larger digit count.  The sum is refused (an exception) exactly when one of the two
numbers cannot be written with `k` digits; otherwise the result has `k` digits and is the sum if and only if the sum can be
written with `k` digits.  The statement of C25 fails in the remaining case: no exception, wrong number. -/
theorem c25_add_partial (h : c.Good) {x y : Dec} (hx : x.WF c) (hy : y.WF c) {k : Nat} (hk : k = max x.exp y.exp) :
    (¬ (|x.at k| ≤ c.maxMan ∧ |y.at k| ≤ c.maxMan) → x.add c y = .throw .logic) ∧
    (|x.at k| ≤ c.maxMan ∧ |y.at k| ≤ c.maxMan → ∃ d, x.add c y = .ok d ∧ d.WF c ∧ d.exp = k ∧
      (d.value = x.value + y.value ↔ |(x.value + y.value) * 10 ^ k| ≤ c.maxMan)) := by
  have ex : x.exp ≤ k := by omega
  have ey : y.exp ≤ k := by omega
  have hka : k ≤ c.maxExp := by have := WF.exp_le hx; have := WF.exp_le hy; omega
  have hal := align_eq h hx hy
  rw [← hk] at hal
  simp only at hal
  rw [at_abs ex, at_abs ey]
  simp only [Dec.add]
  rw [hal]
  refine ⟨fun hn => by rw [if_neg hn]; rfl, fun hp => ?_⟩
  rw [if_pos hp]
  simp only [Res.ok_bind]
  generalize hm : Dec.mantissa ⟨x.pos, k, x.man * 10 ^ (k - x.exp)⟩ + Dec.mantissa ⟨y.pos, k, y.man * 10 ^ (k - y.exp)⟩ = m
  have hsum : ((x.value + y.value) * 10 ^ k : ℚ) = m := by
    have e1 := at_eq ex
    have e2 := at_eq ey
    simp only [Dec.at] at e1 e2
    rw [add_mul, e1, e2, ← hm]
    simp only [Dec.mantissa]
    push_cast
    split <;> split <;> simp
  have hle : m.natAbs ≤ 2 * c.maxMan := by
    rw [← hm]
    simp only [Dec.mantissa]
    have := hp.1; have := hp.2
    split <;> split <;> omega
  have h2 := h.two_man
  rw [sint_ok (by omega)]
  simp only [Res.ok_bind]
  obtain ⟨d, h3, h4, h5, h6⟩ := fromMantissa_spec h hle hka
  refine ⟨d, h3, h4, h5, ?_⟩
  rw [hsum, ← natAbs_le_iff, ← h6, ← hsum, mul_div_cancel_right₀ _ (by positivity)]

theorem sub_eq_add_neg' {x y : Dec} (h : c.Good) (hx : x.WF c) (hy : y.WF c) : x.sub c y = x.add c y.neg := by
  have h1 := align_eq h hx hy
  have h2 : align c x y.neg =
      if x.man * 10 ^ (max x.exp y.exp - x.exp) ≤ c.maxMan ∧ y.man * 10 ^ (max x.exp y.exp - y.exp) ≤ c.maxMan then
        .ok (⟨x.pos, max x.exp y.exp, x.man * 10 ^ (max x.exp y.exp - x.exp)⟩,
          ⟨!y.pos, max x.exp y.exp, y.man * 10 ^ (max x.exp y.exp - y.exp)⟩)
      else .throw .logic := align_eq h hx (y := y.neg) hy
  simp only [Dec.sub, Dec.add]
  rw [h1, h2]
  simp only
  by_cases hc : x.man * 10 ^ (max x.exp y.exp - x.exp) ≤ c.maxMan ∧ y.man * 10 ^ (max x.exp y.exp - y.exp) ≤ c.maxMan
  · simp only [if_pos hc, Res.ok_bind]
    have hm : ∀ m : Nat, Dec.mantissa ⟨!y.pos, max x.exp y.exp, m⟩ = -Dec.mantissa ⟨y.pos, max x.exp y.exp, m⟩ := by
      intro m
      simp only [Dec.mantissa]
      cases hp : y.pos <;> simp
    rw [hm, Int.sub_eq_add_neg]
  · simp only [if_neg hc]; rfl

theorem neg_value (d : Dec) : d.neg.value = -d.value := by
  obtain ⟨pos, exp, man⟩ := d
  cases pos <;> simp [Dec.neg, Dec.negate, Dec.value, neg_div]

/-- Subtraction of decimals. -/
theorem c25_sub_partial (h : c.Good) {x y : Dec} (hx : x.WF c) (hy : y.WF c) {k : Nat} (hk : k = max x.exp y.exp) :
    (¬ (|x.at k| ≤ c.maxMan ∧ |y.at k| ≤ c.maxMan) → x.sub c y = .throw .logic) ∧
    (|x.at k| ≤ c.maxMan ∧ |y.at k| ≤ c.maxMan → ∃ d, x.sub c y = .ok d ∧ d.WF c ∧ d.exp = k ∧
      (d.value = x.value - y.value ↔ |(x.value - y.value) * 10 ^ k| ≤ c.maxMan)) := by
  have := c25_add_partial h hx (y := y.neg) hy hk
  have ha : |y.neg.at k| = |y.at k| := by simp [Dec.at, neg_value]
  rw [ha, neg_value] at this
  rw [sub_eq_add_neg' h hx hy, sub_eq_add_neg]
  exact this

/-- For every type the sum of the greatest decimal with itself is a wrong number: no exception. -/
theorem c25_add_violated (h : c.Good) : ∃ x y d : Dec, x.WF c ∧ y.WF c ∧ x.add c y = .ok d ∧ d.value ≠ x.value + y.value := by
  have hpos : 1 ≤ c.maxMan := by
    have h1 : 2 ^ 1 ≤ 2 ^ c.manLen := Nat.pow_le_pow_right (by norm_num) (by have := h.man; simp only [Cfg.manLen]; omega)
    have := maxMan_succ (c := c); omega
  have hw : Dec.WF c ⟨true, 0, c.maxMan⟩ := ⟨Nat.pos_of_ne_zero (by simp), by have := maxMan_succ (c := c); show c.maxMan < _; omega⟩
  have hv : Dec.at ⟨true, 0, c.maxMan⟩ 0 = c.maxMan := by simp [Dec.at, Dec.value]
  have hv' : Dec.value ⟨true, 0, c.maxMan⟩ = c.maxMan := by simp [Dec.value]
  have habs : |(c.maxMan : ℚ)| = c.maxMan := abs_of_nonneg (by positivity)
  obtain ⟨d, h1, _, _, h2⟩ := (c25_add_partial h hw hw (k := 0) rfl).2 (by rw [hv, habs]; simp)
  refine ⟨_, _, d, hw, hw, h1, ?_⟩
  rw [Ne, h2, hv', not_le, pow_zero, mul_one]
  have : (1 : ℚ) ≤ c.maxMan := by exact_mod_cast hpos
  rw [abs_of_nonneg (by linarith)]
  linarith

/-- The same for subtraction. -/
theorem c25_sub_violated (h : c.Good) : ∃ x y d : Dec, x.WF c ∧ y.WF c ∧ x.sub c y = .ok d ∧ d.value ≠ x.value - y.value := by
  obtain ⟨x, y, d, hx, hy, h1, h2⟩ := c25_add_violated h
  refine ⟨x, y.neg, d, hx, hy, ?_, by rw [neg_value, sub_neg_eq_add]; exact h2⟩
  rw [sub_eq_add_neg' h hx (y := y.neg) hy]
  have : y.neg.neg = y := by cases y; simp [Dec.neg, Dec.negate]
  rw [this]; exact h1

/-- The greatest 64-bit decimal plus one is zero. -/
example : Dec.add c64 ⟨true, 0, 2 ^ 59 - 1⟩ ⟨true, 0, 1⟩ = .ok ⟨true, 0, 0⟩ := by decide +kernel
/-- 1.5 + 0.25 - 2 = -0.25 -/
example : Dec.add c64 ⟨true, 1, 15⟩ ⟨true, 2, 25⟩ = .ok ⟨true, 2, 175⟩ := by decide +kernel
example : Dec.sub c64 ⟨true, 2, 175⟩ ⟨true, 0, 2⟩ = .ok ⟨false, 2, 25⟩ := by decide +kernel
/-- 10^17 cannot be written with two digits behind the point: refused. -/
example : Dec.add c64 ⟨true, 0, 10 ^ 17⟩ ⟨true, 2, 25⟩ = .throw .logic := by decide +kernel

/-! ## C26: comparison -/

/-- A pair of zeros of different sign. -/
def ZeroPair (x y : Dec) : Prop := x.value = 0 ∧ y.value = 0 ∧ x.pos ≠ y.pos

theorem value_pos {d : Dec} (h : d.pos = true) : d.value = (d.man : ℚ) / 10 ^ d.exp := by simp [Dec.value, h]
theorem value_neg {d : Dec} (h : d.pos = false) : d.value = -((d.man : ℚ) / 10 ^ d.exp) := by simp [Dec.value, h, neg_div]

theorem compare_spec (h : c.Good) {x y : Dec} (hx : x.WF c) (hy : y.WF c) (hz : ¬ ZeroPair x y)
    (comp : Nat → Nat → Bool) (R : ℚ → ℚ → Prop)
    (hcomp : ∀ x y m n k : Nat, m < k → n < k → x ≠ y → comp x y = comp (x * k + m) (y * k + n))
    (hshift : ∀ x m n k : Nat, comp m n = comp (x * k + m) (x * k + n))
    (hscale : ∀ m n k : Nat, 0 < k → comp m n = comp (m * k) (n * k))
    (hR : ∀ a b : Dec, comp (a.man * 10 ^ b.exp) (b.man * 10 ^ a.exp) = true ↔ R ((a.man : ℚ) / 10 ^ a.exp) (b.man / 10 ^ b.exp))
    (hneg : ∀ p q : ℚ, R (-p) (-q) ↔ R q p)
    (h01 : ∀ p q : ℚ, p < q → (R p q ↔ comp 0 1 = true)) (h10 : ∀ p q : ℚ, q < p → (R p q ↔ comp 1 0 = true)) :
    ∃ b, compare c x y comp = .ok b ∧ (b = true ↔ R x.value y.value) := by
  simp only [compare]
  cases px : x.pos <;> cases py : y.pos
  · simp only [Bool.not_false, Bool.and_true, if_true]
    refine ⟨_, comparePositive_eq h hy hx comp hcomp hshift hscale, ?_⟩
    rw [value_neg px, value_neg py, hneg]; exact hR y x
  · refine ⟨_, rfl, ?_⟩
    have hlt : x.value < y.value := by
      have a : x.value ≤ 0 := by rw [value_neg px]; have : (0 : ℚ) ≤ (x.man : ℚ) / 10 ^ x.exp := by positivity
                                 linarith
      have b : 0 ≤ y.value := by rw [value_pos py]; positivity
      rcases lt_or_eq_of_le (le_trans a b) with hl | he
      · exact hl
      · exact absurd ⟨by linarith, by linarith, by simp [px, py]⟩ hz
    simp only [if_true, Bool.false_eq_true, if_false]
    exact (h01 _ _ hlt).symm
  · refine ⟨_, rfl, ?_⟩
    have hlt : y.value < x.value := by
      have a : y.value ≤ 0 := by rw [value_neg py]; have : (0 : ℚ) ≤ (y.man : ℚ) / 10 ^ y.exp := by positivity
                                 linarith
      have b : 0 ≤ x.value := by rw [value_pos px]; positivity
      rcases lt_or_eq_of_le (le_trans a b) with hl | he
      · exact hl
      · exact absurd ⟨by linarith, by linarith, by simp [px, py]⟩ hz
    simp only [if_true, Bool.false_eq_true, if_false]
    exact (h10 _ _ hlt).symm
  · simp only [Bool.not_true, Bool.and_self, Bool.false_eq_true, if_false, if_true]
    refine ⟨_, comparePositive_eq h hx hy comp hcomp hshift hscale, ?_⟩
    rw [value_pos px, value_pos py]; exact hR x y

theorem lt_spec (h : c.Good) {x y : Dec} (hx : x.WF c) (hy : y.WF c) (hz : ¬ ZeroPair x y) :
    ∃ b, x.lt c y = .ok b ∧ (b = true ↔ x.value < y.value) := by
  refine compare_spec h hx hy hz _ (· < ·) ?_ ?_ ?_ ?_ ?_ ?_ ?_
  · intro x y m n k hm hn hne
    rw [decide_eq_decide]
    constructor
    · intro hl
      have : x * k + k ≤ y * k := by rw [← Nat.succ_mul]; exact Nat.mul_le_mul_right _ hl
      omega
    · intro hl
      by_contra hc
      have : y * k + k ≤ x * k := by rw [← Nat.succ_mul]; exact Nat.mul_le_mul_right _ (show y + 1 ≤ x by omega)
      omega
  · intro x m n k; simp
  · intro m n k hk; simp [Nat.mul_lt_mul_right hk]
  · intro a b; rw [decide_eq_true_iff]; exact value_lt_cross.symm
  · intro p q; simp
  · intro p q hpq; simp [hpq]
  · intro p q hpq; simp [le_of_lt hpq]

theorem le_spec (h : c.Good) {x y : Dec} (hx : x.WF c) (hy : y.WF c) (hz : ¬ ZeroPair x y) :
    ∃ b, x.le c y = .ok b ∧ (b = true ↔ x.value ≤ y.value) := by
  refine compare_spec h hx hy hz _ (· ≤ ·) ?_ ?_ ?_ ?_ ?_ ?_ ?_
  · intro x y m n k hm hn hne
    rw [decide_eq_decide]
    constructor
    · intro hl
      have : x * k + k ≤ y * k := by rw [← Nat.succ_mul]; exact Nat.mul_le_mul_right _ (show x + 1 ≤ y by omega)
      omega
    · intro hl
      by_contra hc
      have : y * k + k ≤ x * k := by rw [← Nat.succ_mul]; exact Nat.mul_le_mul_right _ (show y + 1 ≤ x by omega)
      omega
  · intro x m n k; simp
  · intro m n k hk; simp [Nat.mul_le_mul_right_iff hk]
  · intro a b
    rw [decide_eq_true_iff, ← not_lt, ← not_lt, value_lt_cross (x := b) (y := a)]
  · intro p q; simp
  · intro p q hpq; simp [le_of_lt hpq]
  · intro p q hpq; simp [hpq]

/-- Comparison of decimals is the order of the numbers, for every pair except two zeros of different sign; it never throws
and is never undefined.  (The powers of ten must fit the type.) -/
theorem c26_numeric_order_partial (h : c.Good) {x y : Dec} (hx : x.WF c) (hy : y.WF c) (hz : ¬ ZeroPair x y) :
    x.lt c y = .ok (decide (x.value < y.value)) ∧ x.gt c y = .ok (decide (y.value < x.value)) ∧
    x.le c y = .ok (decide (x.value ≤ y.value)) ∧ x.ge c y = .ok (decide (y.value ≤ x.value)) ∧
    x.eq c y = decide (x.value = y.value) := by
  have dec : ∀ {b : Bool} {p : Prop} [Decidable p], (b = true ↔ p) → b = decide p := by
    intro b p _ hb; cases b <;> simp_all
  have hz' : ¬ ZeroPair y x := fun hc => hz ⟨hc.2.1, hc.1, hc.2.2.symm⟩
  refine ⟨?_, ?_, ?_, ?_, ?_⟩
  · obtain ⟨b, h1, h2⟩ := lt_spec h hx hy hz
    rw [h1, dec h2]
  · have : ∃ b, x.gt c y = .ok b ∧ (b = true ↔ y.value < x.value) := by
      refine compare_spec h hx hy hz _ (fun p q => q < p) ?_ ?_ ?_ ?_ ?_ ?_ ?_
      · intro x y m n k hm hn hne
        rw [decide_eq_decide]
        constructor
        · intro hl
          have : y * k + k ≤ x * k := by rw [← Nat.succ_mul]; exact Nat.mul_le_mul_right _ hl
          omega
        · intro hl
          by_contra hc
          have : x * k + k ≤ y * k := by rw [← Nat.succ_mul]; exact Nat.mul_le_mul_right _ (show x + 1 ≤ y by omega)
          omega
      · intro x m n k; simp
      · intro m n k hk; simp [Nat.mul_lt_mul_right hk]
      · intro a b; rw [decide_eq_true_iff]; exact value_lt_cross.symm
      · intro p q; simp
      · intro p q hpq; simp [le_of_lt hpq]
      · intro p q hpq; simp [hpq]
    obtain ⟨b, h1, h2⟩ := this
    rw [h1, dec h2]
  · obtain ⟨b, h1, h2⟩ := le_spec h hx hy hz
    rw [h1, dec h2]
  · have : ∃ b, x.ge c y = .ok b ∧ (b = true ↔ y.value ≤ x.value) := by
      refine compare_spec h hx hy hz _ (fun p q => q ≤ p) ?_ ?_ ?_ ?_ ?_ ?_ ?_
      · intro x y m n k hm hn hne
        rw [decide_eq_decide]
        constructor
        · intro hl
          have : y * k + k ≤ x * k := by rw [← Nat.succ_mul]; exact Nat.mul_le_mul_right _ (show y + 1 ≤ x by omega)
          omega
        · intro hl
          by_contra hc
          have : x * k + k ≤ y * k := by rw [← Nat.succ_mul]; exact Nat.mul_le_mul_right _ (show x + 1 ≤ y by omega)
          omega
      · intro x m n k; simp
      · intro m n k hk; simp [Nat.mul_le_mul_right_iff hk]
      · intro a b
        rw [decide_eq_true_iff, ge_iff_le, ← not_lt, ← not_lt, value_lt_cross (x := a) (y := b)]
      · intro p q; simp
      · intro p q hpq; simp [hpq]
      · intro p q hpq; simp [le_of_lt hpq]
    obtain ⟨b, h1, h2⟩ := this
    rw [h1, dec h2]
  · apply dec
    rw [eq_iff hx hy]
    refine ⟨fun hq => hq.2, fun hv => ⟨?_, hv⟩⟩
    by_contra hp
    have nn : ∀ d : Dec, (0 : ℚ) ≤ (d.man : ℚ) / 10 ^ d.exp := fun d => by positivity
    have n1 := nn x
    have n2 := nn y
    cases px : x.pos <;> cases py : y.pos
    · exact hp (by rw [px, py])
    · have a := value_neg px; have b := value_pos py
      exact hz ⟨by linarith, by linarith, hp⟩
    · have a := value_pos px; have b := value_neg py
      exact hz ⟨by linarith, by linarith, hp⟩
    · exact hp (by rw [px, py])

/-- Equality ignores trailing zeros: for the same sign it is equality of the numbers, for every type at all. -/
theorem c26_equality {x y : Dec} (hx : x.WF c) (hy : y.WF c) : x.eq c y = true ↔ x.pos = y.pos ∧ x.value = y.value :=
  eq_iff hx hy

/-- Minus zero is less than zero and different from it, though the numbers are equal.  It is not an exotic value:
`-decimal(0, 0)` and `decimal("-0")` are minus zero. -/
theorem c26_negative_zero_violated : ∃ x y : Dec, x.WF c ∧ y.WF c ∧ x.value = y.value ∧ x.lt c y = .ok true ∧
    x.eq c y = false ∧ x = (Dec.zero).neg := by
  have hw : ∀ b, Dec.WF c ⟨b, 0, 0⟩ := fun b => ⟨Nat.pos_of_ne_zero (by simp), pow_man_pos⟩
  exact ⟨⟨false, 0, 0⟩, ⟨true, 0, 0⟩, hw _, hw _, by simp [Dec.value], rfl, rfl, rfl⟩

/-- So it is with every two zeros of different sign, whatever their digits: the numbers are equal, but minus zero is less in every comparison. -/
theorem c26_every_zero_violated (a b : Nat) :
    let m : Dec := ⟨false, a, 0⟩
    let p : Dec := ⟨true, b, 0⟩
    m.value = p.value ∧ (m.lt c p = .ok true ∧ m.gt c p = .ok false ∧ m.le c p = .ok true ∧ m.ge c p = .ok false ∧ m.eq c p = false) ∧
      (p.lt c m = .ok false ∧ p.gt c m = .ok true ∧ p.le c m = .ok false ∧ p.ge c m = .ok true ∧ p.eq c m = false) :=
  ⟨by simp [Dec.value], ⟨rfl, rfl, rfl, rfl, rfl⟩, rfl, rfl, rfl, rfl, rfl⟩

/-- With 64 bits and five bits for the digit count (a type the tests use) the powers of ten wrap around, and
0.00000288... compares greater than 1. -/
theorem c26_wrapped_powers_violated : ∃ x y : Dec, x.WF ⟨64, 5⟩ ∧ y.WF ⟨64, 5⟩ ∧ x.value < y.value ∧
    x.lt ⟨64, 5⟩ y = .ok false ∧ x.gt ⟨64, 5⟩ y = .ok true := by
  refine ⟨⟨true, 23, 2 ^ 58 - 1⟩, ⟨true, 0, 1⟩, ⟨by decide, by decide⟩, ⟨by decide, by decide⟩, ?_, ?_, ?_⟩
  · norm_num [Dec.value]
  · decide +kernel
  · decide +kernel

/-- 1.50 = 1.5, -2 < 0.001, 1.49 < 1.5 -/
example : Dec.eq c64 ⟨true, 2, 150⟩ ⟨true, 1, 15⟩ = true := by decide +kernel
example : Dec.lt c64 ⟨false, 0, 2⟩ ⟨true, 3, 1⟩ = .ok true := by decide +kernel
example : Dec.lt c128 ⟨true, 2, 149⟩ ⟨true, 1, 15⟩ = .ok true := by decide +kernel
example : ¬ ZeroPair ⟨true, 2, 149⟩ ⟨true, 1, 15⟩ := by simp [ZeroPair]

/-! ## C27: text round trip -/

/-- What is printed: a minus sign if the decimal is negative, the integer part without superfluous zeros, and, if the decimal
has digits behind the point, a point and exactly that many digits; the text denotes exactly the number. -/
theorem c27_printed_text (h : c.Good) {d : Dec} (hd : d.WF c) : ∃ t ds fs, d.print c = .ok t ∧ Literal t (!d.pos) ds fs ∧
    literalValue (!d.pos) ds fs = d.value ∧ fs.length = d.exp ∧ (46 ∈ t ↔ d.exp ≠ 0) ∧ t.head? ≠ some 43 ∧
    ds ≠ [] ∧ (ds.head? = some 0 → ds = [0]) := by
  obtain ⟨t, h1, h2, h3⟩ := print_literal h hd
  obtain ⟨n1, n2, n3, n4⟩ := digitsOf_spec (d.man / 10 ^ d.exp)
  obtain ⟨f1, f2, f3⟩ := fracDigits_spec d
  have ht := print_eq h hd
  rw [h1] at ht
  injection ht with ht
  have hne : digitsOf (d.man / 10 ^ d.exp) ≠ [] := by rw [digitsOf]; split <;> simp
  have nochar : ∀ (ds : List Nat) (x : Nat), x < 48 → x ∉ chars ds := by
    intro ds x hx hc
    simp only [chars, List.mem_map] at hc
    obtain ⟨a, _, ha⟩ := hc
    omega
  refine ⟨t, _, _, h1, h3, ?_, f2, ?_, ?_, hne, ?_⟩
  · simp only [literalValue, n1, f1, f2, Dec.value]
    have hdm := Nat.div_add_mod d.man (10 ^ d.exp)
    have hq : (d.man : ℚ) = 10 ^ d.exp * (d.man / 10 ^ d.exp : Nat) + (d.man % 10 ^ d.exp : Nat) := by exact_mod_cast hdm.symm
    have hp : (10 : ℚ) ^ d.exp ≠ 0 := by positivity
    rw [mul_div_assoc, hq, add_div, mul_div_cancel_left₀ _ hp]
    cases hp : d.pos <;> simp
  · rw [ht]
    simp only [List.mem_append]
    constructor
    · rintro ((hs | hs) | hs)
      · split at hs <;> simp at hs
      · exact absurd hs (nochar _ _ (by norm_num))
      · intro he; simp [he] at hs
    · intro he; right; simp [he]
  · rw [ht]
    by_cases hp : d.pos
    · rw [if_pos hp, List.nil_append]
      cases hc : digitsOf (d.man / 10 ^ d.exp) with
      | nil => exact absurd hc hne
      | cons a l => simp [chars]
    · rw [if_neg hp]; simp
  · intro hh
    by_cases h9 : 9 < d.man / 10 ^ d.exp
    · exact absurd hh (n4 h9)
    · rw [digitsOf, if_pos (by omega)] at hh ⊢
      simpa using hh

/-- Printing and reading gives the same decimal without its trailing zeros: same number and same sign. -/
theorem c27_text_round_trip (h : c.Wide) {d : Dec} (hd : d.WF c) : ∃ t, d.print c = .ok t ∧ fromString c t = .ok (d.normalize c) ∧
    (d.normalize c).value = d.value ∧ (d.normalize c).pos = d.pos ∧ (d.normalize c).eq c d = true := by
  obtain ⟨t, ds, fs, h1, h2, h3, h4, _, _, h5, _⟩ := c27_printed_text h.toGood hd
  obtain ⟨w, v, p, n, _⟩ := normalize_spec hd
  have hlen : fs.length ≤ 255 := by
    have h1 := WF.exp_le hd
    have h2 : 2 ^ c.e ≤ 2 ^ 8 := Nat.pow_le_pow_right (by norm_num) h.narrow
    have := two_e_le (c := c)
    omega
  have ht : t ≠ [] := by
    obtain ⟨_, _, s, q, rfl, _, _⟩ := h2
    intro hc
    simp at hc
    exact h5 hc.2.1
  refine ⟨t, h1, ?_, v, p, (eq_iff w hd).2 ⟨p, v⟩⟩
  rw [fromString_literal h h2 ht hlen, if_pos ((readDec_wf_iff (neg := !d.pos) h2.2.1).2 ⟨d, hd, h3.symm⟩)]
  have hn := readDec_normal (!d.pos) ds h2.2.1
  have hv := readDec_value (!d.pos) ds fs
  have hpos : (readDec (!d.pos) ds fs).pos = (d.normalize c).pos := by rw [p]; simp [readDec]
  obtain ⟨q1, q2⟩ := normal_unique hn n ((value_cross hpos).1 (by rw [hv, h3, v]))
  show Res.ok (readDec (!d.pos) ds fs) = _
  congr 1
  cases hr : readDec (!d.pos) ds fs
  cases hm : d.normalize c
  simp_all

/-- -0.0500: printed "-0.0500", read as -0.05 -/
example : Dec.print c64 ⟨false, 4, 500⟩ = .ok [45, 48, 46, 48, 53, 48, 48] := by decide +kernel
example : fromString c64 [45, 48, 46, 48, 53, 48, 48] = .ok ⟨false, 2, 5⟩ := by decide +kernel

/-! ## C28: reading text -/

/-- Reading a non-empty text whose part behind the point has at most 255 characters: never undefined, the only exception is
the `logic_error`, a text that is not a decimal literal is refused, and a literal is read as exactly the number it denotes
if some decimal of the type is that number and refused otherwise.

Missing from C28: the empty text, longer texts, and that a literal has a digit (see `c28_..._violated`). -/
theorem c28_parse_partial (h : c.Wide) {t : List Nat} (ht : t ≠ []) :
    fromString c t ≠ .ub ∧ (∀ e, fromString c t = .throw e → e = .logic) ∧
    ((¬ ∃ neg ds fs, Literal t neg ds fs) → fromString c t = .throw .logic) ∧
    (∀ neg ds fs, Literal t neg ds fs → fs.length ≤ 255 →
      ((∃ d, fromString c t = .ok d) ↔ ∃ d : Dec, d.WF c ∧ d.value = literalValue neg ds fs) ∧
      ∀ d, fromString c t = .ok d → d.WF c ∧ d.value = literalValue neg ds fs ∧ d.pos = !neg) := by
  have hcl : Clean (fromString c t) := by
    cases t with
    | nil => exact absurd rfl ht
    | cons ch rest => rw [fromString_cons]; exact fromBody_clean h.toGood _ _
  refine ⟨hcl.1, hcl.2, ?_, ?_⟩
  · intro hn
    cases hr : fromString c t with
    | ok d => exact absurd (fromString_ok_literal hr) hn
    | throw e => rw [hcl.2 e hr]
    | ub => exact absurd hr hcl.1
  · intro neg ds fs hl hlen
    have he := fromString_literal h hl ht hlen
    have hiff := readDec_wf_iff (c := c) (neg := neg) (ds := ds) hl.2.1
    by_cases hc : (strip fs).length ≤ c.maxExp ∧ number ds * 10 ^ (strip fs).length + number (strip fs) ≤ c.maxMan
    · rw [if_pos hc] at he
      rw [he]
      refine ⟨⟨fun _ => hiff.1 hc, fun _ => ⟨_, rfl⟩⟩, ?_⟩
      intro d hd
      cases hd
      have e1 := two_e_le (c := c)
      have e2 := maxMan_succ (c := c)
      refine ⟨⟨?_, ?_⟩, readDec_value neg ds fs, rfl⟩
      · show (strip fs).length < _; omega
      · show number ds * 10 ^ (strip fs).length + number (strip fs) < _; omega
    · rw [if_neg hc] at he
      rw [he]
      exact ⟨⟨(fun ⟨_, hx⟩ => nomatch hx), fun hx => absurd (hiff.2 hx) hc⟩, fun d hd => by cases hd⟩

/-- "1.50", "-.5", "+7"; "1.2.3", "1e5" and " 1" are refused, and so is a number that is too large. -/
example : fromString c64 [49, 46, 53, 48] = .ok ⟨true, 1, 15⟩ := by decide +kernel
example : fromString c64 [45, 46, 53] = .ok ⟨false, 1, 5⟩ := by decide +kernel
example : fromString c64 [43, 55] = .ok ⟨true, 0, 7⟩ := by decide +kernel
example : fromString c64 [49, 46, 50, 46, 51] = .throw .logic := by decide +kernel
example : fromString c64 [49, 101, 53] = .throw .logic := by decide +kernel
example : fromString c64 [32, 49] = .throw .logic := by decide +kernel
example : fromString c64 (List.replicate 18 57) = .throw .logic := by decide +kernel
example : Literal [49, 46, 53, 48] false [1] [5, 0] :=
  ⟨by simp, by simp, [], [46], rfl, Or.inr ⟨Or.inr rfl, rfl⟩, Or.inl rfl⟩

/-- The empty text is undefined behaviour. -/
theorem c28_empty_text_violated : fromString c [] = .ub := rfl

/-- ".", "-" and "+." are no numbers, but they are read as zero (or minus zero). -/
theorem c28_no_digit_violated : fromString c64 [46] = .ok ⟨true, 0, 0⟩ ∧ fromString c64 [45] = .ok ⟨false, 0, 0⟩ ∧
    fromString c64 [43, 46] = .ok ⟨true, 0, 0⟩ := by decide +kernel

/-- "0.", 256 zeros and a "1" is read as 0.1: the counter of zeros has eight bits. -/
theorem c28_long_text_violated : ∃ t ds fs d, Literal t false ds fs ∧ fromString c64 t = .ok d ∧
    d.value ≠ literalValue false ds fs := by
  refine ⟨[48, 46] ++ List.replicate 256 48 ++ [49], [0], List.replicate 256 0 ++ [1], ⟨true, 1, 1⟩, ?_, ?_, ?_⟩
  · refine ⟨by simp, ?_, [], [46], ?_, Or.inr ⟨Or.inr rfl, rfl⟩, Or.inl rfl⟩
    · intro d hd
      simp only [List.mem_append, List.mem_replicate, List.mem_singleton] at hd
      omega
    · rw [List.map_append, List.map_replicate]; rfl
  · decide +kernel
  · have hn : number (List.replicate 256 0 ++ [1]) = 1 := by rw [number_snoc, number_replicate]
    simp only [literalValue, hn, List.length_append, List.length_replicate, List.length_singleton, Dec.value]
    intro hc
    have h2 : number [0] = 0 := rfl
    rw [h2] at hc
    simp only [if_true, Bool.false_eq_true, if_false] at hc
    have h3 : (10 : ℚ) ^ (256 + 1) = 10 * 10 ^ 256 := by rw [pow_succ, mul_comm]
    have h4 : (1 : ℚ) < 10 ^ 256 := one_lt_pow₀ (by norm_num) (by norm_num)
    rw [h3] at hc
    generalize (10 : ℚ) ^ 256 = N at *
    have h5 : N ≠ 0 := by linarith
    field_simp at hc
    push_cast at hc
    linarith

/-- So it is with every text: 256 zeros written one after another anywhere behind the point are not there for the reader, although they change the number if a digit other than zero follows. -/
theorem c28_zeros_lost_violated (A F G : List Nat) (hA : 46 ∉ A) :
    fromString c (A ++ 46 :: (F ++ (List.replicate 256 48 ++ G))) = fromString c (A ++ 46 :: (F ++ G)) := by
  have hz : parseInt c (F ++ (List.replicate 256 48 ++ G)) false = parseInt c (F ++ G) false :=
    parseLoop_prefix (fun q hq => by rw [parseLoop_zeros G 256 q hq, Nat.add_mod_right, Nat.mod_eq_of_lt hq]) F _ (by decide)
  have hb : ∀ B, 46 ∉ B → ∃ r : Res PS, ∀ T, parseInt c (B ++ 46 :: T) true = (r >>= fun q => .ok (T, q)) := fun B h => parseLoop_point B _ h
  cases A with
  | nil =>
    obtain ⟨r, hr⟩ := hb [] (by simp)
    simp only [List.nil_append] at hr ⊢
    simp only [fromString, show ¬ ((46 : Nat) = 43 ∨ (46 : Nat) = 45) by decide, if_false, hr]
    rcases r with q | e | _
    · simp only [Res.ok_bind, hz]
    · rfl
    · rfl
  | cons a A =>
    have h1 : 46 ∉ A := fun h => hA (List.mem_cons_of_mem _ h)
    by_cases hs : a = 43 ∨ a = 45
    · obtain ⟨r, hr⟩ := hb A h1
      simp only [List.cons_append, fromString, hs, if_true, hr]
      rcases r with q | e | _
      · simp only [Res.ok_bind, hz]
      · rfl
      · rfl
    · obtain ⟨r, hr⟩ := hb (a :: A) hA
      simp only [List.cons_append] at hr ⊢
      simp only [fromString, hs, if_false, hr]
      rcases r with q | e | _
      · simp only [Res.ok_bind, hz]
      · rfl
      · rfl

-- Non-vacuity: "-12.0", 256 zeros and "05" is read as -12.005.
example : fromString c64 ([45, 49, 50] ++ 46 :: ([48] ++ (List.replicate 256 48 ++ [48, 53]))) = .ok ⟨false, 3, 12005⟩ := by
  rw [c28_zeros_lost_violated _ _ _ (by decide)]
  decide +kernel

/-! ## C29: digit counts -/

/-- `extend` keeps the number and gives at least the digits asked for; it throws exactly when the number cannot be written
with that many digits. -/
theorem c29_extend (h : c.Good) {d : Dec} (hd : d.WF c) (k : Nat) :
    (∀ d', d.extend c k = .ok d' → d'.WF c ∧ d'.value = d.value ∧ d'.pos = d.pos ∧ d'.exp = max d.exp k) ∧
    (d.extend c k = .throw .logic ∨ ∃ d', d.extend c k = .ok d') ∧
    (d.exp < k → ((∃ d', d.extend c k = .ok d') ↔ k ≤ c.maxExp ∧ |d.at k| ≤ c.maxMan)) := by
  rw [Dec.extend, extendSelf_eq h hd]
  have e1 := two_e_le (c := c)
  have e2 := maxMan_succ (c := c)
  by_cases h1 : k ≤ d.exp
  · rw [if_pos h1]
    exact ⟨fun d' hq => by cases hq; exact ⟨hd, rfl, rfl, by omega⟩, Or.inr ⟨_, rfl⟩, fun hc => by omega⟩
  · rw [if_neg h1]
    by_cases h2 : k ≤ c.maxExp ∧ d.man * 10 ^ (k - d.exp) ≤ c.maxMan
    · rw [if_pos h2]
      refine ⟨?_, Or.inr ⟨_, rfl⟩, fun _ => ⟨fun _ => ⟨h2.1, (at_abs (by omega)).2 h2.2⟩, fun _ => ⟨_, rfl⟩⟩⟩
      intro d' hq
      cases hq
      refine ⟨⟨?_, ?_⟩, ?_, rfl, ?_⟩
      · show k < _; have := h2.1; omega
      · show d.man * 10 ^ (k - d.exp) < _; have := h2.2; omega
      · have := value_scale (p := d.pos) (m := d.man) (e := d.exp) (k := k - d.exp)
        rw [show d.exp + (k - d.exp) = k by omega] at this
        exact this
      · show k = _; omega
    · rw [if_neg h2]
      refine ⟨nofun, Or.inl rfl, fun _ => ⟨?_, ?_⟩⟩
      · rintro ⟨_, hx⟩; cases hx
      · intro hx; exact absurd ⟨hx.1, (at_abs (by omega)).1 hx.2⟩ h2

/-- `normalize` keeps number and sign and leaves no trailing zeros; equal numbers of the same sign have the same normal form. -/
theorem c29_normalize {d : Dec} (hd : d.WF c) :
    (d.normalize c).WF c ∧ (d.normalize c).value = d.value ∧ (d.normalize c).pos = d.pos ∧
    ((d.normalize c).exp ≠ 0 → (d.normalize c).man % 10 ≠ 0) ∧
    ∀ d' : Dec, d'.WF c → d'.pos = d.pos → d'.value = d.value → d'.normalize c = d.normalize c ∧ (d.normalize c).exp ≤ d'.exp := by
  obtain ⟨w, v, p, n, _⟩ := normalize_spec hd
  refine ⟨w, v, p, ?_, ?_⟩
  · intro he
    rcases n.2 with h1 | h1 | h1
    · exact absurd (n.1 h1) he
    · exact absurd h1 he
    · exact h1
  · intro d' hd' hp hv
    obtain ⟨w', v', p', n', l'⟩ := normalize_spec hd'
    have hpp : (d'.normalize c).pos = (d.normalize c).pos := by rw [p', p, hp]
    obtain ⟨q1, q2⟩ := normal_unique n' n ((value_cross hpp).1 (by rw [v', v, hv]))
    refine ⟨?_, by omega⟩
    cases hr : d'.normalize c
    cases hm : d.normalize c
    simp_all

/-- One unit of the last of `k` digits. -/
def unit (k : Nat) : ℚ := 1 / 10 ^ k

theorem trim_value {d : Dec} (hd : d.WF c) {k : Nat} (hk : k < d.exp) :
    Dec.WF c ⟨d.pos, k, d.man / 10 ^ (d.exp - k)⟩ ∧
    ((d.man / 10 ^ (d.exp - k) : Nat) : ℚ) / 10 ^ k ≤ (d.man : ℚ) / 10 ^ d.exp ∧
    (d.man : ℚ) / 10 ^ d.exp < ((d.man / 10 ^ (d.exp - k) : Nat) : ℚ) / 10 ^ k + unit k ∧
    (d.man % 10 ^ (d.exp - k) = 0 → ((d.man / 10 ^ (d.exp - k) : Nat) : ℚ) / 10 ^ k = (d.man : ℚ) / 10 ^ d.exp) ∧
    (d.man % 10 ^ (d.exp - k) ≠ 0 → ((d.man / 10 ^ (d.exp - k) : Nat) : ℚ) / 10 ^ k < (d.man : ℚ) / 10 ^ d.exp) := by
  have hdm := Nat.div_add_mod d.man (10 ^ (d.exp - k))
  have hlt := Nat.mod_lt d.man (show 0 < 10 ^ (d.exp - k) by positivity)
  generalize d.man / 10 ^ (d.exp - k) = q at *
  generalize d.man % 10 ^ (d.exp - k) = r at *
  have hpow : (10 : ℚ) ^ d.exp = 10 ^ k * 10 ^ (d.exp - k) := by rw [← pow_add]; congr 1; omega
  have hm : (d.man : ℚ) = 10 ^ (d.exp - k) * q + r := by exact_mod_cast hdm.symm
  have hr : (r : ℚ) < 10 ^ (d.exp - k) := by exact_mod_cast hlt
  have p1 : (0 : ℚ) < 10 ^ k := by positivity
  have p2 : (0 : ℚ) < 10 ^ (d.exp - k) := by positivity
  have hval : (d.man : ℚ) / 10 ^ d.exp = q / 10 ^ k + (r / 10 ^ (d.exp - k)) / 10 ^ k := by
    rw [hpow, hm]; field_simp
  have hr1 : (r : ℚ) / 10 ^ (d.exp - k) < 1 := by rw [div_lt_one p2]; exact hr
  have hr0 : (0 : ℚ) ≤ (r : ℚ) / 10 ^ (d.exp - k) := by positivity
  rw [hval]
  refine ⟨⟨?_, ?_⟩, ?_, ?_, ?_, ?_⟩
  · show k < _; have := hd.1; omega
  · show q < _
    have := hd.2
    have : q ≤ d.man := by
      have h1 : 1 * q ≤ 10 ^ (d.exp - k) * q := Nat.mul_le_mul_right _ (Nat.one_le_pow _ _ (by norm_num))
      omega
    omega
  · have : (0 : ℚ) ≤ (r / 10 ^ (d.exp - k)) / 10 ^ k := by positivity
    linarith
  · have : (r / 10 ^ (d.exp - k)) / 10 ^ k < (1 : ℚ) / 10 ^ k := div_lt_div_of_pos_right hr1 p1
    simp only [unit]; linarith
  · intro h0; simp [h0]
  · intro h0
    have : (0 : ℚ) < (r / 10 ^ (d.exp - k)) / 10 ^ k := by
      have : (0 : ℚ) < r := by exact_mod_cast Nat.pos_of_ne_zero h0
      positivity
    linarith

/-- `truncate(k)` leaves at most `k` digits, keeps the sign and rounds toward zero by less than one unit of the last digit. -/
theorem c29_truncate (h : c.Good) {d : Dec} (hd : d.WF c) (k : Nat) : ∃ d', d.truncate c k = .ok d' ∧ d'.WF c ∧
    d'.pos = d.pos ∧ d'.exp = min d.exp k ∧ |d'.value| ≤ |d.value| ∧ |d.value| < |d'.value| + unit k ∧
    (d.exp ≤ k → d' = d) := by
  have habs : ∀ x : Dec, |x.value| = (x.man : ℚ) / 10 ^ x.exp := by
    intro x
    simp only [Dec.value]
    rw [abs_div, abs_mul, abs_of_nonneg (show (0 : ℚ) ≤ 10 ^ x.exp by positivity),
      abs_of_nonneg (show (0 : ℚ) ≤ (x.man : ℚ) by positivity)]
    split <;> simp
  have hu : (0 : ℚ) < unit k := by simp only [unit]; positivity
  rw [Dec.truncate, trimSelf_eq h hd]
  by_cases h1 : d.exp ≤ k
  · rw [if_pos h1]
    exact ⟨d, rfl, hd, rfl, by omega, le_refl _, by linarith, fun _ => rfl⟩
  · rw [if_neg h1, if_neg (by simp)]
    obtain ⟨w, a, b, _, _⟩ := trim_value hd (show k < d.exp by omega)
    exact ⟨_, rfl, w, rfl, by show k = _; omega, by rw [habs, habs]; exact a, by rw [habs, habs]; exact b, fun hc => absurd hc h1⟩

/-- `rescale(k)` is exact or throws: it throws exactly when the number cannot be written with `k` digits.
`rescale(k, false)` is `extend` or `truncate`. -/
theorem c29_rescale (h : c.Good) {d : Dec} (hd : d.WF c) (k : Nat) :
    (∀ d', d.rescale c k true = .ok d' → d'.WF c ∧ d'.value = d.value ∧ d'.pos = d.pos ∧ d'.exp = k) ∧
    (d.rescale c k true = .throw .logic ∨ ∃ d', d.rescale c k true = .ok d') ∧
    ((∃ d', d.rescale c k true = .ok d') ↔ ∃ d' : Dec, d'.WF c ∧ d'.value = d.value ∧ d'.pos = d.pos ∧ d'.exp = k) ∧
    d.rescale c k false = (if d.exp < k then d.extend c k else d.truncate c k) := by
  simp only [Dec.rescale, rescaleSelf_eq, Dec.extend, Dec.truncate]
  obtain ⟨x1, x2, x3⟩ := c29_extend h hd k
  simp only [Dec.extend] at x1 x2 x3
  by_cases h1 : d.exp < k
  · simp only [if_pos h1]
    refine ⟨fun d' hq => ?_, x2, ⟨?_, ?_⟩, trivial⟩
    · obtain ⟨a, b, p, q⟩ := x1 d' hq
      exact ⟨a, b, p, by omega⟩
    · rintro ⟨d', hq⟩
      obtain ⟨a, b, p, q⟩ := x1 d' hq
      exact ⟨d', a, b, p, by omega⟩
    · rintro ⟨d', a, b, p, q⟩
      rw [x3 h1]
      have hk := WF.exp_le a
      rw [q] at hk
      refine ⟨hk, ?_⟩
      have h2 : d.at k = d'.at k := by simp only [Dec.at, b]
      rw [h2, at_abs (by omega), q]
      simpa using WF.man_le a
  · simp only [if_neg h1, trimSelf_eq h hd]
    have h10 : (10 : ℚ) ^ d.exp ≠ 0 := by positivity
    by_cases h2 : d.exp ≤ k
    · simp only [if_pos h2]
      have he : d.exp = k := by omega
      exact ⟨fun d' hq => by cases hq; exact ⟨hd, rfl, rfl, he⟩, Or.inr ⟨_, rfl⟩,
        ⟨fun _ => ⟨d, hd, rfl, rfl, he⟩, fun _ => ⟨_, rfl⟩⟩, trivial⟩
    · simp only [if_neg h2]
      have hlt : k < d.exp := by omega
      obtain ⟨w, _, _, b, _⟩ := trim_value hd hlt
      have hval : d.man % 10 ^ (d.exp - k) = 0 → Dec.value ⟨d.pos, k, d.man / 10 ^ (d.exp - k)⟩ = d.value := by
        intro h0
        have := b h0
        simp only [Dec.value, mul_div_assoc]
        rw [this]
      by_cases h3 : d.man % 10 ^ (d.exp - k) = 0
      · rw [if_neg (show ¬ (True ∧ d.man % 10 ^ (d.exp - k) ≠ 0) from fun hc => hc.2 h3)]
        exact ⟨fun d' hq => by cases hq; exact ⟨w, hval h3, rfl, rfl⟩, Or.inr ⟨_, rfl⟩,
          ⟨fun _ => ⟨_, w, hval h3, rfl, rfl⟩, fun _ => ⟨_, rfl⟩⟩, by simp⟩
      · rw [if_pos (show True ∧ d.man % 10 ^ (d.exp - k) ≠ 0 from ⟨trivial, h3⟩)]
        refine ⟨nofun, Or.inl rfl, ⟨(fun ⟨_, hx⟩ => nomatch hx), ?_⟩, by simp⟩
        rintro ⟨d', a, v, p, q⟩
        rw [value_cross p, q] at v
        exfalso
        apply h3
        rw [show d.exp = k + (d.exp - k) by omega, pow_add, ← Nat.mul_assoc, Nat.mul_right_comm] at v
        have h4 : d'.man * 10 ^ (d.exp - k) = d.man := by
          have := Nat.eq_of_mul_eq_mul_right (show 0 < 10 ^ k by positivity) v
          simpa using this
        rw [← h4]; simp

/-- `y` is a multiple of the unit of the last of `k` digits. -/
def OnGrid (k : Nat) (y : ℚ) : Prop := ∃ n : Int, y = n / 10 ^ k

theorem grid_gap {k : Nat} {a b : ℚ} (ha : OnGrid k a) (hb : OnGrid k b) (h : a < b + unit k) : a ≤ b := by
  obtain ⟨m, rfl⟩ := ha
  obtain ⟨n, rfl⟩ := hb
  have p : (0 : ℚ) < 10 ^ k := by positivity
  simp only [unit] at h
  rw [← add_div, div_lt_div_iff_of_pos_right p] at h
  rw [div_le_div_iff_of_pos_right p]
  have : m < n + 1 := by exact_mod_cast h
  exact_mod_cast (show m ≤ n by omega)

theorem onGrid_value (d : Dec) : OnGrid d.exp d.value := ⟨d.mantissa, value_eq d⟩

/-- `floor(k)` of a decimal that is not negative: the greatest number with `k` digits that is not above. -/
theorem c29_floor_partial (h : c.Good) {d : Dec} (hd : d.WF c) (hpos : d.pos = true) (k : Nat) : ∃ d', d.floor c k = .ok d' ∧
    d'.WF c ∧ d'.exp = min d.exp k ∧ d'.value ≤ d.value ∧ ∀ y, OnGrid k y → y ≤ d.value → y ≤ d'.value := by
  obtain ⟨d', h1, h2, h3, h4, h5, h6, h7⟩ := c29_truncate h hd k
  have p : 0 ≤ d.value := by rw [value_pos hpos]; positivity
  have p' : 0 ≤ d'.value := by rw [value_pos (h3.trans hpos)]; positivity
  rw [abs_of_nonneg p, abs_of_nonneg p'] at h5 h6
  refine ⟨d', h1, h2, h4, h5, ?_⟩
  intro y hy hle
  by_cases he : d.exp ≤ k
  · rw [h7 he]; exact hle
  · have hg := onGrid_value d'
    rw [h4, show min d.exp k = k by omega] at hg
    exact grid_gap hy hg (lt_of_le_of_lt hle h6)

/-- `ceil(k)` of a decimal that is not negative: the least number with `k` digits that is not below. -/
theorem c29_ceil_partial (h : c.Good) {d : Dec} (hd : d.WF c) (hpos : d.pos = true) (k : Nat) : ∃ d', d.ceil c k = .ok d' ∧
    d'.exp = min d.exp k ∧ d.value ≤ d'.value ∧ ∀ y, OnGrid k y → d.value ≤ y → d'.value ≤ y := by
  rw [Dec.ceil, ceilSelf_eq h hd]
  by_cases h1 : d.exp ≤ k
  · rw [if_pos h1]; exact ⟨d, rfl, by omega, le_refl _, fun y _ hy => hy⟩
  · rw [if_neg h1]
    obtain ⟨_, a, b, e, n⟩ := trim_value hd (show k < d.exp by omega)
    refine ⟨_, rfl, by show k = _; omega, ?_, ?_⟩
    · rw [value_pos hpos, value_pos (by exact hpos)]
      by_cases h3 : d.man % 10 ^ (d.exp - k) = 0
      · rw [if_pos h3]; simp only [Nat.add_zero]; rw [e h3]
      · rw [if_neg h3]; simp only; push_cast; rw [add_div]
        simp only [unit] at b; linarith
    · intro y hy hle
      rw [value_pos hpos] at hle
      rw [value_pos (by exact hpos)]
      by_cases h3 : d.man % 10 ^ (d.exp - k) = 0
      · rw [if_pos h3]; simp only [Nat.add_zero]; rw [e h3]; exact hle
      · rw [if_neg h3]
        have hn := n h3
        have hg : OnGrid k (((d.man / 10 ^ (d.exp - k) + 1 : Nat) : ℚ) / 10 ^ k) := ⟨(d.man / 10 ^ (d.exp - k) + 1 : Nat), by push_cast; rfl⟩
        apply grid_gap hg hy
        push_cast at hn ⊢
        rw [add_div]
        simp only [unit]
        linarith

/-- For every negative decimal that has to be rounded, `floor` gives a number above it and `ceil` one below it. -/
theorem c29_floor_ceil_violated (h : c.Good) {d : Dec} (hd : d.WF c) (hneg : d.pos = false) {k : Nat} (hk : k < d.exp)
    (hr : ¬ OnGrid k d.value) :
    (∃ d', d.floor c k = .ok d' ∧ d.value < d'.value) ∧ (∃ d', d.ceil c k = .ok d' ∧ d'.value < d.value) := by
  obtain ⟨_, a, b, e, n⟩ := trim_value hd hk
  have h3 : d.man % 10 ^ (d.exp - k) ≠ 0 := by
    intro h0
    apply hr
    refine ⟨-((d.man / 10 ^ (d.exp - k) : Nat) : Int), ?_⟩
    rw [value_neg hneg, ← e h0, Int.cast_neg, Int.cast_natCast, neg_div]
  constructor
  · rw [Dec.floor, Dec.truncate, trimSelf_eq h hd, if_neg (by omega), if_neg (by simp)]
    refine ⟨_, rfl, ?_⟩
    rw [value_neg hneg, value_neg (by exact hneg)]
    have := n h3
    simp only
    linarith
  · rw [Dec.ceil, ceilSelf_eq h hd, if_neg (by omega), if_neg h3]
    refine ⟨_, rfl, ?_⟩
    rw [value_neg hneg, value_neg (by exact hneg)]
    simp only [unit] at b
    simp only
    push_cast at b ⊢
    rw [add_div]
    linarith

/-- 1.25: floor 1.2, ceil 1.3; -1.25: "floor" -1.2, "ceil" -1.3 -/
example : Dec.floor c64 ⟨true, 2, 125⟩ 1 = .ok ⟨true, 1, 12⟩ := by decide +kernel
example : Dec.ceil c64 ⟨true, 2, 125⟩ 1 = .ok ⟨true, 1, 13⟩ := by decide +kernel
example : Dec.floor c64 ⟨false, 2, 125⟩ 1 = .ok ⟨false, 1, 12⟩ := by decide +kernel
example : Dec.ceil c64 ⟨false, 2, 125⟩ 1 = .ok ⟨false, 1, 13⟩ := by decide +kernel
example : ¬ OnGrid 1 (Dec.value ⟨false, 2, 125⟩) := by
  rintro ⟨n, hn⟩
  norm_num [Dec.value] at hn
  have h1 : (-25 : ℚ) = 2 * n := by linarith
  have h2 : (-25 : Int) = 2 * n := by exact_mod_cast h1
  omega
example : Dec.rescale c64 ⟨true, 2, 120⟩ 1 true = .ok ⟨true, 1, 12⟩ := by decide +kernel
example : Dec.rescale c64 ⟨true, 2, 125⟩ 1 true = .throw .logic := by decide +kernel
example : Dec.extend c64 ⟨true, 2, 125⟩ 4 = .ok ⟨true, 4, 12500⟩ := by decide +kernel

/-! ## C30: bits -/

theorem c30_bits_round_trip {d : Dec} (hd : d.WF c) : fromBits c (d.toBits c) = d := by
  obtain ⟨pos, exp, man⟩ := d
  have h1 : exp < 2 ^ c.e := hd.1
  have hp : 0 < 2 ^ c.e := Nat.pos_of_ne_zero (by simp)
  simp only [Dec.toBits, fromBits, pow_succ']
  generalize 2 ^ c.e = E at *
  have key : ∀ s : Nat, s ≤ 1 → (s + 2 * exp + 2 * E * man) / 2 = exp + E * man := by
    intro s hs
    rw [Nat.mul_assoc]; omega
  have key2 : (exp + E * man) % E = exp := by rw [Nat.add_mul_mod_self_left, Nat.mod_eq_of_lt h1]
  have key3 : ∀ s : Nat, s ≤ 1 → (s + 2 * exp + 2 * E * man) / (2 * E) = man := by
    intro s hs
    rw [← Nat.div_div_eq_div_mul, key s hs, Nat.add_mul_div_left _ _ hp, Nat.div_eq_of_lt h1, Nat.zero_add]
  cases pos
  · simp only [Bool.false_eq_true, if_false]
    rw [key 1 (by norm_num), key2, key3 1 (by norm_num), Nat.mul_assoc]
    congr 1
    simp
  · simp only [if_true]
    rw [key 0 (by norm_num), key2, key3 0 (by norm_num), Nat.mul_assoc]
    congr 1
    simp

/-- Every bit pattern is that of exactly one decimal. -/
theorem c30_every_pattern (h : c.Good) {v : Nat} (hv : v < 2 ^ c.w) : (fromBits c v).WF c ∧ (fromBits c v).toBits c = v := by
  have hp : 0 < 2 ^ c.e := Nat.pos_of_ne_zero (by simp)
  have hw : 2 ^ c.w = 2 ^ (c.e + 1) * 2 ^ c.manLen := by rw [← pow_add]; congr 1; have := h.manLen_lt; omega
  refine ⟨⟨Nat.mod_lt _ hp, ?_⟩, ?_⟩
  · show v / 2 ^ (c.e + 1) < _
    rw [hw] at hv
    exact Nat.div_lt_of_lt_mul hv
  · simp only [fromBits, Dec.toBits, pow_succ']
    rw [← Nat.div_div_eq_div_mul]
    have h1 := Nat.div_add_mod (v / 2) (2 ^ c.e)
    rw [Nat.mul_assoc]
    generalize 2 ^ c.e * (v / 2 / 2 ^ c.e) = A at *
    generalize v / 2 % 2 ^ c.e = B at *
    by_cases h2 : v % 2 = 0
    · simp [h2]; omega
    · simp [h2]; omega

theorem c30_injective {x y : Dec} (hx : x.WF c) (hy : y.WF c) (h : x.toBits c = y.toBits c) : x = y := by
  rw [← c30_bits_round_trip hx, h, c30_bits_round_trip hy]

theorem c30_in_range (h : c.Good) {d : Dec} (hd : d.WF c) : d.toBits c < 2 ^ c.w := by
  have hw : 2 ^ c.w = 2 ^ (c.e + 1) * 2 ^ c.manLen := by rw [← pow_add]; congr 1; have := h.manLen_lt; omega
  rw [hw]
  have h1 := hd.1
  have h2 := hd.2
  simp only [Dec.toBits, pow_succ']
  have h3 : 2 * 2 ^ c.e * (d.man + 1) ≤ 2 * 2 ^ c.e * 2 ^ c.manLen := Nat.mul_le_mul_left _ h2
  rw [Nat.mul_add] at h3
  split <;> omega

example : Dec.toBits c64 ⟨false, 2, 125⟩ = 4005 ∧ fromBits c64 4005 = ⟨false, 2, 125⟩ := by decide +kernel

/-! ## C73: multiplication -/

theorem mantissa_mul (x y : Dec) : (x.mantissa * y.mantissa).natAbs = x.man * y.man := by
  rw [Int.natAbs_mul, mantissa_abs, mantissa_abs]

/-- Multiplication is exact if the product of the mantissas and the sum of the digit counts fit. -/
theorem c73_multiply_partial (h : c.Good) {x y : Dec} (hm : x.man * y.man ≤ c.maxMan) (he : x.exp + y.exp ≤ c.maxExp)
    (h8 : c.e ≤ 8) : ∃ d, multiply c x y = .ok d ∧ d.WF c ∧ d.exp = x.exp + y.exp ∧ d.value = x.value * y.value := by
  have h1 := mantissa_mul x y
  have h2 := h.two_man
  have h256 : c.maxExp < 256 := by
    have : 2 ^ c.e ≤ 2 ^ 8 := Nat.pow_le_pow_right (by norm_num) h8
    have := two_e_le (c := c); omega
  simp only [multiply]
  rw [sint_ok (by omega), Res.ok_bind, Nat.mod_eq_of_lt (by omega)]
  obtain ⟨d, q1, q2, q3, q4⟩ := fromMantissa_spec h (m := x.mantissa * y.mantissa) (k := x.exp + y.exp) (by omega) he
  refine ⟨d, q1, q2, q3, ?_⟩
  rw [q4.2 (by omega), value_eq x, value_eq y]
  push_cast
  rw [pow_add, div_mul_div_comm]

/-- It does not throw when the product does not fit: it never throws, and the result is a wrong number or undefined. -/
theorem c73_multiply_violated :
    (∀ (c : Cfg) (x y : Dec) (e : Exn), multiply c x y ≠ .throw e) ∧
    (∃ x y d : Dec, x.WF c64 ∧ y.WF c64 ∧ multiply c64 x y = .ok d ∧ d.value ≠ x.value * y.value) ∧
    (∃ x y d : Dec, x.WF c64 ∧ y.WF c64 ∧ x.man * y.man ≤ c64.maxMan ∧ multiply c64 x y = .ok d ∧ d.value ≠ x.value * y.value) ∧
    (∃ x y : Dec, x.WF c64 ∧ y.WF c64 ∧ multiply c64 x y = .ub) := by
  refine ⟨?_, ?_, ?_, ?_⟩
  · intro c x y e
    simp only [multiply, sint, Dec.setMantissa]
    split
    · simp only [Res.ok_bind]
      split
      · simp
      · split <;> simp
    · simp
  · refine ⟨⟨true, 0, 2 ^ 30⟩, ⟨true, 0, 2 ^ 29⟩, ⟨true, 0, 0⟩, ⟨by decide, by decide⟩, ⟨by decide, by decide⟩, by decide +kernel, ?_⟩
    norm_num [Dec.value]
  · refine ⟨⟨true, 8, 1⟩, ⟨true, 8, 1⟩, ⟨true, 0, 1⟩, ⟨by decide, by decide⟩, ⟨by decide, by decide⟩, by decide +kernel, by decide +kernel, ?_⟩
    norm_num [Dec.value]
  · exact ⟨⟨true, 0, 2 ^ 58⟩, ⟨true, 0, 2 ^ 58⟩, ⟨by decide, by decide⟩, ⟨by decide, by decide⟩, by decide +kernel⟩

example : multiply c64 ⟨true, 2, 150⟩ ⟨false, 1, 25⟩ = .ok ⟨false, 3, 3750⟩ := by decide +kernel

/-! ## C74: nanoseconds -/

/-- Seconds with at most nine digits, and not more than a 64-bit number of nanoseconds: exact, or refused because the number
of nanoseconds cannot be held by the decimal type. -/
theorem c74_nanoseconds_partial (h : c.Good) {d : Dec} (hd : d.WF c) (h9 : d.exp ≤ 9) (hfit : |d.value * 10 ^ 9| < 2 ^ 63) :
    (∀ n, toNanoseconds c d = .ok n → (n : ℚ) = d.value * 10 ^ 9) ∧ toNanoseconds c d ≠ .ub ∧
    (9 ≤ c.maxExp → |d.value * 10 ^ 9| ≤ (c.maxMan : ℚ) → ∃ n, toNanoseconds c d = .ok n) := by
  obtain ⟨x1, x2, x3⟩ := c29_extend h hd 9
  simp only [toNanoseconds]
  rcases x2 with x2 | ⟨d', x2⟩
  · rw [x2]
    refine ⟨nofun, nofun, fun hm hv => ?_⟩
    by_cases he : d.exp < 9
    · obtain ⟨d', hd'⟩ := (x3 he).2 ⟨hm, hv⟩
      rw [hd'] at x2; cases x2
    · rw [Dec.extend, extendSelf_eq h hd, if_pos (by omega)] at x2; cases x2
  · obtain ⟨w, v, p, e⟩ := x1 d' x2
    have he : d'.exp = 9 := by omega
    have hm : (d'.mantissa : ℚ) = d.value * 10 ^ 9 := by rw [← v, value_eq, he]; field_simp
    rw [← hm] at hfit ⊢
    rw [← Int.cast_abs] at hfit
    have hfit : |d'.mantissa| < 2 ^ 63 := by exact_mod_cast hfit
    rw [abs_lt] at hfit
    have hb : d'.mantissa.bmod (2 ^ 64) = d'.mantissa := by
      rw [Int.bmod_eq_of_le_mul_two] <;> omega
    rw [x2, Res.ok_bind, hb]
    exact ⟨fun n hn => by cases hn; rfl, by simp, fun _ _ => ⟨_, rfl⟩⟩

/-- One second written with ten digits is ten seconds. -/
theorem c74_nanoseconds_violated : ∃ (d : Dec) (n : Int), d.WF c64 ∧ d.value = 1 ∧ toNanoseconds c64 d = .ok n ∧
    n = 10 ^ 10 := by
  refine ⟨⟨true, 10, 10 ^ 10⟩, 10 ^ 10, ⟨by decide, by decide⟩, by norm_num [Dec.value], by decide +kernel, rfl⟩

example : toNanoseconds c64 ⟨false, 1, 15⟩ = .ok (-1500000000) := by decide +kernel

/-- If the mantissa has fewer than 64 bits (all decimals based on 64-bit numbers), seconds with at most nine digits are converted
exactly or refused, however large they are. -/
theorem c74_narrow_mantissa (h : c.Good) (hn : c.maxMan < 2 ^ 63) {d : Dec} (hd : d.WF c) (h9 : d.exp ≤ 9) :
    (∃ n, toNanoseconds c d = .ok n ∧ (n : ℚ) = d.value * 10 ^ 9) ∨ toNanoseconds c d = .throw .logic := by
  obtain ⟨x1, x2, x3⟩ := c29_extend h hd 9
  simp only [toNanoseconds]
  rcases x2 with x2 | ⟨d', x2⟩
  · rw [x2]; exact .inr rfl
  · obtain ⟨w, v, p, e⟩ := x1 d' x2
    have he : d'.exp = 9 := by omega
    have hm : (d'.mantissa : ℚ) = d.value * 10 ^ 9 := by rw [← v, value_eq, he]; field_simp
    have h1 : d'.mantissa.natAbs ≤ c.maxMan := by rw [mantissa_abs]; exact WF.man_le w
    have hb : d'.mantissa.bmod (2 ^ 64) = d'.mantissa := by
      rw [Int.bmod_eq_of_le_mul_two] <;> omega
    rw [x2, Res.ok_bind, hb]
    exact .inl ⟨_, rfl, hm⟩

example : c64.maxMan < 2 ^ 63 ∧ toNanoseconds c64 ⟨true, 0, 10 ^ 10⟩ = .throw .logic := by decide +kernel

/-- Wider decimals are not refused: 10^10 seconds, which is more than 64 bits of nanoseconds, become a negative number of them. -/
theorem c74_overflow_violated : ∃ (d : Dec) (n : Int), d.WF c128 ∧ d.value = 10 ^ 10 ∧ toNanoseconds c128 d = .ok n ∧ n < 0 := by
  refine ⟨⟨true, 0, 10 ^ 10⟩, -8446744073709551616, ⟨by decide, by decide⟩, by norm_num [Dec.value], by decide +kernel, by decide⟩

/-- What is returned in every case: refused, or the number of units of the last digit, but at least nanoseconds, in 64 bits. -/
theorem c74_returned_partial (h : c.Good) {d : Dec} (hd : d.WF c) :
    toNanoseconds c d = .throw .logic ∨ ∃ m : Int, (m : ℚ) = d.value * 10 ^ max d.exp 9 ∧ toNanoseconds c d = .ok (m.bmod (2 ^ 64)) := by
  obtain ⟨x1, x2, _⟩ := c29_extend h hd 9
  simp only [toNanoseconds]
  rcases x2 with x2 | ⟨d', x2⟩
  · rw [x2]; exact .inl rfl
  · obtain ⟨w, v, p, e⟩ := x1 d' x2
    refine .inr ⟨d'.mantissa, ?_, by rw [x2]; rfl⟩
    rw [← v, value_eq, ← e]; field_simp

/-- So it is with all numbers of seconds that have more than nine digits, except zero: the number returned (always one, with a mantissa of fewer than 64 bits) is not that of the nanoseconds. -/
theorem c74_more_digits_violated (h : c.Good) (hn : c.maxMan < 2 ^ 63) {d : Dec} (hd : d.WF c) (h9 : 9 < d.exp) (h0 : d.man ≠ 0) :
    ∃ n : Int, toNanoseconds c d = .ok n ∧ (n : ℚ) = d.value * 10 ^ d.exp ∧ (n : ℚ) ≠ d.value * 10 ^ 9 := by
  have h1 : d.mantissa.natAbs ≤ c.maxMan := by rw [mantissa_abs]; exact WF.man_le hd
  have hb : d.mantissa.bmod (2 ^ 64) = d.mantissa := by
    rw [Int.bmod_eq_of_le_mul_two] <;> omega
  have hm : (d.mantissa : ℚ) = d.value * 10 ^ d.exp := by rw [value_eq]; field_simp
  have hv : d.value ≠ 0 := by
    intro hv
    rw [hv, zero_mul] at hm
    have hm : d.mantissa = 0 := by exact_mod_cast hm
    have := mantissa_abs (d := d)
    rw [hm] at this
    exact h0 this.symm
  refine ⟨d.mantissa, ?_, hm, ?_⟩
  · rw [toNanoseconds, Dec.extend, extendSelf_eq h hd, if_pos (by omega), Res.ok_bind, hb]
  · rw [hm]
    intro he
    have he := mul_left_cancel₀ hv he
    have : (10 : ℚ) ^ 9 < 10 ^ d.exp := pow_lt_pow_right₀ (by norm_num) h9
    linarith

example : c64.maxMan < 2 ^ 63 ∧ Dec.WF c64 ⟨false, 12, 345⟩ ∧ toNanoseconds c64 ⟨false, 12, 345⟩ = .ok (-345) := ⟨by decide +kernel, ⟨by decide, by decide⟩, by decide +kernel⟩

/-! ## C75, C76: limits and unary minus -/

/-- `numeric_limits`: both bounds are decimals of the type, and no decimal is outside. -/
theorem c75_limits (h : c.Good) : ∃ mx mn, maxValue c = .ok mx ∧ minValue c = .ok mn ∧ mx.WF c ∧ mn.WF c ∧
    ∀ d : Dec, d.WF c → mn.value ≤ d.value ∧ d.value ≤ mx.value ∧ d.le c mx = .ok true ∧ mn.le c d = .ok true := by
  have hpos : 1 ≤ c.maxMan := by
    have h1 : 2 ^ 1 ≤ 2 ^ c.manLen := Nat.pow_le_pow_right (by norm_num) (by have := h.man; simp only [Cfg.manLen]; omega)
    have := maxMan_succ (c := c); omega
  obtain ⟨mx, h1, h2, h3, h4⟩ := fromMantissa_spec h (m := (c.maxMan : Int)) (k := 0) (by omega) (by omega)
  have hv : mx.value = c.maxMan := by rw [h4.2 (by omega)]; simp
  refine ⟨mx, mx.neg, h1, by simp only [minValue, h1, Res.ok_bind], h2, h2, ?_⟩
  intro d hd
  have hb : |d.value| ≤ c.maxMan := by
    rw [value_eq, abs_div, abs_of_nonneg (show (0 : ℚ) ≤ 10 ^ d.exp by positivity)]
    have h5 : |(d.mantissa : ℚ)| ≤ c.maxMan := natAbs_le_iff.1 (by rw [mantissa_abs]; exact WF.man_le hd)
    have h6 : (1 : ℚ) ≤ 10 ^ d.exp := one_le_pow₀ (by norm_num)
    exact le_trans (div_le_self (abs_nonneg _) h6) h5
  rw [abs_le] at hb
  have hlow : mx.neg.value ≤ d.value := by rw [neg_value, hv]; exact hb.1
  have hhigh : d.value ≤ mx.value := by rw [hv]; exact hb.2
  have hpos' : (0 : ℚ) < c.maxMan := by exact_mod_cast hpos
  have hnz : mx.value ≠ 0 := by rw [hv]; exact ne_of_gt hpos'
  refine ⟨hlow, hhigh, ?_, ?_⟩
  · rw [(c26_numeric_order_partial h hd h2 (fun hz => hnz hz.2.1)).2.2.1]
    simpa using hhigh
  · rw [(c26_numeric_order_partial h (x := mx.neg) h2 hd (fun hz => hnz (by have := hz.1; rw [neg_value] at this; linarith))).2.2.1]
    simpa using hlow

example : maxValue c64 = .ok ⟨true, 0, 576460752303423487⟩ := by decide +kernel

/-- Unary minus negates the number, keeps the digit count, and twice is nothing. -/
theorem c76_unary_minus {d : Dec} (hd : d.WF c) : d.neg.WF c ∧ d.neg.value = -d.value ∧ d.neg.exp = d.exp ∧ d.neg.neg = d := by
  refine ⟨hd, neg_value d, rfl, ?_⟩
  cases d; simp [Dec.neg, Dec.negate]

/-- A decimal minus itself is a zero. -/
theorem c76_sub_self (h : c.Good) {d : Dec} (hd : d.WF c) : ∃ z, d.sub c d = .ok z ∧ z.value = 0 ∧ z.pos = true := by
  have hle : |d.at d.exp| ≤ c.maxMan := (at_abs (le_refl _)).2 (by simpa using WF.man_le hd)
  obtain ⟨z, h1, _, h3, h4⟩ := (c25_sub_partial h hd hd (k := d.exp) (by simp)).2 ⟨hle, hle⟩
  refine ⟨z, h1, by rw [h4.2 (by simp)]; simp, ?_⟩
  have hal := align_eq h hd hd
  simp only [max_self, Nat.sub_self, pow_zero, Nat.mul_one] at hal
  rw [if_pos ⟨WF.man_le hd, WF.man_le hd⟩] at hal
  simp only [Dec.sub, hal, Res.ok_bind, sub_self] at h1
  have h2 := h.two_man
  rw [sint_ok (by omega), Res.ok_bind, fromMantissa_eq h (by simp) (WF.exp_le hd)] at h1
  cases h1; rfl

example : Dec.sub c64 ⟨false, 2, 125⟩ ⟨false, 2, 125⟩ = .ok ⟨true, 2, 0⟩ := by decide +kernel

/-! ## C77: mantissa accessors -/

/-- `set_mantissa(m)` followed by `mantissa()` gives `m`, whatever the decimal was before, if and only if `m` fits; the digit
count is kept.  A mantissa that does not fit is cut without notice. -/
theorem c77_set_mantissa (d : Dec) {m : Int} (hm : m.natAbs < 2 ^ (c.w - 1)) : ∃ d', d.setMantissa c m = .ok d' ∧
    d'.exp = d.exp ∧ (d'.mantissa = m ↔ m.natAbs ≤ c.maxMan) ∧ d'.man ≤ c.maxMan := by
  have e2 := maxMan_succ (c := c)
  have hlt : ∀ n, n % 2 ^ c.manLen < 2 ^ c.manLen := fun n => Nat.mod_lt _ pow_man_pos
  have hm' : (m.natAbs : Int) < 2 ^ (c.w - 1) := by exact_mod_cast hm
  simp only [Dec.setMantissa]
  by_cases h0 : m ≥ 0
  · rw [if_pos h0]
    refine ⟨_, rfl, rfl, ?_, ?_⟩
    · simp only [Dec.mantissa, Dec.setMan, if_true]
      rw [show m.toNat = m.natAbs by omega]
      have := hlt m.natAbs
      constructor
      · intro he; omega
      · intro he; rw [mod_man_eq he]; omega
    · have := hlt m.toNat; simp only [Dec.setMan]; omega
  · rw [if_neg h0, sint_ok (by omega), Res.ok_bind]
    refine ⟨_, rfl, rfl, ?_, ?_⟩
    · simp only [Dec.mantissa, Dec.setMan, Bool.false_eq_true, if_false]
      rw [show (-m).toNat = m.natAbs by omega]
      have := hlt m.natAbs
      constructor
      · intro he; omega
      · intro he; rw [mod_man_eq he]; omega
    · have := hlt (-m).toNat; simp only [Dec.setMan]; omega

example : Dec.setMantissa c64 ⟨false, 2, 125⟩ 7 = .ok ⟨true, 2, 7⟩ := by decide +kernel

end Verif.Decimal
