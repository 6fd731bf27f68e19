import Verif.Multiprec.DecData

/-! # C112: the fields of a multiprecision decimal are independent -/

namespace Verif.Multiprec

variable {w : Nat}

/-- The bits of the masks. -/
theorem signMask_bit (w i : Nat) : (signMask w).getLsbD i = (decide (i < w) && decide (i = 0)) := by
  simp only [signMask, BitVec.getLsbD_one]
  by_cases h : i = 0 <;> simp [h]

theorem ones_bit (w e i : Nat) (he : e < w) : ((1#w <<< e) - 1#w).getLsbD i = decide (i < e) := by
  have hw : 1 % 2 ^ w = 1 := Nat.mod_eq_of_lt (Nat.one_lt_two_pow (by omega))
  have hlt : 2 ^ e < 2 ^ w := Nat.pow_lt_pow_right (by decide) he
  have h1 : (1#w <<< e) - 1#w = BitVec.ofNat w (2 ^ e - 1) := by
    apply BitVec.eq_of_toNat_eq
    have hp : 0 < 2 ^ e := Nat.two_pow_pos e
    simp only [BitVec.toNat_sub, BitVec.toNat_shiftLeft, BitVec.toNat_ofNat, hw, Nat.one_shiftLeft, Nat.mod_eq_of_lt hlt]
    rw [show 2 ^ w - 1 + 2 ^ e = (2 ^ e - 1) + 2 ^ w by omega, Nat.add_mod_right]
  rw [h1, BitVec.getLsbD_ofNat, Nat.testBit_two_pow_sub_one]
  by_cases h : i < e
  · simp [h]; omega
  · simp [h]

theorem expMask_bit (w e i : Nat) (he : e < w) : (expMask w e).getLsbD i = (decide (i < w) && decide (1 ≤ i) && decide (i ≤ e)) := by
  simp only [expMask, BitVec.getLsbD_shiftLeft, ones_bit w e _ he]
  by_cases h1 : i < w
  · by_cases h2 : i < 1
    · simp [h2]; omega
    · have h3 : 1 ≤ i := by omega
      have h4 : (i - 1 < e) = (i ≤ e) := by apply propext; omega
      simp only [h1, h2, h3, h4, decide_true, decide_false, Bool.not_false, Bool.true_and]
  · simp [h1]

theorem manMask_bit (w e i : Nat) (he : e < w) : (manMask w e).getLsbD i = (decide (i < w) && decide (e < i)) := by
  simp only [manMask, BitVec.getLsbD_and, BitVec.getLsbD_allOnes, BitVec.getLsbD_not, BitVec.getLsbD_or, expMask_bit w e i he, signMask_bit]
  by_cases h1 : i < w <;> by_cases h2 : e < i <;> by_cases h3 : i = 0 <;> simp [h1, h2, h3] <;> omega

/-! ## Specification: the three fields, in the bits 0, 1 … e and e + 1 … w - 1 of the word -/

def signField (m : BitVec w) : Bool := !m.getLsbD 0
def expField (e : Nat) (m : BitVec w) : Nat := (m.toNat / 2) % 2 ^ e
def manField (e : Nat) (m : BitVec w) : Nat := m.toNat / 2 ^ (e + 1)

/-- C112: the getters give the fields (of an exponent of at most 8 bits). -/
theorem c112_get (e : Nat) (m : BitVec w) (he : e < w) (he8 : e ≤ 8) :
    positive m = signField m ∧ exp e m = expField e m ∧ (man e m).toNat = manField e m := by
  refine ⟨?_, ?_, ?_⟩
  · simp only [positive, signField]
    cases hb : m.getLsbD 0 with
    | true =>
      simp only [Bool.not_true, beq_eq_false_iff_ne, ne_eq]
      intro h
      have := congrArg (·.getLsbD 0) h
      simp [BitVec.getLsbD_and, hb, signMask_bit] at this
      omega
    | false =>
      simp only [Bool.not_false, beq_iff_eq]
      apply BitVec.eq_of_getLsbD_eq
      intro i hi
      simp only [BitVec.getLsbD_and, signMask_bit, BitVec.getLsbD_zero]
      by_cases h : i = 0
      · simp [h, hb]
      · simp [h]
  · have h : ((m &&& expMask w e) >>> 1).toNat = expField e m := by
      apply Nat.eq_of_testBit_eq
      intro i
      rw [show ((m &&& expMask w e) >>> 1).toNat.testBit i = ((m &&& expMask w e) >>> 1).getLsbD i from rfl]
      simp only [BitVec.getLsbD_ushiftRight, BitVec.getLsbD_and, expMask_bit w e _ he, expField, Nat.testBit_mod_two_pow]
      rw [show m.toNat / 2 = m.toNat / 2 ^ 1 from rfl, Nat.testBit_div_two_pow, show m.toNat.testBit (i + 1) = m.getLsbD (i + 1) from rfl, Nat.add_comm 1 i]
      by_cases h1 : i + 1 < w
      · by_cases h2 : i < e
        · simp [h1, h2]; omega
        · simp [h2]; omega
      · have : m.getLsbD (i + 1) = false := BitVec.getLsbD_of_ge _ _ (by omega)
        simp [this]
    rw [exp, h]
    apply Nat.mod_eq_of_lt
    have h1 : expField e m < 2 ^ e := Nat.mod_lt _ (Nat.two_pow_pos e)
    have h2 : 2 ^ e ≤ 2 ^ 8 := Nat.pow_le_pow_right (by decide) he8
    omega
  · simp [man, manField, Nat.shiftRight_eq_div_pow]

/-- Words are equal exactly if the fields are. -/
theorem c112_fields (e : Nat) (m n : BitVec w) (hs : signField m = signField n) (he : expField e m = expField e n) (hm : manField e m = manField e n) : m = n := by
  apply BitVec.eq_of_toNat_eq
  have key : ∀ (m : BitVec w), m.toNat = (if signField m then 0 else 1) + 2 * expField e m + 2 ^ (e + 1) * manField e m := by
    intro m
    have h1 : m.toNat % 2 = if signField m then 0 else 1 := by
      have hb : m.getLsbD 0 = decide (m.toNat % 2 = 1) := by
        rw [show m.getLsbD 0 = m.toNat.testBit 0 from rfl, Nat.testBit_zero]
      simp only [signField, hb]
      by_cases h : m.toNat % 2 = 1
      · simp [h]
      · simp [h]
        omega
    have h2 := Nat.div_add_mod m.toNat 2
    have h3 := Nat.div_add_mod (m.toNat / 2) (2 ^ e)
    have h4 : manField e m = m.toNat / 2 / 2 ^ e := by
      rw [manField, Nat.div_div_eq_div_mul, Nat.pow_succ, Nat.mul_comm]
    have h5 : 2 ^ (e + 1) * manField e m = 2 * (2 ^ e * (m.toNat / 2 / 2 ^ e)) := by rw [h4, Nat.pow_succ]; rw [Nat.mul_comm (2 ^ e) 2, Nat.mul_assoc]
    simp only [expField]
    omega
  rw [key m, key n, hs, he, hm]

theorem bit_field (m : BitVec w) (i : Nat) : m.toNat.testBit i = m.getLsbD i := rfl

/-- The fields by their bits. -/
theorem expField_bit (e : Nat) (m : BitVec w) (i : Nat) : (expField e m).testBit i = (decide (i < e) && m.getLsbD (i + 1)) := by
  rw [expField, show m.toNat / 2 = m.toNat / 2 ^ 1 from rfl, Nat.testBit_mod_two_pow, Nat.testBit_div_two_pow, bit_field]

theorem manField_bit (e : Nat) (m : BitVec w) (i : Nat) : (manField e m).testBit i = m.getLsbD (i + (e + 1)) := by
  rw [manField, Nat.testBit_div_two_pow, bit_field]

/-- C112: setting the sign changes only the sign. -/
theorem c112_set_positive (e : Nat) (m : BitVec w) (pos : Bool) (hw : 0 < w) :
    signField (setPositive m pos) = pos ∧ expField e (setPositive m pos) = expField e m ∧ manField e (setPositive m pos) = manField e m := by
  have hb : ∀ i, (setPositive m pos).getLsbD i = if i = 0 then !pos else m.getLsbD i := by
    intro i
    simp only [setPositive, BitVec.getLsbD_or, BitVec.getLsbD_and, BitVec.getLsbD_not, signMask_bit]
    by_cases hi : i < w
    · by_cases h0 : i = 0
      · subst h0; cases pos <;> simp [hw]
      · cases pos <;> simp [hi, h0]
    · have h0 : i ≠ 0 := by omega
      have : m.getLsbD i = false := BitVec.getLsbD_of_ge _ _ (by omega)
      cases pos <;> simp [h0, this, BitVec.getLsbD_one]
  refine ⟨by simp [signField, hb], ?_, ?_⟩
  · apply Nat.eq_of_testBit_eq; intro i; simp [expField_bit, hb]
  · apply Nat.eq_of_testBit_eq; intro i; simp [manField_bit, hb]

/-- C112: setting the mantissa changes only the mantissa; of a value that is too large the low bits are kept. -/
theorem c112_set_man (e : Nat) (m val : BitVec w) (he : e < w) :
    manField e (setMan e m val) = val.toNat % 2 ^ (w - (e + 1)) ∧ signField (setMan e m val) = signField m ∧ expField e (setMan e m val) = expField e m := by
  have hb : ∀ i, (setMan e m val).getLsbD i = if i ≤ e then m.getLsbD i else (decide (i < w) && val.getLsbD (i - (e + 1))) := by
    intro i
    simp only [setMan, BitVec.getLsbD_or, BitVec.getLsbD_and, BitVec.getLsbD_not, manMask_bit w e i he, BitVec.getLsbD_shiftLeft]
    by_cases hi : i < w
    · by_cases h0 : i ≤ e
      · have h1 : i < e + 1 := by omega
        have h2 : ¬ e < i := by omega
        simp [h0, hi, h1, h2]
      · have h1 : ¬ i < e + 1 := by omega
        have h2 : e < i := by omega
        simp [h0, hi, h1, h2]
    · have h0 : ¬ i ≤ e := by omega
      simp [h0, hi]
  refine ⟨?_, by simp [signField, hb], ?_⟩
  · apply Nat.eq_of_testBit_eq
    intro i
    rw [manField_bit, hb, Nat.testBit_mod_two_pow, if_neg (by omega), bit_field, show i + (e + 1) - (e + 1) = i by omega]
    congr 1
    apply decide_eq_decide.mpr
    omega
  · apply Nat.eq_of_testBit_eq
    intro i
    rw [expField_bit, expField_bit, hb]
    by_cases h : i < e
    · rw [if_pos (by omega)]
    · simp [h]

/-- C112, for an exponent that fits: setting it changes only the exponent.  Missing: larger values (`c112_large_exp_violated`). -/
theorem c112_set_exp_partial (e : Nat) (m : BitVec w) (val : Nat) (he : e < w) (hv : val < 2 ^ e) :
    expField e (setExp e m val) = val ∧ signField (setExp e m val) = signField m ∧ manField e (setExp e m val) = manField e m := by
  have hbit : ∀ i, e ≤ i → val.testBit i = false := fun i hi => Nat.testBit_lt_two_pow (Nat.lt_of_lt_of_le hv (Nat.pow_le_pow_right (by decide) hi))
  have hb : ∀ i, (setExp e m val).getLsbD i = if 1 ≤ i ∧ i ≤ e then val.testBit (i - 1) else m.getLsbD i := by
    intro i
    simp only [setExp, BitVec.getLsbD_or, BitVec.getLsbD_and, BitVec.getLsbD_not, expMask_bit w e i he, BitVec.getLsbD_shiftLeft, BitVec.getLsbD_ofNat]
    by_cases hi : i < w
    · by_cases h0 : 1 ≤ i ∧ i ≤ e
      · have h1 : ¬ i = 0 := by omega
        have h2 : i - 1 < w := by omega
        simp [h0, hi, h1, h2]
      · by_cases h1 : i = 0
        · subst h1; simp [hi]
        · have h2 : ¬ i ≤ e := by omega
          have h3 := hbit (i - 1) (by omega)
          simp [hi, h1, h2, h3]
    · have h0 : ¬ (1 ≤ i ∧ i ≤ e) := by omega
      have : m.getLsbD i = false := BitVec.getLsbD_of_ge _ _ (by omega)
      simp [h0, hi, this]
  refine ⟨?_, by simp [signField, hb], ?_⟩
  · apply Nat.eq_of_testBit_eq
    intro i
    rw [expField_bit, hb]
    by_cases h : i < e
    · rw [if_pos (by omega)]; simp [h]
    · simp [h, hbit i (by omega)]
  · apply Nat.eq_of_testBit_eq
    intro i
    rw [manField_bit, manField_bit, hb, if_neg (by omega)]

/-- C112: the constructor, for an exponent and a mantissa that fit. -/
theorem c112_make_partial (e : Nat) (pos : Bool) (ex : Nat) (mn : BitVec w) (he : e < w) (hx : ex < 2 ^ e) (hm : mn.toNat < 2 ^ (w - (e + 1))) :
    signField (make e pos ex mn) = pos ∧ expField e (make e pos ex mn) = ex ∧ manField e (make e pos ex mn) = mn.toNat := by
  obtain ⟨a1, a2, a3⟩ := c112_set_man e (setExp e (setPositive 0#w pos) ex) mn he
  obtain ⟨b1, b2, b3⟩ := c112_set_exp_partial e (setPositive 0#w pos) ex he hx
  obtain ⟨c1, c2, c3⟩ := c112_set_positive e (0#w) pos (by omega)
  rw [Nat.mod_eq_of_lt hm] at a1
  simp only [make]
  exact ⟨by rw [a2, b2, c1], by rw [a3, b1], a1⟩

/-- C112 is violated by an exponent that does not fit: it changes the mantissa, for every exponent length that leaves a bit for it. -/
theorem c112_large_exp_violated (e : Nat) (he : e + 1 < w) : ∃ (m : BitVec w), manField e m = 0 ∧ manField e (setExp e m (2 ^ e)) = 1 ∧ expField e (setExp e m (2 ^ e)) = 0 := by
  refine ⟨0#w, by simp [manField], ?_, ?_⟩
  · apply Nat.eq_of_testBit_eq
    intro i
    rw [manField_bit]
    simp only [setExp, BitVec.getLsbD_or, BitVec.getLsbD_and, BitVec.getLsbD_shiftLeft, BitVec.getLsbD_ofNat]
    rw [show i + (e + 1) - 1 = i + e by omega, Nat.testBit_two_pow, show (1 : Nat) = 2 ^ 0 from rfl, Nat.testBit_two_pow]
    by_cases h : i = 0
    · subst h; simp; omega
    · simp [Ne.symm h, h]
  · apply Nat.eq_of_testBit_eq
    intro i
    rw [expField_bit]
    simp only [setExp, BitVec.getLsbD_or, BitVec.getLsbD_and, BitVec.getLsbD_shiftLeft, BitVec.getLsbD_ofNat]
    rw [show i + 1 - 1 = i by omega, Nat.testBit_two_pow]
    by_cases h : i < e
    · have : ¬ e = i := by omega
      simp [this]
    · simp [h]

/-! ### Samples: the 128 bit word with an exponent of 4 bits of `MultiprecisionTest.cpp` -/

example : make (w := 128) 4 false 3 15#128 = 0x1e7#128 := by decide +kernel
example : positive (make (w := 128) 4 false 3 15#128) = false ∧ exp 4 (make (w := 128) 4 false 3 15#128) = 3 ∧ man 4 (make (w := 128) 4 false 3 15#128) = 15#128 := by decide +kernel
example : (15#128 : BitVec 128).toNat < 2 ^ (128 - (4 + 1)) ∧ 3 < 2 ^ 4 := by decide +kernel

end Verif.Multiprec
