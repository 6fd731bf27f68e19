import Verif.Multiprec.DecProps

/-! # C112: what every exponent does to the other fields, whether it fits or not -/

namespace Verif.Multiprec

variable {w : Nat}

/-- C112 in full for `set_exp`: for every word and every exponent of fewer than `w` bits, the sign is kept, the exponent is stored
modulo the size of its field, and what is beyond the field is combined with the mantissa. -/
theorem c112_set_any_exp (e : Nat) (m : BitVec w) (x : Nat) (he : e < w) (hx : x < 2 ^ (w - 1)) :
    signField (setExp e m x) = signField m ∧ expField e (setExp e m x) = x % 2 ^ e ∧
      manField e (setExp e m x) = manField e m ||| x / 2 ^ e := by
  have hbig : ∀ i, w ≤ i + 1 → x.testBit i = false := by
    intro i hi
    exact Nat.testBit_lt_two_pow (Nat.lt_of_lt_of_le hx (Nat.pow_le_pow_right (by decide) (by omega)))
  have hb : ∀ i, (setExp e m x).getLsbD i = if i = 0 then m.getLsbD 0 else if i ≤ e then x.testBit (i - 1) else (m.getLsbD i || x.testBit (i - 1)) := by
    intro i
    simp only [setExp, BitVec.getLsbD_or, BitVec.getLsbD_and, BitVec.getLsbD_not, expMask_bit w e i he, BitVec.getLsbD_shiftLeft, BitVec.getLsbD_ofNat]
    by_cases h0 : i = 0
    · subst h0
      have : 0 < w := by omega
      simp [this]
    · have h1 : 1 ≤ i := by omega
      have h1' : ¬ i < 1 := by omega
      by_cases hw : i < w
      · have hw' : i - 1 < w := by omega
        by_cases h2 : i ≤ e
        · simp [h0, h1, h1', hw, hw', h2]
        · simp [h0, h1, h1', hw, hw', h2]
      · have h2 : ¬ i ≤ e := by omega
        have h3 := hbig (i - 1) (by omega)
        have h4 : m.getLsbD i = false := BitVec.getLsbD_of_ge m i (by omega)
        simp [h0, h2, h3, h4]
  refine ⟨?_, ?_, ?_⟩
  · simp [signField, hb]
  · apply Nat.eq_of_testBit_eq
    intro i
    rw [expField_bit, hb, Nat.testBit_mod_two_pow]
    by_cases h : i < e
    · have : i + 1 ≤ e := by omega
      simp [h, this]
    · simp [h]
  · apply Nat.eq_of_testBit_eq
    intro i
    rw [manField_bit, hb, Nat.testBit_or, manField_bit, Nat.testBit_div_two_pow]
    have h1 : ¬ i + (e + 1) ≤ e := by omega
    have h0 : ¬ i + (e + 1) = 0 := by omega
    rw [if_neg h0, if_neg h1, show i + (e + 1) - 1 = i + e by omega]

/-- C112 is violated by every exponent that does not fit: it is not the exponent that is read afterwards, and it changes every
mantissa that does not have its excess bits already, the zero mantissa in particular. -/
theorem c112_every_exp_violated (e : Nat) (m : BitVec w) (x : Nat) (he : e < w) (hx : x < 2 ^ (w - 1)) (hbig : 2 ^ e ≤ x) :
    expField e (setExp e m x) ≠ x ∧
      (manField e (setExp e m x) = manField e m ↔ manField e m ||| x / 2 ^ e = manField e m) ∧
      (manField e m = 0 → manField e (setExp e m x) ≠ 0) := by
  obtain ⟨_, h2, h3⟩ := c112_set_any_exp e m x he hx
  have hp : 0 < 2 ^ e := Nat.two_pow_pos e
  refine ⟨?_, by rw [h3], ?_⟩
  · rw [h2]
    have := Nat.mod_lt x hp
    omega
  · intro h0
    rw [h3, h0, Nat.zero_or]
    have := Nat.div_pos hbig hp
    omega

/-- An exponent of 4 bits in a word of 128 bits, set to 35: it is read as 3, and the mantissa 4 has become 6. -/
example : (35 : Nat) < 2 ^ (128 - 1) ∧ 2 ^ 4 ≤ 35 ∧ expField 4 (setExp 4 (make (w := 128) 4 false 3 4#128) 35) = 3 ∧
    manField 4 (make (w := 128) 4 false 3 4#128) = 4 ∧ manField 4 (setExp 4 (make (w := 128) 4 false 3 4#128) 35) = 6 := by decide +kernel

/-- C112: the constructor, for every exponent: the mantissa is set last, so that it is right, and the exponent is taken modulo the
size of its field, without any report. -/
theorem c112_make_any (e : Nat) (pos : Bool) (ex : Nat) (mn : BitVec w) (he : e < w) (hx : ex < 2 ^ (w - 1))
    (hm : mn.toNat < 2 ^ (w - (e + 1))) :
    signField (make e pos ex mn) = pos ∧ expField e (make e pos ex mn) = ex % 2 ^ e ∧ manField e (make e pos ex mn) = mn.toNat := by
  obtain ⟨a1, a2, a3⟩ := c112_set_man e (setExp e (setPositive 0#w pos) ex) mn he
  obtain ⟨b1, b2, _⟩ := c112_set_any_exp e (setPositive 0#w pos) ex he hx
  obtain ⟨c1, _, _⟩ := c112_set_positive e (0#w) pos (by omega)
  rw [Nat.mod_eq_of_lt hm] at a1
  simp only [make]
  exact ⟨by rw [a2, b1, c1], by rw [a3, b2], a1⟩

/-- The exponent 35 of a decimal with 4 bits for it is stored as 3. -/
example : expField 4 (make (w := 128) 4 false 35 15#128) = 3 ∧ manField 4 (make (w := 128) 4 false 35 15#128) = 15 := by decide +kernel

end Verif.Multiprec
