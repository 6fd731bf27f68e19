import Verif.MpDec.Model
import Verif.Multiprec.DecProps

/-! # Every function over the words of Boost does what the one over bit fields does -/

namespace Verif.MpDec

open Verif.Multiprec
open Verif.Decimal (Dec Cfg)

/-- The built-in type with as many bits. -/
def Ty.cfg (t : Ty) : Cfg := ⟨t.w, t.e⟩

/-- The conditions on the types: the digit count is a `uint8_t` and leaves room, and `sizeof` is the number of bits. -/
structure Ty.Good (t : Ty) : Prop where
  bits : 8 ≤ t.w
  room : t.e + 1 < t.w
  e8 : t.e ≤ 8
  size : (t.sz * 8 - (t.e + 1)) % 256 = t.w - (t.e + 1)

/-- The fields of a word. -/
def abs (t : Ty) (m : t.Word) : Dec := ⟨signField m, expField t.e m, manField t.e m⟩

variable {t : Ty}

/-- The second outcome is right for the first one. -/
def Ref {α β : Type} (r : α → β → Prop) : Res α → Res β → Prop
  | .ok a, y => ∃ b, y = .ok b ∧ r a b
  | .throw e, y => y = .throw e
  | .ub, _ => True

theorem Ref.bind {α β α' β' : Type} {r : α → β → Prop} {r' : α' → β' → Prop} {x : Res α} {y : Res β} {f : α → Res α'} {g : β → Res β'}
    (h : Ref r x y) (hf : ∀ a b, r a b → Ref r' (f a) (g b)) : Ref r' (x >>= f) (y >>= g) := by
  cases x with
  | ok a => obtain ⟨b, rfl, hb⟩ := h; exact hf a b hb
  | throw e => cases h; rfl
  | ub => trivial

theorem Ref.ok {α β : Type} {r : α → β → Prop} {a : α} {b : β} (h : r a b) : Ref r (.ok a) (.ok b) := ⟨b, rfl, h⟩

theorem Ref.throw {α β : Type} {r : α → β → Prop} {e : Exn} : Ref r (.throw e) (.throw e) := rfl

section
variable (h : t.Good)
include h

theorem pos_abs (m : t.Word) : positive m = (abs t m).pos := (c112_get t.e m (by have := h.room; omega) h.e8).1
theorem exp_abs (m : t.Word) : exp t.e m = (abs t m).exp := (c112_get t.e m (by have := h.room; omega) h.e8).2.1
theorem man_abs (m : t.Word) : (man t.e m).toNat = (abs t m).man := (c112_get t.e m (by have := h.room; omega) h.e8).2.2

omit h in
theorem exp_lt (m : t.Word) : (abs t m).exp < 2 ^ t.e := Nat.mod_lt _ (Nat.two_pow_pos _)

theorem abs_setPositive (m : t.Word) (p : Bool) : abs t (setPositive m p) = { abs t m with pos := p } := by
  obtain ⟨a, b, c⟩ := c112_set_positive t.e m p (by have := h.room; omega)
  simp only [abs, a, b, c]

theorem abs_setMan (m v : t.Word) : abs t (setMan t.e m v) = (abs t m).setMan t.cfg v.toNat := by
  obtain ⟨a, b, c⟩ := c112_set_man t.e m v (by have := h.room; omega)
  simp only [abs, a, b, c, Dec.setMan, Ty.cfg, Cfg.manLen]

theorem abs_setExp (m : t.Word) {v : Nat} (hv : v < 2 ^ t.e) : abs t (setExp t.e m v) = (abs t m).setExp t.cfg v := by
  obtain ⟨a, b, c⟩ := c112_set_exp_partial t.e m v (by have := h.room; omega) hv
  simp only [abs, a, b, c, Dec.setExp, Ty.cfg, Nat.mod_eq_of_lt hv]

/-- Of an exponent that does not fit the low bits are kept, and the sign is not changed. -/
theorem setExp_large (m : t.Word) (v : Nat) : expField t.e (setExp t.e m v) = v % 2 ^ t.e ∧ signField (setExp t.e m v) = signField m := by
  have he : t.e < t.w := by have := h.room; omega
  have hb : ∀ i, i ≤ t.e → (setExp t.e m v).getLsbD i = if 1 ≤ i then v.testBit (i - 1) else m.getLsbD i := by
    intro i hi
    have hw : i < t.w := by omega
    simp only [setExp, BitVec.getLsbD_or, BitVec.getLsbD_and, BitVec.getLsbD_not, expMask_bit t.w t.e i he, BitVec.getLsbD_shiftLeft, BitVec.getLsbD_ofNat]
    by_cases h0 : i = 0
    · subst h0; simp [hw]
    · have h1 : 1 ≤ i := by omega
      have h2 : i - 1 < t.w := by omega
      simp [hw, h1, h2, hi, h0]
  refine ⟨?_, ?_⟩
  · apply Nat.eq_of_testBit_eq
    intro i
    rw [expField_bit, Nat.testBit_mod_two_pow]
    by_cases hi : i < t.e
    · rw [hb (i + 1) (by omega)]; simp
    · simp [hi]
  · simp [signField, hb 0 (by omega)]

theorem abs_ofDigits (digits : Nat) : abs t (ofDigits t digits) = Decimal.ofDigits t.cfg digits := by
  have he : t.e < t.w := by have := h.room; omega
  obtain ⟨a, b, c⟩ := c112_set_man t.e (setExp t.e (setPositive 0#t.w true) digits) 0#t.w he
  obtain ⟨d, e⟩ := setExp_large h (setPositive 0#t.w true) digits
  obtain ⟨f, _, _⟩ := c112_set_positive t.e (0#t.w) true (by omega)
  simp only [abs, ofDigits, make, a, b, c, d, e, f, Decimal.ofDigits, Ty.cfg]
  simp

theorem abs_zero : abs t (zero t) = Dec.zero := by
  rw [show zero t = ofDigits t 0 from rfl, abs_ofDigits h]
  simp [Decimal.ofDigits, Dec.zero]

theorem abs_negate (m : t.Word) : abs t (negate t m) = (abs t m).negate := by
  rw [negate, abs_setPositive h, pos_abs h]; rfl

theorem mantissa_abs (m : t.Word) : mantissa t m = (abs t m).mantissa := by
  simp only [mantissa, pos_abs h, man_abs h, Dec.mantissa]

theorem abs_setMantissa (m : t.Word) (v : Int) : Ref (fun d w => abs t w = d) ((abs t m).setMantissa t.cfg v) (.ok (setMantissa t m v)) := by
  have key : ∀ (n : Nat), n % 2 ^ t.w % 2 ^ t.cfg.manLen = n % 2 ^ t.cfg.manLen := fun n =>
    Nat.mod_mod_of_dvd n (Nat.pow_dvd_pow 2 (by simp only [Ty.cfg, Cfg.manLen]; omega))
  simp only [Dec.setMantissa, setMantissa]
  split
  · refine Ref.ok ?_
    rw [abs_setMan h, abs_setPositive h]
    simp only [Dec.setMan, BitVec.toNat_ofNat, key]
  · simp only [Decimal.sint]
    split
    · refine Ref.ok ?_
      rw [abs_setMan h, abs_setPositive h]
      simp only [Dec.setMan, BitVec.toNat_ofNat, key]
    · trivial

theorem ref_fromMantissa (v : Int) (digits : Nat) : Ref (fun d w => abs t w = d) (Decimal.fromMantissa t.cfg v digits) (.ok (fromMantissa t v digits)) := by
  have := abs_setMantissa h (ofDigits t digits) v
  rw [abs_ofDigits h] at this
  exact this

theorem maxMan_toNat : t.maxMan.toNat = t.cfg.maxMan := by
  have hr := h.room
  have hlt : 2 ^ (t.w - (t.e + 1)) < 2 ^ t.w := Nat.pow_lt_pow_right (by decide) (by omega)
  have hp : 0 < 2 ^ (t.w - (t.e + 1)) := Nat.two_pow_pos _
  have h1 : 1 % 2 ^ t.w = 1 := Nat.mod_eq_of_lt (Nat.one_lt_two_pow (by omega))
  simp only [Ty.maxMan, Ty.manLen, h.size, BitVec.toNat_sub, BitVec.toNat_shiftLeft, BitVec.toNat_ofNat, h1, Nat.one_shiftLeft, Nat.mod_eq_of_lt hlt, Cfg.maxMan, Cfg.manLen, Ty.cfg]
  rw [show 2 ^ t.w - 1 + 2 ^ (t.w - (t.e + 1)) = (2 ^ (t.w - (t.e + 1)) - 1) + 2 ^ t.w by omega, Nat.add_mod_right]
  exact Nat.mod_eq_of_lt (by omega)

theorem maxExp_eq : t.maxExp = t.cfg.maxExp := by
  have hr := h.room
  have hlt : 2 ^ t.e < 2 ^ t.w := Nat.pow_lt_pow_right (by decide) (by omega)
  have hp : 0 < 2 ^ t.e := Nat.two_pow_pos _
  have h8 : 2 ^ t.e ≤ 2 ^ 8 := Nat.pow_le_pow_right (by decide) h.e8
  have h1 : 1 % 2 ^ t.w = 1 := Nat.mod_eq_of_lt (Nat.one_lt_two_pow (by omega))
  simp only [Ty.maxExp, BitVec.toNat_sub, BitVec.toNat_shiftLeft, BitVec.toNat_ofNat, h1, Nat.one_shiftLeft, Nat.mod_eq_of_lt hlt, Cfg.maxExp, Ty.cfg]
  rw [show 2 ^ t.w - 1 + 2 ^ t.e = (2 ^ t.e - 1) + 2 ^ t.w by omega, Nat.add_mod_right, Nat.mod_eq_of_lt (show 2 ^ t.e - 1 < 2 ^ t.w by omega)]
  exact Nat.mod_eq_of_lt (by omega)

omit h in
theorem denomLoop_toNat (k : Nat) : (t.denomLoop k).toNat = t.cfg.denomLoop k := by
  induction k with
  | zero => simp [Ty.denomLoop, Cfg.denomLoop, Ty.cfg]
  | succ k ih =>
    simp only [Ty.denomLoop, Cfg.denomLoop, BitVec.toNat_mul, ih, BitVec.toNat_ofNat]
    simp [Ty.cfg, Nat.mul_mod]

omit h in
theorem ref_denom (k : Nat) : Ref (fun n b => b.toNat = n) (t.cfg.denom k) (t.denom k) := by
  simp only [Cfg.denom, Ty.denom]
  by_cases hk : k < 2 ^ t.e
  · rw [if_pos hk, if_pos (by exact hk)]; exact Ref.ok (denomLoop_toNat k)
  · rw [if_neg (show ¬ k < 2 ^ t.cfg.e from hk)]; trivial

omit h in
theorem zero_iff (b : t.Word) : b = 0#t.w ↔ b.toNat = 0 := by
  constructor
  · rintro rfl; simp
  · intro h; exact BitVec.eq_of_toNat_eq (by simp [h])

theorem ref_checkExp (digits : Nat) : Ref (fun _ _ => True) (Decimal.checkExp t.cfg digits) (checkExp t digits) := by
  simp only [Decimal.checkExp, checkExp, maxExp_eq h]
  split
  · rfl
  · exact Ref.ok trivial

theorem man_zero_iff (m : t.Word) : man t.e m = 0#t.w ↔ (abs t m).man = 0 := by rw [zero_iff, man_abs h]

theorem ref_extendSelf (m : t.Word) (digits : Nat) : Ref (fun d w => abs t w = d) ((abs t m).extendSelf t.cfg digits) (extendSelf t m digits) := by
  simp only [Dec.extendSelf, extendSelf, exp_abs h]
  by_cases h1 : (abs t m).exp < digits
  · rw [if_pos h1, if_pos h1]
    by_cases h2 : digits > t.cfg.maxExp
    · simp only [Decimal.checkExp, checkExp, maxExp_eq h, if_pos h2, Res.throw_bind]
      rfl
    · simp only [Decimal.checkExp, checkExp, maxExp_eq h, if_neg h2, Res.ok_bind]
      have hd : digits < 2 ^ t.e := by
        have : 0 < 2 ^ t.e := Nat.two_pow_pos _
        simp only [Cfg.maxExp, Ty.cfg] at h2
        omega
      refine Ref.bind (r := fun d w => abs t w = d) ?_ ?_
      · by_cases h3 : (abs t m).man = 0
        · have h4 : man t.e m = 0#t.w := (man_zero_iff h m).2 h3
          simp only [h3, h4, ne_eq, not_true_eq_false, if_false]
          exact Ref.ok rfl
        · have h4 : man t.e m ≠ 0#t.w := fun hc => h3 ((man_zero_iff h m).1 hc)
          rw [if_pos h3, if_pos h4]
          refine Ref.bind (ref_denom _) ?_
          rintro n b rfl
          have h5 : (t.maxMan / man t.e m).toNat = t.cfg.maxMan / (abs t m).man := by
            rw [BitVec.toNat_udiv, maxMan_toNat h, man_abs h]
          by_cases h6 : b.toNat > t.cfg.maxMan / (abs t m).man
          · rw [if_pos h6, if_pos (by rw [gt_iff_lt, BitVec.lt_def, h5]; exact h6)]
            rfl
          · rw [if_neg h6, if_neg (by rw [gt_iff_lt, BitVec.lt_def, h5]; exact h6)]
            refine Ref.ok ?_
            rw [abs_setMan h, BitVec.toNat_mul, man_abs h]
            rfl
      · rintro d w rfl
        exact Ref.ok (abs_setExp h w hd)
  · rw [if_neg h1, if_neg h1]
    exact Ref.ok rfl

theorem ref_trimSelf (m : t.Word) (digits : Nat) (check : Bool) : Ref (fun d w => abs t w = d) ((abs t m).trimSelf t.cfg digits check) (trimSelf t m digits check) := by
  simp only [Dec.trimSelf, trimSelf, exp_abs h]
  by_cases h1 : digits < (abs t m).exp
  · rw [if_pos h1, if_pos h1]
    refine Ref.bind (ref_denom _) ?_
    rintro n b rfl
    by_cases h2 : b.toNat = 0
    · rw [if_pos h2]; trivial
    · rw [if_neg h2, Ty.nonzero, if_neg (fun hc => h2 ((zero_iff b).1 hc))]
      simp only [Res.ok_bind]
      have h3 : (man t.e m % b ≠ 0#t.w) ↔ (abs t m).man % b.toNat ≠ 0 := by
        rw [ne_eq, zero_iff, BitVec.toNat_umod, man_abs h]
      by_cases h4 : check = true ∧ (abs t m).man % b.toNat ≠ 0
      · rw [if_pos h4, if_pos ⟨h4.1, h3.2 h4.2⟩]; rfl
      · rw [if_neg h4, if_neg (fun hc => h4 ⟨hc.1, h3.1 hc.2⟩)]
        refine Ref.ok ?_
        rw [abs_setExp h _ (Nat.lt_trans h1 (exp_lt m)), abs_setMan h, BitVec.toNat_udiv, man_abs h]
  · rw [if_neg h1, if_neg h1]
    exact Ref.ok rfl

theorem ref_rescaleSelf (m : t.Word) (digits : Nat) (check : Bool) : Ref (fun d w => abs t w = d) ((abs t m).rescaleSelf t.cfg digits check) (rescaleSelf t m digits check) := by
  simp only [Dec.rescaleSelf, rescaleSelf, exp_abs h]
  split
  · exact ref_extendSelf h m digits
  · split
    · exact ref_trimSelf h m digits check
    · exact Ref.ok rfl

theorem ref_ceilSelf (m : t.Word) (digits : Nat) : Ref (fun d w => abs t w = d) ((abs t m).ceilSelf t.cfg digits) (ceilSelf t m digits) := by
  simp only [Dec.ceilSelf, ceilSelf, exp_abs h]
  by_cases h1 : digits < (abs t m).exp
  · rw [if_pos h1, if_pos h1]
    refine Ref.bind (ref_denom _) ?_
    rintro n b rfl
    by_cases h2 : b.toNat = 0
    · rw [if_pos h2]; trivial
    · rw [if_neg h2, Ty.nonzero, if_neg (fun hc => h2 ((zero_iff b).1 hc))]
      simp only [Res.ok_bind]
      have h3 : (man t.e m % b ≠ 0#t.w) ↔ (abs t m).man % b.toNat ≠ 0 := by
        rw [ne_eq, zero_iff, BitVec.toNat_umod, man_abs h]
      have h1w : 1 % 2 ^ t.w = 1 := Nat.mod_eq_of_lt (Nat.one_lt_two_pow (by have := h.room; omega))
      refine Ref.ok ?_
      rw [abs_setExp h _ (Nat.lt_trans h1 (exp_lt m)), abs_setMan h]
      congr 2
      by_cases h4 : (abs t m).man % b.toNat ≠ 0
      · rw [if_pos h4, if_pos (h3.2 h4), BitVec.toNat_add, BitVec.toNat_udiv, man_abs h, BitVec.toNat_ofNat, h1w]; rfl
      · rw [if_neg h4, if_neg (fun hc => h4 (h3.1 hc)), BitVec.toNat_udiv, man_abs h]
  · rw [if_neg h1, if_neg h1]
    exact Ref.ok rfl

theorem ten_toNat : (10#t.w).toNat = 10 := by
  have : 2 ^ 8 ≤ 2 ^ t.w := Nat.pow_le_pow_right (by decide) h.bits
  simp only [BitVec.toNat_ofNat]
  exact Nat.mod_eq_of_lt (by omega)

theorem abs_normLoop (fuel : Nat) : ∀ m : t.Word, abs t (normLoop t m fuel) = Decimal.normLoop t.cfg (abs t m) fuel := by
  induction fuel with
  | zero => intro m; rfl
  | succ fuel ih =>
    intro m
    simp only [normLoop, Decimal.normLoop, exp_abs h, ne_eq, man_zero_iff h]
    by_cases h1 : ¬ (abs t m).man = 0 ∧ ¬ (abs t m).exp = 0
    · rw [if_pos h1, if_pos h1]
      have h2 : (man t.e m % 10#t.w = 0#t.w) ↔ (abs t m).man % 10 = 0 := by
        rw [zero_iff, BitVec.toNat_umod, man_abs h, ten_toNat h]
      by_cases h3 : (abs t m).man % 10 = 0
      · rw [if_neg (by simp [h2, h3]), if_neg (by simp [h3]), ih, abs_setMan h]
        have he : ((abs t m).setMan t.cfg (man t.e m / 10#t.w).toNat).exp = (abs t m).exp := rfl
        rw [he, abs_setExp h _ (Nat.lt_of_le_of_lt (Nat.sub_le _ _) (exp_lt m)), abs_setMan h, BitVec.toNat_udiv, man_abs h, ten_toNat h]
      · rw [if_pos (by simp [h2, h3]), if_pos (by simp [h3])]
    · rw [if_neg h1, if_neg h1]

theorem abs_normalize (m : t.Word) : abs t (normalize t m) = (abs t m).normalize t.cfg := by
  simp only [normalize, Dec.normalize, exp_abs h, man_zero_iff h, abs_normLoop h]
  split
  · rw [abs_setExp h _ (Nat.two_pow_pos _), abs_normLoop h]
  · rw [abs_normLoop h]

theorem ref_align (a b : t.Word) : Ref (fun d w => abs t w.1 = d.1 ∧ abs t w.2 = d.2) (Decimal.align t.cfg (abs t a) (abs t b)) (align t a b) := by
  simp only [Decimal.align, align, exp_abs h]
  split
  · refine Ref.bind (ref_rescaleSelf h b _ true) ?_
    rintro d w rfl
    exact Ref.ok ⟨rfl, rfl⟩
  · split
    · refine Ref.bind (ref_rescaleSelf h a _ true) ?_
      rintro d w rfl
      exact Ref.ok ⟨rfl, rfl⟩
    · exact Ref.ok ⟨rfl, rfl⟩

/-- What the signed type of the built-in word holds, the one of Boost holds. -/
theorem ref_sint (x : Int) : Ref (fun y z => z = y) (Decimal.sint t.cfg x) (.ok (t.sint x)) := by
  simp only [Decimal.sint]
  split
  · next hx =>
    refine Ref.ok ?_
    simp only [Ty.cfg] at hx
    have h1 : (2 : Int) ^ (t.w - 1) < 2 ^ t.w := by
      have : 2 ^ (t.w - 1) < 2 ^ t.w := Nat.pow_lt_pow_right (by decide) (by have := h.bits; omega)
      exact_mod_cast this
    have h2 : x.natAbs < 2 ^ t.w := by
      have h3 : ((2 ^ t.w : Nat) : Int) = 2 ^ t.w := by simp
      omega
    rw [Ty.sint, Nat.mod_eq_of_lt h2]
    exact Int.sign_mul_natAbs x
  · trivial

theorem ref_add (x y : t.Word) : Ref (fun d w => abs t w = d) ((abs t x).add t.cfg (abs t y)) (add t x y) := by
  simp only [Dec.add, add]
  refine Ref.bind (ref_align h x y) ?_
  rintro ⟨a', b'⟩ ⟨a, b⟩ ⟨rfl, rfl⟩
  have := Ref.bind (ref_sint h ((abs t a).mantissa + (abs t b).mantissa)) (f := fun m => Decimal.fromMantissa t.cfg m (abs t a).exp)
    (g := fun m => .ok (fromMantissa t m (abs t a).exp)) (r' := fun d w => abs t w = d) (by rintro u v rfl; exact ref_fromMantissa h _ _)
  simp only [mantissa_abs h, exp_abs h]
  exact this

theorem ref_sub (x y : t.Word) : Ref (fun d w => abs t w = d) ((abs t x).sub t.cfg (abs t y)) (sub t x y) := by
  simp only [Dec.sub, sub]
  refine Ref.bind (ref_align h x y) ?_
  rintro ⟨a', b'⟩ ⟨a, b⟩ ⟨rfl, rfl⟩
  have := Ref.bind (ref_sint h ((abs t a).mantissa - (abs t b).mantissa)) (f := fun m => Decimal.fromMantissa t.cfg m (abs t a).exp)
    (g := fun m => .ok (fromMantissa t m (abs t a).exp)) (r' := fun d w => abs t w = d) (by rintro u v rfl; exact ref_fromMantissa h _ _)
  simp only [mantissa_abs h, exp_abs h]
  exact this

theorem ref_multiply (a b : t.Word) : Ref (fun d w => abs t w = d) (Decimal.multiply t.cfg (abs t a) (abs t b)) (.ok (multiply t a b)) := by
  simp only [Decimal.multiply, multiply, mantissa_abs h, exp_abs h]
  have := Ref.bind (ref_sint h ((abs t a).mantissa * (abs t b).mantissa)) (f := fun m => Decimal.fromMantissa t.cfg m (((abs t a).exp + (abs t b).exp) % 256))
    (g := fun m => .ok (fromMantissa t m (((abs t a).exp + (abs t b).exp) % 256))) (r' := fun d w => abs t w = d) (by rintro u v rfl; exact ref_fromMantissa h _ _)
  exact this

theorem eq_abs (x y : t.Word) : eq t x y = (abs t x).eq t.cfg (abs t y) := by
  simp only [eq, Dec.eq, pos_abs h, exp_abs h, abs_normalize h]
  split
  · congr 1
    rw [← abs_normalize h, ← abs_normalize h, ← man_abs h, ← man_abs h]
    by_cases hc : man t.e (normalize t x) = man t.e (normalize t y)
    · simp [hc]
    · have : (man t.e (normalize t x)).toNat ≠ (man t.e (normalize t y)).toNat := fun hh => hc (BitVec.eq_of_toNat_eq hh)
      rw [beq_eq_false_iff_ne.2 hc, beq_eq_false_iff_ne.2 this]
  · rfl

theorem ref_comparePositive (a b : t.Word) (comp : Nat → Nat → Bool) :
    Ref (fun x y => y = x) (Decimal.comparePositive t.cfg (abs t a) (abs t b) comp) (comparePositive t a b comp) := by
  simp only [Decimal.comparePositive, comparePositive, exp_abs h]
  refine Ref.bind (ref_denom _) ?_
  rintro _ ad rfl
  refine Ref.bind (ref_denom _) ?_
  rintro _ bd rfl
  by_cases h0 : ad.toNat = 0 ∨ bd.toNat = 0
  · rw [if_pos h0]; trivial
  · have ha : ¬ ad = 0#t.w := fun hc => h0 (.inl ((zero_iff ad).1 hc))
    have hb : ¬ bd = 0#t.w := fun hc => h0 (.inr ((zero_iff bd).1 hc))
    rw [if_neg h0, Ty.nonzero, if_neg ha, Ty.nonzero, if_neg hb]
    simp only [Res.ok_bind]
    have e1 : (man t.e a / ad).toNat = (abs t a).man / ad.toNat := by rw [BitVec.toNat_udiv, man_abs h]
    have e2 : (man t.e b / bd).toNat = (abs t b).man / bd.toNat := by rw [BitVec.toNat_udiv, man_abs h]
    have e3 : (man t.e a % ad).toNat = (abs t a).man % ad.toNat := by rw [BitVec.toNat_umod, man_abs h]
    have e4 : (man t.e b % bd).toNat = (abs t b).man % bd.toNat := by rw [BitVec.toNat_umod, man_abs h]
    have e5 : (man t.e a / ad ≠ man t.e b / bd) ↔ (abs t a).man / ad.toNat ≠ (abs t b).man / bd.toNat := by
      rw [← e1, ← e2]
      exact not_congr ⟨fun hh => by rw [hh], BitVec.eq_of_toNat_eq⟩
    by_cases h1 : (abs t a).man / ad.toNat ≠ (abs t b).man / bd.toNat
    · rw [if_pos h1, if_pos (e5.2 h1), e1, e2]
      exact Ref.ok rfl
    · rw [if_neg h1, if_neg (fun hc => h1 (e5.1 hc))]
      split
      · refine Ref.bind (ref_denom _) ?_
        rintro _ k rfl
        rw [BitVec.toNat_mul, e3, e4]
        exact Ref.ok rfl
      · split
        · refine Ref.bind (ref_denom _) ?_
          rintro _ k rfl
          rw [BitVec.toNat_mul, e3, e4]
          exact Ref.ok rfl
        · rw [e3, e4]
          exact Ref.ok rfl

theorem ref_compare (a b : t.Word) (comp : Nat → Nat → Bool) :
    Ref (fun x y => y = x) (Decimal.compare t.cfg (abs t a) (abs t b) comp) (compare t a b comp) := by
  simp only [Decimal.compare, compare, pos_abs h]
  split
  · exact ref_comparePositive h b a comp
  · split
    · exact ref_comparePositive h a b comp
    · exact Ref.ok rfl

theorem ref_print (m : t.Word) : Ref (fun x y => y = x) ((abs t m).print t.cfg) (print t m) := by
  simp only [Dec.print, print, exp_abs h, pos_abs h]
  refine Ref.bind (ref_denom _) ?_
  rintro _ b rfl
  by_cases h0 : b.toNat = 0
  · rw [if_pos h0]; trivial
  · rw [if_neg h0, Ty.nonzero, if_neg (fun hc => h0 ((zero_iff b).1 hc))]
    simp only [Res.ok_bind]
    rw [BitVec.toNat_udiv, BitVec.toNat_umod, man_abs h]
    exact Ref.ok rfl

/-! ## Text -/

omit h in
/-- The variables of the two parsers. -/
def SamePS (p : Decimal.PS) (q : PS t) : Prop := q.digits = p.digits ∧ q.zeros = p.zeros ∧ q.val.toNat = p.val

theorem ref_doAppend {p : Decimal.PS} {q : PS t} (hs : SamePS p q) (digit : Nat) : Ref SamePS (Decimal.doAppend t.cfg p digit) (doAppend t q digit) := by
  obtain ⟨h1, h2, h3⟩ := hs
  have e : (q.val * 10#t.w + BitVec.ofNat t.w digit).toNat = (p.val * 10 + digit) % 2 ^ t.cfg.w := by
    rw [BitVec.toNat_add, BitVec.toNat_mul, ten_toNat h, h3, BitVec.toNat_ofNat, ← Nat.add_mod]
    rfl
  simp only [Decimal.doAppend, doAppend]
  by_cases hc : (p.val * 10 + digit) % 2 ^ t.cfg.w > t.cfg.maxMan
  · rw [if_pos hc, if_pos (by rw [gt_iff_lt, BitVec.lt_def, e, maxMan_toNat h]; exact hc)]; rfl
  · rw [if_neg hc, if_neg (by rw [gt_iff_lt, BitVec.lt_def, e, maxMan_toNat h]; exact hc)]
    exact Ref.ok ⟨by rw [h1], h2, e⟩

theorem ref_flush (n : Nat) : ∀ {p : Decimal.PS} {q : PS t}, SamePS p q → Ref SamePS (Decimal.flush t.cfg p n) (flush t q n) := by
  induction n with
  | zero => intro p q hs; exact Ref.ok hs
  | succ n ih => intro p q hs; exact Ref.bind (ref_doAppend h hs 0) (fun _ _ hs => ih hs)

theorem ref_append {p : Decimal.PS} {q : PS t} (hs : SamePS p q) (point : Bool) (digit : Nat) :
    Ref SamePS (Decimal.append t.cfg point p digit) (append t point q digit) := by
  have hz : q.val = 0#t.w ↔ p.val = 0 := by rw [zero_iff, hs.2.2]
  simp only [Decimal.append, append, ne_eq, hz]
  split
  · split
    · exact ref_doAppend h hs digit
    · exact Ref.ok hs
  · split
    · exact Ref.ok ⟨hs.1, by rw [hs.2.1], hs.2.2⟩
    · rw [hs.2.1]
      refine Ref.bind (ref_flush h _ hs) ?_
      intro p' q' hs'
      exact ref_doAppend h (p := { p' with zeros := 0 }) (q := { q' with zeros := 0 }) ⟨hs'.1, rfl, hs'.2.2⟩ digit

theorem ref_parseLoop (point : Bool) (s : List Nat) : ∀ {p : Decimal.PS} {q : PS t}, SamePS p q →
    Ref (fun x y => y.1 = x.1 ∧ SamePS x.2 y.2) (Decimal.parseLoop t.cfg point p s) (parseLoop t point q s) := by
  induction s with
  | nil => intro p q hs; exact Ref.ok ⟨rfl, hs⟩
  | cons ch rest ih =>
    intro p q hs
    simp only [Decimal.parseLoop, parseLoop]
    split
    · exact Ref.ok ⟨rfl, hs⟩
    · have hd : Ref (fun x y => y = x) (Decimal.symbolToDigit ch) (Decimal.symbolToDigit ch) := by
        cases Decimal.symbolToDigit ch with
        | ok a => exact Ref.ok rfl
        | throw e => rfl
        | ub => trivial
      refine Ref.bind hd ?_
      rintro d _ rfl
      exact Ref.bind (ref_append h hs point _) (fun _ _ hs => ih hs)

theorem ref_parseInt (s : List Nat) (point : Bool) :
    Ref (fun x y => y.1 = x.1 ∧ SamePS x.2 y.2) (Decimal.parseInt t.cfg s point) (parseInt t s point) :=
  ref_parseLoop h point s ⟨rfl, rfl, by simp⟩

theorem ref_fromString (s : List Nat) : Ref (fun d w => abs t w = d) (Decimal.fromString t.cfg s) (fromString t s) := by
  cases s with
  | nil => trivial
  | cons ch rest =>
    simp only [Decimal.fromString, fromString]
    refine Ref.bind (ref_parseInt h _ true) ?_
    rintro ⟨tail, pi⟩ ⟨_, qi⟩ ⟨rfl, hi⟩
    refine Ref.bind (ref_parseInt h _ false) ?_
    rintro ⟨left, pf⟩ ⟨_, qf⟩ ⟨rfl, hf⟩
    dsimp only at hi hf ⊢
    split
    · rfl
    · rw [hf.1]
      by_cases h2 : pf.digits > t.cfg.maxExp
      · simp only [Decimal.checkExp, checkExp, maxExp_eq h, if_pos h2, Res.throw_bind]
        rfl
      · simp only [Decimal.checkExp, checkExp, maxExp_eq h, if_neg h2, Res.ok_bind]
        have hd : pf.digits < 2 ^ t.e := by
          have : 0 < 2 ^ t.e := Nat.two_pow_pos _
          simp only [Cfg.maxExp, Ty.cfg] at h2
          omega
        refine Ref.bind (ref_denom _) ?_
        rintro _ b rfl
        by_cases h0 : b.toNat = 0
        · rw [if_pos h0]; trivial
        · rw [if_neg h0, Ty.nonzero, if_neg (fun hc => h0 ((zero_iff b).1 hc))]
          simp only [Res.ok_bind]
          have e1 : (t.maxMan / b).toNat = t.cfg.maxMan / b.toNat := by rw [BitVec.toNat_udiv, maxMan_toNat h]
          have e2 : (qi.val > t.maxMan / b) ↔ pi.val > t.cfg.maxMan / b.toNat := by rw [gt_iff_lt, BitVec.lt_def, e1, hi.2.2]
          by_cases h3 : pi.val > t.cfg.maxMan / b.toNat
          · rw [if_pos h3, if_pos (e2.2 h3)]; rfl
          · rw [if_neg h3, if_neg (fun hc => h3 (e2.1 hc))]
            have hle : pi.val * b.toNat ≤ t.cfg.maxMan := by
              have h4 : pi.val ≤ t.cfg.maxMan / b.toNat := by omega
              calc pi.val * b.toNat ≤ t.cfg.maxMan / b.toNat * b.toNat := Nat.mul_le_mul_right _ h4
                _ ≤ t.cfg.maxMan := Nat.div_mul_le_self _ _
            have hmm : t.cfg.maxMan < 2 ^ t.w := by rw [← maxMan_toNat h]; exact t.maxMan.isLt
            have e3 : (qi.val * b).toNat = pi.val * b.toNat % 2 ^ t.cfg.w := by rw [BitVec.toNat_mul, hi.2.2]; rfl
            have e4 : (t.maxMan - qi.val * b).toNat = t.cfg.maxMan - pi.val * b.toNat % 2 ^ t.cfg.w := by
              have hw : pi.val * b.toNat % 2 ^ t.w = pi.val * b.toNat := Nat.mod_eq_of_lt (by omega)
              rw [BitVec.toNat_sub, e3, maxMan_toNat h, show t.cfg.w = t.w from rfl, hw]
              rw [show 2 ^ t.w - pi.val * b.toNat + t.cfg.maxMan = (t.cfg.maxMan - pi.val * b.toNat) + 2 ^ t.w by omega, Nat.add_mod_right]
              exact Nat.mod_eq_of_lt (by omega)
            have e5 : (qf.val > t.maxMan - qi.val * b) ↔ pf.val > t.cfg.maxMan - pi.val * b.toNat % 2 ^ t.cfg.w := by
              rw [gt_iff_lt, BitVec.lt_def, e4, hf.2.2]
            by_cases h5 : pf.val > t.cfg.maxMan - pi.val * b.toNat % 2 ^ t.cfg.w
            · rw [if_pos h5, if_pos (e5.2 h5)]; rfl
            · rw [if_neg h5, if_neg (fun hc => h5 (e5.1 hc))]
              have e6 : abs t (setExp t.e (setMan t.e (zero t) (qi.val * b + qf.val)) pf.digits) =
                  (Dec.zero.setMan t.cfg ((pi.val * b.toNat % 2 ^ t.cfg.w + pf.val) % 2 ^ t.cfg.w)).setExp t.cfg pf.digits := by
                rw [abs_setExp h _ hd, abs_setMan h, abs_zero h, BitVec.toNat_add, e3, hf.2.2]
                rfl
              refine Ref.ok ?_
              by_cases hp : (if ch = 43 ∨ ch = 45 then decide (ch = 43) else true) = true
              · rw [if_pos hp, if_pos hp]; exact e6
              · rw [if_neg hp, if_neg hp, abs_negate h, e6]

omit h in
theorem bits_abs (m : t.Word) : (abs t m).toBits t.cfg = m.toNat := by
  have h1 : m.toNat % 2 = if signField m then 0 else 1 := by
    have hb : m.getLsbD 0 = decide (m.toNat % 2 = 1) := by
      rw [show m.getLsbD 0 = m.toNat.testBit 0 from rfl, Nat.testBit_zero]
    simp only [signField, hb]
    by_cases hm : m.toNat % 2 = 1
    · simp [hm]
    · simp [hm]; omega
  have h2 := Nat.div_add_mod m.toNat 2
  have h3 := Nat.div_add_mod (m.toNat / 2) (2 ^ t.e)
  have h4 : manField t.e m = m.toNat / 2 / 2 ^ t.e := by
    rw [manField, Nat.div_div_eq_div_mul, Nat.pow_succ, Nat.mul_comm]
  simp only [Dec.toBits, abs, Ty.cfg, expField, h4]
  rw [Nat.pow_succ, Nat.mul_comm (2 ^ t.e) 2, Nat.mul_assoc]
  omega

/-! ## Programs -/

omit h in
theorem ref_assign {vars : Nat → Dec} {words : Nat → t.Word} (hv : ∀ x, abs t (words x) = vars x) (x : Nat) {r : Res Dec} {q : Res t.Word}
    (hr : Ref (fun d w => abs t w = d) r q) :
    Ref (fun a b => (∀ x, abs t (b.1 x) = a.1 x) ∧ b.2 = a.2) (assign vars x r) (assign words x q) := by
  cases r with
  | ok d =>
    obtain ⟨w, rfl, rfl⟩ := hr
    refine Ref.ok ⟨fun y => ?_, rfl⟩
    dsimp only
    split
    · rfl
    · exact hv y
  | throw e => cases hr; exact Ref.ok ⟨hv, rfl⟩
  | ub => trivial

omit h in
theorem ref_show {α : Type} {vars : Nat → Dec} {words : Nat → t.Word} (hv : ∀ x, abs t (words x) = vars x) (f : α → Seen) {r q : Res α}
    (hr : Ref (fun x y => y = x) r q) :
    Ref (fun a b => (∀ x, abs t (b.1 x) = a.1 x) ∧ b.2 = a.2) (show_ vars f r) (show_ words f q) := by
  cases r with
  | ok d => obtain ⟨w, rfl, rfl⟩ := hr; exact Ref.ok ⟨hv, rfl⟩
  | throw e => cases hr; exact Ref.ok ⟨hv, rfl⟩
  | ub => trivial

theorem ref_exec {vars : Nat → Dec} {words : Nat → t.Word} (hv : ∀ x, abs t (words x) = vars x) (s : Stmt) :
    Ref (fun a b => (∀ x, abs t (b.1 x) = a.1 x) ∧ b.2 = a.2) (exec (builtin t.cfg) vars s) (exec (boost t) words s) := by
  have hv' : vars = fun x => abs t (words x) := funext fun x => (hv x).symm
  subst hv'
  cases s with
  | ofMantissa x v d => exact ref_assign hv x (ref_fromMantissa h v d)
  | parse x s => exact ref_assign hv x (ref_fromString h s)
  | neg x a => exact ref_assign hv x (Ref.ok (abs_negate h _))
  | add x a b => exact ref_assign hv x (ref_add h _ _)
  | sub x a b => exact ref_assign hv x (ref_sub h _ _)
  | mul x a b => exact ref_assign hv x (ref_multiply h _ _)
  | rescale x a d check => exact ref_assign hv x (ref_rescaleSelf h _ _ _)
  | extend x a d => exact ref_assign hv x (ref_extendSelf h _ _)
  | truncate x a d => exact ref_assign hv x (ref_trimSelf h _ _ _)
  | ceil x a d => exact ref_assign hv x (ref_ceilSelf h _ _)
  | normalize x a => exact ref_assign hv x (Ref.ok (abs_normalize h _))
  | eq a b => exact ref_show hv _ (Ref.ok (eq_abs h _ _))
  | lt a b => exact ref_show hv _ (ref_compare h _ _ _)
  | le a b => exact ref_show hv _ (ref_compare h _ _ _)
  | gt a b => exact ref_show hv _ (ref_compare h _ _ _)
  | ge a b => exact ref_show hv _ (ref_compare h _ _ _)
  | print a => exact ref_show hv _ (ref_print h _)
  | look a =>
    refine Ref.ok ⟨hv, ?_⟩
    simp only [boost, builtin, pos_abs h, exp_abs h, mantissa_abs h, bits_abs]

theorem ref_run (p : List Stmt) : ∀ {vars : Nat → Dec} {words : Nat → t.Word}, (∀ x, abs t (words x) = vars x) →
    Ref (fun x y => y = x) (run (builtin t.cfg) vars p) (run (boost t) words p) := by
  induction p with
  | nil => intro vars words hv; exact Ref.ok rfl
  | cons s ss ih =>
    intro vars words hv
    refine Ref.bind (ref_exec h hv s) ?_
    rintro ⟨vars', o⟩ ⟨words', _⟩ ⟨hv', rfl⟩
    refine Ref.bind (ih hv') ?_
    rintro os _ rfl
    exact Ref.ok rfl

end

end Verif.MpDec
