import Verif.Decimal.Spec

/-! # Arithmetic of decimals: lemmas -/

namespace Verif.Decimal

variable {c : Cfg}

theorem pow_man_pos : 0 < 2 ^ c.manLen := Nat.pos_of_ne_zero (by simp)

theorem two_e_le {c : Cfg} : c.maxExp + 1 = 2 ^ c.e := by
  have : 0 < 2 ^ c.e := Nat.pos_of_ne_zero (by simp)
  simp only [Cfg.maxExp]; omega

theorem maxMan_succ {c : Cfg} : c.maxMan + 1 = 2 ^ c.manLen := by
  have : 0 < 2 ^ c.manLen := Nat.pos_of_ne_zero (by simp)
  simp only [Cfg.maxMan]; omega

theorem WF.exp_le {d : Dec} (h : d.WF c) : d.exp ≤ c.maxExp := by have := h.1; have := two_e_le (c := c); omega
theorem WF.man_le {d : Dec} (h : d.WF c) : d.man ≤ c.maxMan := by have := h.2; have := maxMan_succ (c := c); omega

theorem Cfg.Good.manLen_lt (h : c.Good) : c.manLen + c.e + 1 = c.w := by
  have := h.man; simp only [Cfg.manLen]; omega

theorem Cfg.Good.maxMan_lt (h : c.Good) : 4 * (c.maxMan + 1) ≤ 2 ^ c.w := by
  rw [maxMan_succ]
  have h1 := h.manLen_lt
  have h2 := h.exp
  calc 4 * 2 ^ c.manLen = 2 ^ (c.manLen + 2) := by rw [pow_add]; ring
    _ ≤ 2 ^ c.w := Nat.pow_le_pow_right (by norm_num) (by omega)

theorem Cfg.Good.pow_lt (h : c.Good) {k : Nat} (hk : k ≤ c.maxExp) : 10 ^ k < 2 ^ c.w :=
  lt_of_le_of_lt (Nat.pow_le_pow_right (by norm_num) hk) h.pow

theorem Cfg.Good.denomLoop (h : c.Good) : ∀ {k : Nat}, k ≤ c.maxExp → c.denomLoop k = 10 ^ k := by
  intro k
  induction k with
  | zero => intro hk; simp only [Cfg.denomLoop]; exact Nat.mod_eq_of_lt (by simpa using h.pow_lt hk)
  | succ k ih =>
    intro hk
    simp only [Cfg.denomLoop]
    rw [ih (by omega), ← pow_succ]
    exact Nat.mod_eq_of_lt (h.pow_lt hk)

theorem Cfg.Good.denom (h : c.Good) {k : Nat} (hk : k ≤ c.maxExp) : c.denom k = .ok (10 ^ k) := by
  have := two_e_le (c := c)
  rw [Cfg.denom, if_pos (by omega), h.denomLoop hk]

theorem Cfg.denom_ub {k : Nat} (hk : c.maxExp < k) : c.denom k = .ub := by
  have := two_e_le (c := c)
  rw [Cfg.denom, if_neg (by omega)]

theorem sint_ok {x : Int} (h : -(2 ^ (c.w - 1) : Int) ≤ x ∧ x < 2 ^ (c.w - 1)) : sint c x = .ok x := if_pos h

/-- Two mantissas: their sum fits the signed type. -/
theorem Cfg.Good.two_man (h : c.Good) : 2 * (c.maxMan : Int) < 2 ^ (c.w - 1) := by
  have h1 := h.maxMan_lt
  have h2 : 2 ^ c.w = 2 * 2 ^ (c.w - 1) := by
    have := h.man
    rw [← pow_succ']; congr 1; omega
  have : 2 * c.maxMan < 2 ^ (c.w - 1) := by omega
  exact_mod_cast this

theorem mantissa_abs (d : Dec) : d.mantissa.natAbs = d.man := by
  simp only [Dec.mantissa]; split <;> simp

theorem mantissa_bound {d : Dec} (h : d.WF c) : -(c.maxMan : Int) ≤ d.mantissa ∧ d.mantissa ≤ c.maxMan := by
  have := WF.man_le h
  simp only [Dec.mantissa]; split <;> omega

/-- The constructor from mantissa and digits. -/
theorem fromMantissa_eq (h : c.Good) {m : Int} {k : Nat} (hm : m.natAbs ≤ 2 * c.maxMan) (hk : k ≤ c.maxExp) :
    fromMantissa c m k = .ok ⟨decide (0 ≤ m), k, m.natAbs % 2 ^ c.manLen⟩ := by
  have h2 := h.two_man
  have hk' : k % 2 ^ c.e = k := Nat.mod_eq_of_lt (by have := two_e_le (c := c); omega)
  simp only [fromMantissa, Dec.setMantissa, ofDigits, hk']
  by_cases h0 : m ≥ 0
  · rw [if_pos h0]
    simp only [Dec.setMan]
    rw [show m.toNat = m.natAbs by omega]
    simp [h0]
  · rw [if_neg h0, sint_ok (by omega)]
    simp only [Res.ok_bind, Dec.setMan]
    rw [show (-m).toNat = m.natAbs by omega]
    simp [h0]

theorem value_eq (d : Dec) : d.value = (d.mantissa : ℚ) / 10 ^ d.exp := by
  simp only [Dec.value, Dec.mantissa]
  split <;> simp

theorem mod_man_eq {v : Nat} (h : v ≤ c.maxMan) : v % 2 ^ c.manLen = v :=
  Nat.mod_eq_of_lt (by have := maxMan_succ (c := c); omega)

theorem mod_exp_eq {v : Nat} (h : v ≤ c.maxExp) : v % 2 ^ c.e = v :=
  Nat.mod_eq_of_lt (by have := two_e_le (c := c); omega)

/-- `extend` -/
theorem extendSelf_eq (h : c.Good) {d : Dec} (hd : d.WF c) (k : Nat) :
    d.extendSelf c k = if k ≤ d.exp then .ok d
      else if k ≤ c.maxExp ∧ d.man * 10 ^ (k - d.exp) ≤ c.maxMan then .ok ⟨d.pos, k, d.man * 10 ^ (k - d.exp)⟩
      else .throw .logic := by
  have hm := WF.man_le hd
  simp only [Dec.extendSelf]
  by_cases h1 : d.exp < k
  · rw [if_pos h1, if_neg (show ¬ k ≤ d.exp by omega)]
    by_cases h2 : k ≤ c.maxExp
    · simp only [checkExp, if_neg (show ¬ k > c.maxExp by omega), Res.ok_bind]
      by_cases h3 : d.man = 0
      · simp only [h3, ne_eq, not_true_eq_false, if_false, Res.ok_bind]
        rw [if_pos ⟨h2, by simp⟩]
        simp [Dec.setExp, mod_exp_eq h2, h3]
      · simp only [ne_eq, h3, not_false_eq_true, if_true]
        rw [h.denom (show k - d.exp ≤ c.maxExp by omega)]
        simp only [Res.ok_bind]
        have hdiv : 10 ^ (k - d.exp) > c.maxMan / d.man ↔ ¬ d.man * 10 ^ (k - d.exp) ≤ c.maxMan := by
          rw [gt_iff_lt, Nat.div_lt_iff_lt_mul (Nat.pos_of_ne_zero h3), Nat.mul_comm, not_le]
        by_cases h4 : d.man * 10 ^ (k - d.exp) ≤ c.maxMan
        · rw [if_neg (by rw [hdiv]; simpa using h4), if_pos ⟨h2, h4⟩]
          have : d.man * 10 ^ (k - d.exp) % 2 ^ c.w = d.man * 10 ^ (k - d.exp) :=
            Nat.mod_eq_of_lt (by have := h.maxMan_lt; omega)
          simp [Dec.setExp, Dec.setMan, mod_exp_eq h2, this, mod_man_eq h4]
        · rw [if_pos (hdiv.2 h4), if_neg (fun hc => h4 hc.2)]; rfl
    · simp only [checkExp, if_pos (show k > c.maxExp by omega)]
      rw [if_neg (show ¬ (k ≤ c.maxExp ∧ d.man * 10 ^ (k - d.exp) ≤ c.maxMan) from fun hc => h2 hc.1)]; rfl
  · rw [if_neg h1, if_pos (by omega)]

theorem trimSelf_eq (h : c.Good) {d : Dec} (hd : d.WF c) (k : Nat) (check : Bool) :
    d.trimSelf c k check = if d.exp ≤ k then .ok d
      else if check = true ∧ d.man % 10 ^ (d.exp - k) ≠ 0 then .throw .logic
      else .ok ⟨d.pos, k, d.man / 10 ^ (d.exp - k)⟩ := by
  have hm := WF.man_le hd
  have he := WF.exp_le hd
  simp only [Dec.trimSelf]
  by_cases h1 : k < d.exp
  · rw [if_pos h1, if_neg (by omega), h.denom (show d.exp - k ≤ c.maxExp by omega)]
    simp only [Res.ok_bind]
    rw [if_neg (by simp)]
    split
    · rfl
    · have : d.man / 10 ^ (d.exp - k) ≤ c.maxMan := le_trans (Nat.div_le_self _ _) hm
      simp [Dec.setExp, Dec.setMan, mod_exp_eq (show k ≤ c.maxExp by omega), mod_man_eq this]
  · rw [if_neg h1, if_pos (by omega)]

theorem ceilSelf_eq (h : c.Good) {d : Dec} (hd : d.WF c) (k : Nat) :
    d.ceilSelf c k = if d.exp ≤ k then .ok d
      else .ok ⟨d.pos, k, d.man / 10 ^ (d.exp - k) + if d.man % 10 ^ (d.exp - k) = 0 then 0 else 1⟩ := by
  have hm := WF.man_le hd
  have he := WF.exp_le hd
  simp only [Dec.ceilSelf]
  by_cases h1 : k < d.exp
  · rw [if_pos h1, if_neg (by omega), h.denom (show d.exp - k ≤ c.maxExp by omega)]
    simp only [Res.ok_bind]
    rw [if_neg (by simp)]
    have hq : d.man / 10 ^ (d.exp - k) + (if d.man % 10 ^ (d.exp - k) = 0 then 0 else 1) ≤ c.maxMan := by
      have hp : 10 ^ 1 ≤ 10 ^ (d.exp - k) := Nat.pow_le_pow_right (by norm_num) (by omega)
      have h3 := Nat.div_add_mod d.man (10 ^ (d.exp - k))
      have h4 : 10 * (d.man / 10 ^ (d.exp - k)) ≤ 10 ^ (d.exp - k) * (d.man / 10 ^ (d.exp - k)) :=
        Nat.mul_le_mul_right _ (by simpa using hp)
      split <;> omega
    have hlt := h.maxMan_lt
    have : (if d.man % 10 ^ (d.exp - k) ≠ 0 then (d.man / 10 ^ (d.exp - k) + 1) % 2 ^ c.w else d.man / 10 ^ (d.exp - k)) =
        d.man / 10 ^ (d.exp - k) + if d.man % 10 ^ (d.exp - k) = 0 then 0 else 1 := by
      by_cases h5 : d.man % 10 ^ (d.exp - k) = 0
      · simp [h5]
      · rw [if_pos h5, if_neg h5]
        rw [if_neg h5] at hq
        exact Nat.mod_eq_of_lt (by omega)
    rw [this]
    simp [Dec.setExp, Dec.setMan, mod_exp_eq (show k ≤ c.maxExp by omega), mod_man_eq hq]
  · rw [if_neg h1, if_pos (by omega)]

theorem rescaleSelf_eq {d : Dec} (k : Nat) (check : Bool) :
    d.rescaleSelf c k check = if d.exp < k then d.extendSelf c k else d.trimSelf c k check := by
  simp only [Dec.rescaleSelf]
  split
  · rfl
  · split
    · rfl
    · simp only [Dec.trimSelf]; rw [if_neg (by assumption)]

theorem value_scale {p : Bool} {m e k : Nat} : Dec.value ⟨p, e + k, m * 10 ^ k⟩ = Dec.value ⟨p, e, m⟩ := by
  simp only [Dec.value]
  push_cast
  rw [pow_add]
  field_simp

/-- Two mantissas with the same number of digits. -/
theorem align_eq (h : c.Good) {x y : Dec} (hx : x.WF c) (hy : y.WF c) :
    align c x y =
      let k := max x.exp y.exp
      if x.man * 10 ^ (k - x.exp) ≤ c.maxMan ∧ y.man * 10 ^ (k - y.exp) ≤ c.maxMan then
        .ok (⟨x.pos, k, x.man * 10 ^ (k - x.exp)⟩, ⟨y.pos, k, y.man * 10 ^ (k - y.exp)⟩)
      else .throw .logic := by
  have hmx := WF.man_le hx
  have hmy := WF.man_le hy
  have hex := WF.exp_le hx
  have hey := WF.exp_le hy
  simp only [align]
  by_cases h1 : x.exp > y.exp
  · rw [if_pos h1, rescaleSelf_eq, if_pos h1, extendSelf_eq h hy, if_neg (by omega)]
    rw [max_eq_left (le_of_lt h1)]
    simp only [Nat.sub_self, pow_zero, Nat.mul_one]
    by_cases h2 : y.man * 10 ^ (x.exp - y.exp) ≤ c.maxMan
    · rw [if_pos ⟨hex, h2⟩, if_pos ⟨hmx, h2⟩]; rfl
    · rw [if_neg (fun hc => h2 hc.2), if_neg (fun hc => h2 hc.2)]; rfl
  · rw [if_neg h1]
    by_cases h3 : y.exp > x.exp
    · rw [if_pos h3, rescaleSelf_eq, if_pos h3, extendSelf_eq h hx, if_neg (by omega)]
      rw [max_eq_right (le_of_lt h3)]
      simp only [Nat.sub_self, pow_zero, Nat.mul_one]
      by_cases h2 : x.man * 10 ^ (y.exp - x.exp) ≤ c.maxMan
      · rw [if_pos ⟨hey, h2⟩, if_pos ⟨h2, hmy⟩]; rfl
      · rw [if_neg (fun hc => h2 hc.2), if_neg (fun hc => h2 hc.1)]; rfl
    · have he : x.exp = y.exp := by omega
      rw [if_neg h3, he]
      simp only [max_self, Nat.sub_self, pow_zero, Nat.mul_one]
      rw [if_pos ⟨hmx, hmy⟩]
      cases x; cases y; simp_all

/-! ## Normal form -/

theorem normLoop_value {fuel : Nat} : ∀ {d : Dec}, d.WF c →
    (normLoop c d fuel).WF c ∧ (normLoop c d fuel).value = d.value ∧ (normLoop c d fuel).pos = d.pos ∧
    (normLoop c d fuel).exp ≤ d.exp := by
  induction fuel with
  | zero => intro d h; exact ⟨h, rfl, rfl, le_refl _⟩
  | succ fuel ih =>
    intro d h
    simp only [normLoop]
    split
    · next h1 =>
      split
      · exact ⟨h, rfl, rfl, le_refl _⟩
      · next h2 =>
        have hm : d.man / 10 ≤ c.maxMan := le_trans (Nat.div_le_self _ _) (WF.man_le h)
        have he : d.exp - 1 ≤ c.maxExp := by have := WF.exp_le h; omega
        have hd : ((d.setMan c (d.man / 10)).setExp c (d.exp - 1)) = ⟨d.pos, d.exp - 1, d.man / 10⟩ := by
          simp [Dec.setMan, Dec.setExp, mod_man_eq hm, mod_exp_eq he]
        rw [hd]
        obtain ⟨a, b, p, q⟩ := ih (d := ⟨d.pos, d.exp - 1, d.man / 10⟩)
          ⟨by have := two_e_le (c := c); show d.exp - 1 < _; omega, by have := maxMan_succ (c := c); show d.man / 10 < _; omega⟩
        refine ⟨a, b.trans ?_, p, by simp at q; omega⟩
        have hv := value_scale (p := d.pos) (m := d.man / 10) (e := d.exp - 1) (k := 1)
        have hmd : d.man / 10 * 10 ^ 1 = d.man := by omega
        have hed : d.exp - 1 + 1 = d.exp := by omega
        rw [hmd, hed] at hv
        exact hv.symm
    · exact ⟨h, rfl, rfl, le_refl _⟩

theorem normLoop_done {fuel : Nat} : ∀ {d : Dec}, d.WF c → d.exp ≤ fuel →
    (normLoop c d fuel).man = 0 ∨ (normLoop c d fuel).exp = 0 ∨ (normLoop c d fuel).man % 10 ≠ 0 := by
  induction fuel with
  | zero => intro d h he; exact Or.inr (Or.inl (by simp [normLoop]; omega))
  | succ fuel ih =>
    intro d h he
    simp only [normLoop]
    split
    · next h1 =>
      split
      · next h2 => exact Or.inr (Or.inr h2)
      · have hm : d.man / 10 ≤ c.maxMan := le_trans (Nat.div_le_self _ _) (WF.man_le h)
        have he' : d.exp - 1 ≤ c.maxExp := by have := WF.exp_le h; omega
        have hd : ((d.setMan c (d.man / 10)).setExp c (d.exp - 1)) = ⟨d.pos, d.exp - 1, d.man / 10⟩ := by
          simp [Dec.setMan, Dec.setExp, mod_man_eq hm, mod_exp_eq he']
        rw [hd]
        exact ih (d := ⟨d.pos, d.exp - 1, d.man / 10⟩)
          ⟨by have := two_e_le (c := c); show d.exp - 1 < _; omega, by have := maxMan_succ (c := c); show d.man / 10 < _; omega⟩
          (by show d.exp - 1 ≤ fuel; omega)
    · next h1 => simp only [not_and_or, not_not] at h1; tauto

/-- No trailing zeros, and zero has no digits. -/
def Dec.Normal (d : Dec) : Prop := (d.man = 0 → d.exp = 0) ∧ (d.man = 0 ∨ d.exp = 0 ∨ d.man % 10 ≠ 0)

theorem normalize_spec {d : Dec} (h : d.WF c) : (d.normalize c).WF c ∧ (d.normalize c).value = d.value ∧
    (d.normalize c).pos = d.pos ∧ (d.normalize c).Normal ∧ (d.normalize c).exp ≤ d.exp := by
  obtain ⟨a, b, p, q⟩ := normLoop_value (fuel := d.exp) h
  have e := normLoop_done h (le_refl d.exp)
  simp only [Dec.normalize]
  split
  · next hz =>
    have hv : ((normLoop c d d.exp).setExp c 0).value = d.value := by
      rw [← b]; simp [Dec.value, Dec.setExp, hz]
    refine ⟨⟨?_, ?_⟩, hv, p, ⟨fun _ => ?_, Or.inl hz⟩, ?_⟩
    · show 0 % 2 ^ c.e < _; exact Nat.mod_lt _ (Nat.pos_of_ne_zero (by simp))
    · exact a.2
    · show 0 % 2 ^ c.e = 0; simp
    · show 0 % 2 ^ c.e ≤ _; simp
  · next hz => exact ⟨a, b, p, ⟨fun hc => absurd hc hz, e⟩, q⟩

/-- The normal form of a number is unique, up to the sign of zero. -/
theorem normal_unique {x y : Dec} (hx : x.Normal) (hy : y.Normal) (h : x.man * 10 ^ y.exp = y.man * 10 ^ x.exp) :
    x.exp = y.exp ∧ x.man = y.man := by
  have main : ∀ {x y : Dec}, x.Normal → y.Normal → x.man * 10 ^ y.exp = y.man * 10 ^ x.exp → ¬ x.exp < y.exp := by
    intro x y hx hy h hlt
    have he : y.exp = x.exp + (y.exp - x.exp - 1 + 1) := by omega
    rw [he, pow_add, ← Nat.mul_assoc, Nat.mul_right_comm] at h
    have h2 : x.man * 10 ^ (y.exp - x.exp - 1 + 1) = y.man := Nat.eq_of_mul_eq_mul_right (by positivity) h
    rw [pow_succ, ← Nat.mul_assoc] at h2
    rcases hy.2 with h3 | h3 | h3
    · exact absurd (hy.1 h3) (by omega)
    · omega
    · omega
  have he : x.exp = y.exp := by
    have h1 := main hx hy h
    have h2 := main hy hx h.symm
    omega
  rw [he] at h
  exact ⟨he, Nat.eq_of_mul_eq_mul_right (by positivity) h⟩

theorem value_cross {x y : Dec} (hp : x.pos = y.pos) :
    x.value = y.value ↔ x.man * 10 ^ y.exp = y.man * 10 ^ x.exp := by
  simp only [Dec.value, hp]
  have hs : (if y.pos = true then (1 : ℚ) else -1) ≠ 0 := by split <;> norm_num
  rw [div_eq_div_iff (by positivity) (by positivity), mul_assoc, mul_assoc, mul_right_inj' hs]
  constructor
  · intro h; exact_mod_cast h
  · intro h; exact_mod_cast h

theorem eq_iff {x y : Dec} (hx : x.WF c) (hy : y.WF c) : x.eq c y = true ↔ x.pos = y.pos ∧ x.value = y.value := by
  obtain ⟨_, v1, p1, n1, _⟩ := normalize_spec hx
  obtain ⟨_, v2, p2, n2, _⟩ := normalize_spec hy
  simp only [Dec.eq]
  split
  · next hp =>
    simp only [Bool.and_eq_true, beq_iff_eq, hp, true_and]
    constructor
    · intro h
      rw [← v1, ← v2, value_cross (by rw [p1, p2, hp]), h.1, h.2]
    · intro h
      exact normal_unique n1 n2 ((value_cross (by rw [p1, p2, hp])).1 (by rw [v1, v2, h]))
  · next hp => simp [hp]

/-! ## Comparison -/

/-- Comparing numbers by comparing integer parts and then fractional parts. -/
theorem comparePositive_eq (h : c.Good) {a b : Dec} (ha : a.WF c) (hb : b.WF c) (comp : Nat → Nat → Bool)
    (hcomp : ∀ x y m n k : Nat, m < k → n < k → x ≠ y → comp x y = comp (x * k + m) (y * k + n))
    (hshift : ∀ x m n k : Nat, comp m n = comp (x * k + m) (x * k + n))
    (hscale : ∀ m n k : Nat, 0 < k → comp m n = comp (m * k) (n * k)) :
    comparePositive c a b comp = .ok (comp (a.man * 10 ^ b.exp) (b.man * 10 ^ a.exp)) := by
  have ea := WF.exp_le ha
  have eb := WF.exp_le hb
  simp only [comparePositive, h.denom ea, h.denom eb, Res.ok_bind]
  rw [if_neg (by simp)]
  have pa : 0 < 10 ^ a.exp := by positivity
  have pb : 0 < 10 ^ b.exp := by positivity
  have da := Nat.div_add_mod a.man (10 ^ a.exp)
  have db := Nat.div_add_mod b.man (10 ^ b.exp)
  have ma := Nat.mod_lt a.man pa
  have mb := Nat.mod_lt b.man pb
  set qa := a.man / 10 ^ a.exp with hqa
  set qb := b.man / 10 ^ b.exp with hqb
  set ra := a.man % 10 ^ a.exp with hra
  set rb := b.man % 10 ^ b.exp with hrb
  have e1 : a.man * 10 ^ b.exp = qa * (10 ^ a.exp * 10 ^ b.exp) + ra * 10 ^ b.exp := by rw [← da]; ring
  have e2 : b.man * 10 ^ a.exp = qb * (10 ^ a.exp * 10 ^ b.exp) + rb * 10 ^ a.exp := by rw [← db]; ring
  have l1 : ra * 10 ^ b.exp < 10 ^ a.exp * 10 ^ b.exp := Nat.mul_lt_mul_of_pos_right ma pb
  have l2 : rb * 10 ^ a.exp < 10 ^ a.exp * 10 ^ b.exp := by
    rw [Nat.mul_comm (10 ^ a.exp)]; exact Nat.mul_lt_mul_of_pos_right mb pa
  by_cases hq : qa = qb
  · rw [if_neg (by simpa using hq)]
    rw [e1, e2, hq, ← hshift]
    by_cases h1 : a.exp > b.exp
    · rw [if_pos h1, h.denom (show a.exp - b.exp ≤ c.maxExp by omega)]
      simp only [Res.ok_bind]
      have hpow : 10 ^ a.exp = 10 ^ (a.exp - b.exp) * 10 ^ b.exp := by rw [← pow_add]; congr 1; omega
      have hlt : rb * 10 ^ (a.exp - b.exp) < 10 ^ a.exp := by
        rw [hpow, Nat.mul_comm]; exact Nat.mul_lt_mul_of_pos_left mb (by positivity)
      rw [Nat.mod_eq_of_lt (lt_trans hlt (h.pow_lt ea))]
      rw [hscale ra (rb * 10 ^ (a.exp - b.exp)) (10 ^ b.exp) pb, hpow, Nat.mul_assoc]
    · rw [if_neg h1]
      by_cases h2 : b.exp > a.exp
      · rw [if_pos h2, h.denom (show b.exp - a.exp ≤ c.maxExp by omega)]
        simp only [Res.ok_bind]
        have hpow : 10 ^ b.exp = 10 ^ (b.exp - a.exp) * 10 ^ a.exp := by rw [← pow_add]; congr 1; omega
        have hlt : ra * 10 ^ (b.exp - a.exp) < 10 ^ b.exp := by
          rw [hpow, Nat.mul_comm]; exact Nat.mul_lt_mul_of_pos_left ma (by positivity)
        rw [Nat.mod_eq_of_lt (lt_trans hlt (h.pow_lt eb))]
        rw [hscale (ra * 10 ^ (b.exp - a.exp)) rb (10 ^ a.exp) pa, hpow, Nat.mul_assoc]
      · rw [if_neg h2]
        have he : a.exp = b.exp := by omega
        rw [hscale ra rb (10 ^ b.exp) pb, he]
  · rw [if_pos (by simpa using hq), e1, e2]
    rw [hcomp qa qb _ _ _ l1 l2 hq]

theorem value_lt_cross {x y : Dec} : (x.man : ℚ) / 10 ^ x.exp < y.man / 10 ^ y.exp ↔
    x.man * 10 ^ y.exp < y.man * 10 ^ x.exp := by
  rw [div_lt_div_iff₀ (by positivity) (by positivity)]
  constructor
  · intro h; exact_mod_cast h
  · intro h; exact_mod_cast h

end Verif.Decimal
