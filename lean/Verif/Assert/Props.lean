import Verif.Assert.Model

/-! # C116: assertions of tests -/

namespace Verif.Assert

variable (K : Classes)

/-- C116: `IsTrue` and `IsFalse` fail exactly if the condition is not met, with a `TestException`. -/
theorem c116_condition (v : Bool) :
    (isTrue K v = .ret ↔ v = true) ∧ (isFalse K v = .ret ↔ v = false) ∧ (isTrue K v ≠ .ret → isTrue K v = .thrown K.test) ∧ (isFalse K v ≠ .ret → isFalse K v = .thrown K.test) := by
  cases v <;> simp [isTrue, isFalse, fail]

/-- C116, for exceptions that are not `TestException` or a base of it: `Throws` passes exactly if the function throws such an exception, fails with `TestException` if it throws none,
and lets other exceptions pass.  Missing: the bases of `TestException` (`c116_base_violated`). -/
theorem c116_throws_partial (e : K.Cls) (func : End K) (h : K.isA K.test e = false) :
    (throws K e func = .ret ↔ ∃ x, func = .thrown x ∧ K.isA x e = true) ∧ (func = .ret → throws K e func = .thrown K.test) ∧
    (∀ x, func = .thrown x → K.isA x e = false → throws K e func = .thrown x) := by
  cases func with
  | ret => simp [throws, fail, h]
  | thrown x => cases hx : K.isA x e <;> simp [throws, hx]

/-- C116 is violated by `Throws<TestException>` and `Throws` with a base of it, such as `std::exception`: it never fails, whether the function throws or not. -/
theorem c116_base_violated (e : K.Cls) (h : K.isA K.test e = true) : throws K e .ret = .ret := by simp [throws, fail, h]

/-- A promoted type has the value and at least 32 bits. -/
theorem promote_has {t : IntTy} {v : Int} (h8 : 8 ≤ t.bits) (h : t.Has v) : (promote t).Has v ∧ 32 ≤ (promote t).bits := by
  simp only [promote]
  split
  · next hb =>
    refine ⟨?_, Nat.le_refl _⟩
    have h1 : (2 : Int) ^ t.bits ≤ 2 ^ 31 := by
      have : (2 : Nat) ^ t.bits ≤ 2 ^ 31 := Nat.pow_le_pow_right (by decide) (by omega)
      exact_mod_cast this
    have h2 : (2 : Int) ^ (t.bits - 1) ≤ 2 ^ 31 := by
      have : (2 : Nat) ^ (t.bits - 1) ≤ 2 ^ 31 := Nat.pow_le_pow_right (by decide) (by omega)
      exact_mod_cast this
    simp only [IntTy.Has] at h ⊢
    simp only [if_true]
    split at h <;> simp at h1 h2 ⊢ <;> omega
  · exact ⟨h, by omega⟩

theorem two_pow_pred {n : Nat} (h : 1 ≤ n) : (2 : Int) ^ n = 2 * 2 ^ (n - 1) := by
  obtain ⟨m, rfl⟩ : ∃ m, n = m + 1 := ⟨n - 1, by omega⟩
  rw [Nat.add_sub_cancel, Int.pow_succ]; omega

/-- A value that the type has is not changed. -/
theorem conv_has {t : IntTy} {v : Int} (hb : 1 ≤ t.bits) (h : t.Has v) : conv t v = v := by
  have hp := two_pow_pred hb
  have h0 : (0 : Int) < 2 ^ (t.bits - 1) := Int.pow_pos (by decide)
  simp only [IntTy.Has] at h
  simp only [conv]
  rw [hp] at h ⊢
  generalize (2 : Int) ^ (t.bits - 1) = P at *
  split at h
  · next hs =>
    simp only [hs, true_and]
    by_cases hv : 0 ≤ v
    · rw [Int.emod_eq_of_lt hv (by omega), if_neg (by omega)]
    · have : v % (2 * P) = v + 2 * P := by
        rw [← Int.add_emod_right]
        exact Int.emod_eq_of_lt (by omega) (by omega)
      rw [this, if_pos (by omega)]
      omega
  · next hs =>
    rw [if_neg (fun hh => hs hh.1)]
    exact Int.emod_eq_of_lt h.1 h.2

theorem pow_mono {m n : Nat} (h : m ≤ n) : (2 : Int) ^ m ≤ 2 ^ n := by
  have : (2 : Nat) ^ m ≤ 2 ^ n := Nat.pow_le_pow_right (by decide) h
  exact_mod_cast this

/-- The common type has the value, unless the value is negative and the type is unsigned. -/
theorem common_has {a b : IntTy} {v w : Int} (ha : 32 ≤ a.bits) (hb : 32 ≤ b.bits) (hv : a.Has v) (hw : b.Has w) :
    32 ≤ (common a b).bits ∧ ((common a b).signed = true ∨ 0 ≤ v → (common a b).Has v) ∧ ((common a b).signed = true ∨ 0 ≤ w → (common a b).Has w) := by
  obtain ⟨m, s⟩ := a
  obtain ⟨n, t⟩ := b
  simp only [IntTy.Has] at *
  have e1 : m ≤ n → (2 : Int) ^ m ≤ 2 ^ n := pow_mono
  have e2 : n ≤ m → (2 : Int) ^ n ≤ 2 ^ m := pow_mono
  have e3 : m ≤ n → (2 : Int) ^ (m - 1) ≤ 2 ^ (n - 1) := fun h => pow_mono (by omega)
  have e4 : n ≤ m → (2 : Int) ^ (n - 1) ≤ 2 ^ (m - 1) := fun h => pow_mono (by omega)
  have e5 : m < n → (2 : Int) ^ m ≤ 2 ^ (n - 1) := fun h => pow_mono (by omega)
  have e6 : n < m → (2 : Int) ^ n ≤ 2 ^ (m - 1) := fun h => pow_mono (by omega)
  have e7 := two_pow_pred (n := m) (by omega)
  have e8 := two_pow_pred (n := n) (by omega)
  have e9 : (0 : Int) < 2 ^ (m - 1) := Int.pow_pos (by decide)
  have e10 : (0 : Int) < 2 ^ (n - 1) := Int.pow_pos (by decide)
  cases s <;> cases t <;> simp only [common] at * <;> simp at * <;> split <;> simp at * <;>
    generalize (2 : Int) ^ m = M at * <;> generalize (2 : Int) ^ n = N at * <;> generalize (2 : Int) ^ (m - 1) = M' at * <;> generalize (2 : Int) ^ (n - 1) = N' at * <;> grind

/-- C116: `AreEqual` never fails for equal values, whatever their types. -/
theorem c116_equal_passes (ta tb : IntTy) (v : Int) : areEqual K ta tb v v = .ret := by simp [areEqual, notEqual]

/-- C116, for integers that are not negative, and types that are both signed or both unsigned: `AreEqual` passes exactly if they are equal, and fails with `TestException` otherwise.
Missing: a negative integer and an unsigned type (`c116_sign_violated`). -/
theorem c116_equal_partial (ta tb : IntTy) (a b : Int) (h8a : 8 ≤ ta.bits) (h8b : 8 ≤ tb.bits) (ha : ta.Has a) (hb : tb.Has b)
    (h : ta.signed = tb.signed ∨ 0 ≤ a ∧ 0 ≤ b) : (areEqual K ta tb a b = .ret ↔ a = b) ∧ (a ≠ b → areEqual K ta tb a b = .thrown K.test) := by
  have ⟨pa, na⟩ := promote_has h8a ha
  have ⟨pb, nb⟩ := promote_has h8b hb
  have ⟨h32, ca, cb⟩ := common_has na nb pa pb
  have hs : (common (promote ta) (promote tb)).signed = true ∨ 0 ≤ a ∧ 0 ≤ b := by
    rcases h with h | h
    · cases hsg : tb.signed with
      | false =>
        rw [hsg] at h
        simp only [IntTy.Has, h, hsg] at ha hb
        exact .inr ⟨ha.1, hb.1⟩
      | true =>
        rw [hsg] at h
        left
        have p1 : (promote ta).signed = true := by simp only [promote]; split <;> simp [h]
        have p2 : (promote tb).signed = true := by simp only [promote]; split <;> simp [hsg]
        simp only [common, p1, p2]
        simp
        split <;> simp [p1, p2]
    · exact .inr h
  have c1 := conv_has (by omega) (ca (hs.imp_right (·.1)))
  have c2 := conv_has (by omega) (cb (hs.imp_right (·.2)))
  simp only [areEqual, notEqual, c1, c2, fail]
  by_cases he : a = b <;> simp [he]

example : (⟨8, true⟩ : IntTy).Has (-128) ∧ (⟨8, true⟩ : IntTy).Has 127 ∧ ¬ (⟨8, true⟩ : IntTy).Has 128 ∧ (⟨8, false⟩ : IntTy).Has 255 ∧ ¬ (⟨8, false⟩ : IntTy).Has (-1) := by
  simp [IntTy.Has]

/-- C116 is violated by a negative integer and an unsigned one of a type that is not smaller: the integer that is 2^bits greater passes as equal. -/
theorem c116_sign_violated (s n : Nat) (v : Int) (hs : s ≤ n) (hn : 32 ≤ n) (h1 : v < 0) (h2 : -(2 ^ (n - 1) : Int) ≤ v) :
    areEqual K ⟨s, true⟩ ⟨n, false⟩ v (v + 2 ^ n) = .ret ∧ v ≠ v + 2 ^ n ∧ (⟨n, false⟩ : IntTy).Has (v + 2 ^ n) := by
  have h0 : (0 : Int) < 2 ^ (n - 1) := Int.pow_pos (by decide)
  have hp := two_pow_pred (n := n) (by omega)
  refine ⟨?_, by omega, by simp [IntTy.Has]; omega⟩
  have hc : common (promote ⟨s, true⟩) (promote ⟨n, false⟩) = ⟨n, false⟩ := by
    have : promote ⟨n, false⟩ = ⟨n, false⟩ := by simp [promote]; omega
    rw [this]
    simp only [promote]
    split
    · simp [common]; omega
    · simp [common]; omega
  simp only [areEqual, notEqual, hc, conv]
  simp

/-! ### Samples -/

/-- Four classes: 0 is a base of all, 1 is `TestException`, 2 and 3 are others, 3 a base of 2. -/
def sample : Classes where
  Cls := Nat
  isA x y := x == y || y == 0 || (x == 2 && y == 3)
  refl := by simp
  trans := by simp; omega
  test := 1

example : throws sample (3 : Nat) (.thrown (2 : Nat)) = .ret ∧ throws sample (3 : Nat) .ret = .thrown (1 : Nat) ∧ throws sample (2 : Nat) (.thrown (3 : Nat)) = .thrown (3 : Nat) := ⟨rfl, rfl, rfl⟩
example : sample.isA sample.test (0 : Nat) = true ∧ sample.isA sample.test (3 : Nat) = false := ⟨rfl, rfl⟩
example : areEqual sample ⟨32, true⟩ ⟨32, false⟩ (-1) 4294967295 = .ret := rfl
example : (⟨8, true⟩ : IntTy).Has (-128) ∧ (⟨8, true⟩ : IntTy).Has 127 ∧ ¬ (⟨8, true⟩ : IntTy).Has 128 ∧ (⟨8, false⟩ : IntTy).Has 255 := by simp [IntTy.Has]
example : (⟨8, true⟩ : IntTy).Has (-1) ∧ (⟨16, true⟩ : IntTy).Has 255 ∧ notEqual ⟨8, true⟩ ⟨16, true⟩ (-1) 255 = true := by simp [IntTy.Has]; decide

end Verif.Assert
