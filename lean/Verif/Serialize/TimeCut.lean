import Verif.Serialize.Lemmas

/-! # What two casts of a duration leave of it -/

namespace Verif.Serialize

/-- A duration in ticks of p/q nanoseconds, cast to nanoseconds and back. -/
theorem time_cut (p q : Nat) (i : Int) (hp : 0 < p) (hq : 0 < q) (h1 : -2 ^ 63 ≤ i * p) (h2 : i * p < 2 ^ 63) :
    ∃ ns j, durationCast p q i = .ok ns ∧ -2 ^ 63 ≤ ns ∧ ns < 2 ^ 63 ∧ durationCast q p ns = .ok j ∧
      (j = i ↔ (q : Int) ∣ i * p) ∧ (0 ≤ i → 0 ≤ j ∧ j ≤ i) ∧ (i ≤ 0 → i ≤ j ∧ j ≤ 0) ∧ (p = 1 → j = i.tdiv q * q) := by
  have hq' : (0 : Int) < q := by omega
  have hp' : (0 : Int) < p := by omega
  have hf : fits64 (i * p) = true := (fits64_iff _).mpr ⟨h1, h2⟩
  obtain ⟨x, hx⟩ : ∃ x, x = i * p := ⟨_, rfl⟩
  rw [← hx] at h1 h2 hf
  have hdm : x.tdiv q * q + x.tmod q = x := Int.tdiv_mul_add_tmod x q
  -- the part cut off has the sign of the time and is smaller than the rest
  have hpos : 0 ≤ x → 0 ≤ x.tdiv q ∧ 0 ≤ x.tmod q := fun h => ⟨Int.tdiv_nonneg h (by omega), Int.tmod_nonneg _ h⟩
  have hneg : x ≤ 0 → x.tdiv q ≤ 0 ∧ x.tmod q ≤ 0 := fun h => by
    have a := Int.tdiv_nonneg (a := -x) (b := q) (by omega) (by omega)
    have b := Int.tmod_nonneg (a := -x) (q : Int) (by omega)
    rw [Int.neg_tdiv] at a
    rw [Int.neg_tmod] at b
    omega
  obtain ⟨m, hm⟩ : ∃ m, m = x.tdiv q := ⟨_, rfl⟩
  obtain ⟨t, ht⟩ : ∃ t, t = x.tmod q := ⟨_, rfl⟩
  rw [← hm, ← ht] at hdm hpos hneg
  have hmq : 0 ≤ m → m ≤ m * q := fun h => by nlinarith
  have hmq' : m ≤ 0 → m * q ≤ m := fun h => by nlinarith
  have hmq0 : 0 ≤ m → 0 ≤ m * q := fun h => by nlinarith
  have hmq0' : m ≤ 0 → m * q ≤ 0 := fun h => by nlinarith
  have hf2 : fits64 (m * q) = true := (fits64_iff _).mpr (by
    rcases Int.le_total 0 x with h | h
    · have := hpos h; have := hmq0 this.1; omega
    · have := hneg h; have := hmq0' this.1; omega)
  have hj : ∀ y : Int, 0 ≤ i → 0 ≤ y → y ≤ x → 0 ≤ y.tdiv p ∧ y.tdiv p ≤ i := fun y hi h0 hy =>
    ⟨Int.tdiv_nonneg h0 (by omega), by
      rw [Int.tdiv_eq_ediv_of_nonneg h0]
      exact Int.ediv_le_of_le_mul hp' (by omega)⟩
  refine ⟨m, (m * q).tdiv p, ?_, ?_, ?_, ?_, ?_, ?_, ?_, ?_⟩
  · simp only [durationCast, ← hx, hf, if_true, hm]
  · rcases Int.le_total 0 x with h | h
    · have := hpos h; omega
    · have := hneg h; have := hmq' this.1; omega
  · rcases Int.le_total 0 x with h | h
    · have := hpos h; have := hmq this.1; omega
    · have := hneg h; omega
  · simp only [durationCast, hf2, if_true]
  · rw [← hx]
    constructor
    · intro h
      have hd2 : (m * q).tdiv p * p + (m * q).tmod p = m * q := Int.tdiv_mul_add_tmod _ _
      rw [h, ← hx] at hd2
      have : t = 0 := by
        rcases Int.le_total 0 x with h | h
        · have a := hpos h
          have b := Int.tmod_nonneg (a := m * q) (p : Int) (hmq0 a.1)
          omega
        · have a := hneg h
          have b := Int.tmod_nonneg (a := -(m * q)) (p : Int) (by have := hmq0' a.1; omega)
          rw [Int.neg_tmod] at b
          omega
      exact ⟨m, by rw [← hdm, this]; ring⟩
    · intro h
      have : t = 0 := by rw [ht]; exact Int.tmod_eq_zero_of_dvd h
      have e : m * q = i * p := by omega
      rw [e, Int.mul_tdiv_cancel i (by omega)]
  · intro hi
    have hx0 : 0 ≤ x := by rw [hx]; exact Int.mul_nonneg hi (by omega)
    have a := hpos hx0
    exact hj _ hi (hmq0 a.1) (by omega)
  · intro hi
    have hx0 : x ≤ 0 := by rw [hx]; nlinarith
    have a := hneg hx0
    have b := hmq0' a.1
    have hd2 : (m * q).tdiv p * p + (m * q).tmod p = m * q := Int.tdiv_mul_add_tmod _ _
    have c := Int.tdiv_nonneg (a := -(m * q)) (b := p) (by omega) (by omega)
    have d := Int.tmod_nonneg (a := -(m * q)) (p : Int) (by omega)
    rw [Int.neg_tdiv] at c
    rw [Int.neg_tmod] at d
    refine ⟨?_, by omega⟩
    by_contra hc
    nlinarith
  · rintro rfl
    rw [hm, hx]
    simp

end Verif.Serialize
