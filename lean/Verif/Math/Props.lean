import Verif.Math.Model
import Verif.Common.Order
import Mathlib.Tactic.Linarith
import Mathlib.Tactic.NormNum

/-! # C113: rounding, clamping, sign -/

namespace Verif.Math

open Verif

theorem trunc_pos {q : Rat} (h : 0 ≤ q) : trunc q = ⌊q⌋ := if_pos h
theorem trunc_neg {q : Rat} (h : q < 0) : trunc q = ⌈q⌉ := if_neg (by linarith)

/-- C113, for numbers that are not negative: the result is the nearest integer (the larger one, if there are two).
Missing: negative numbers (`c113_round_violated`). -/
theorem c113_round_partial (lo hi : Int) (f : Rat) (r : Int) (hf : 0 ≤ f) (h : round lo hi f = .ok r) :
    (r : Rat) - f ≤ 1 / 2 ∧ f - r < 1 / 2 ∧ ∀ n : Int, |f - r| ≤ |f - n| := by
  have ht := trunc_pos (q := f + 1 / 2) (by linarith)
  simp only [round, ht] at h
  split at h
  · cases h
    have h1 := Int.floor_le (f + 1 / 2)
    have h2 := Int.lt_floor_add_one (f + 1 / 2)
    refine ⟨by linarith, by linarith, fun n => ?_⟩
    generalize ⌊f + 1 / 2⌋ = r at h1 h2
    rcases lt_trichotomy n r with hn | rfl | hn
    · have : (n : Rat) + 1 ≤ r := by exact_mod_cast hn
      rw [abs_le]
      have h3 : f - n ≤ |f - n| := le_abs_self _
      constructor <;> linarith
    · exact le_refl _
    · have : (r : Rat) + 1 ≤ n := by exact_mod_cast hn
      rw [abs_le]
      have h3 : -(f - n) ≤ |f - n| := neg_le_abs _
      constructor <;> linarith
  · cases h

/-- C113: a number whose nearest integer is in the range of the type is rounded, one whose nearest integer is not is undefined behaviour. -/
theorem c113_round_range (lo hi : Int) (f : Rat) (hf : 0 ≤ f) : (∃ r, round lo hi f = .ok r) ↔ lo ≤ ⌊f + 1 / 2⌋ ∧ ⌊f + 1 / 2⌋ ≤ hi := by
  have ht := trunc_pos (q := f + 1 / 2) (by linarith)
  simp only [round, ht]
  split
  · next h => exact ⟨fun _ => h, fun _ => ⟨_, rfl⟩⟩
  · next h =>
    constructor
    · rintro ⟨r, hr⟩; cases hr
    · exact fun h' => absurd h' h

/-- C113 is violated by negative numbers: every negative integer gives the next one. -/
theorem c113_round_violated (lo hi n : Int) (hn : n < 0) (h1 : lo ≤ n + 1) (h2 : n + 1 ≤ hi) : round lo hi n = .ok (n + 1) := by
  have h3 : (n : Rat) ≤ -1 := by exact_mod_cast (by omega : n ≤ -1)
  have ht := trunc_neg (q := (n : Rat) + 1 / 2) (by linarith)
  have : ⌈(n : Rat) + 1 / 2⌉ = n + 1 := by
    rw [Int.ceil_eq_iff]
    push_cast
    constructor <;> linarith
  simp only [round, ht, this]
  rw [if_pos ⟨h1, h2⟩]

/-- C113 is violated by all numbers below -1/2 that are not between two integers: the result is not the nearest integer. -/
theorem c113_round_negative_violated (lo hi : Int) (f : Rat) (r : Int) (hf : f < -1 / 2) (hm : ∀ n : Int, f ≠ n + 1 / 2) (h : round lo hi f = .ok r) :
    1 / 2 < (r : Rat) - f ∧ |f - ((r - 1 : Int) : Rat)| < |f - r| := by
  have ht := trunc_neg (q := f + 1 / 2) (by linarith)
  simp only [round, ht] at h
  split at h
  · cases h
    have h1 := Int.le_ceil (f + 1 / 2)
    have h2 := Int.ceil_lt_add_one (f + 1 / 2)
    have h3 : f + 1 / 2 ≠ (⌈f + 1 / 2⌉ : Rat) := by
      intro e
      apply hm (⌈f + 1 / 2⌉ - 1)
      push_cast
      linarith
    have h4 := lt_of_le_of_ne h1 h3
    generalize ⌈f + 1 / 2⌉ = r at h2 h4
    refine ⟨by linarith, ?_⟩
    push_cast
    have h5 : -(f - r) ≤ |f - (r : Rat)| := neg_le_abs _
    have h6 : |f - ((r : Rat) - 1)| < -(f - r) := by
      rw [abs_lt]
      constructor <;> linarith
    linarith
  · cases h

/-- C113: the clamped value is not less than the low bound and not greater than the high one, and is the value itself if that is so already. -/
theorem c113_clamp {α : Type} (less : α → α → Bool) (hw : StrictWeak less) (v lo hi : α) (h : less hi lo = false) :
    less (clamp less v lo hi) lo = false ∧ less hi (clamp less v lo hi) = false ∧
    (less v lo = false → less hi v = false → clamp less v lo hi = v) ∧ (less v lo = true → clamp less v lo hi = lo) ∧ (less hi v = true → clamp less v lo hi = hi) := by
  have hirr : ∀ a, less a a = false := fun a => by
    cases ha : less a a with
    | false => rfl
    | true => have := hw.asymm ha; rw [ha] at this; cases this
  simp only [clamp]
  by_cases h1 : less v lo = true
  · rw [if_pos h1]
    refine ⟨hirr _, h, fun h2 => absurd h1 (by simp [h2]), fun _ => rfl, fun h2 => ?_⟩
    -- v < lo and hi < v make hi < lo
    have := hw.trans hi v lo h2 h1
    rw [h] at this; cases this
  · rw [if_neg h1]
    have h1 : less v lo = false := by simpa using h1
    by_cases h2 : less hi v = true
    · rw [if_pos h2]
      exact ⟨h, hirr _, fun _ h3 => absurd h2 (by simp [h3]), fun h3 => absurd h3 (by simp [h1]), fun _ => rfl⟩
    · rw [if_neg h2]
      have h2 : less hi v = false := by simpa using h2
      exact ⟨h1, h2, fun _ _ => rfl, fun h3 => absurd h3 (by simp [h1]), fun h3 => absurd h3 (by simp [h2])⟩

/-- C113: the sign is 1, 0 or -1 as the value is greater than, equivalent to or less than zero. -/
theorem c113_sign {α : Type} (less : α → α → Bool) (hw : StrictWeak less) (z val : α) :
    (less z val = true → sign less z val = 1) ∧ (less val z = true → sign less z val = -1) ∧ (less z val = false → less val z = false → sign less z val = 0) := by
  refine ⟨fun h => ?_, fun h => ?_, fun h1 h2 => ?_⟩
  · simp [sign, h, hw.asymm h]
  · simp [sign, h, hw.asymm h]
  · simp [sign, h1, h2]

/-! ### Samples -/

example : round (-128) 127 (5 / 2) = .ok 3 ∧ round (-128) 127 (12 / 5) = .ok 2 := by
  constructor
  · simp only [round, trunc]; norm_num
  · have : ⌊(12 / 5 : Rat) + 1 / 2⌋ = 2 := by rw [Int.floor_eq_iff]; norm_num
    simp only [round, trunc_pos (q := (12 / 5 : Rat) + 1 / 2) (by norm_num), this]; norm_num
example : round (-128) 127 (-3) = .ok (-2) := by
  have := c113_round_violated (-128) 127 (-3) (by decide) (by decide) (by decide)
  simpa using this
example : ∃ f : Rat, f < -1 / 2 ∧ (∀ n : Int, f ≠ n + 1 / 2) := by
  refine ⟨-1, by norm_num, fun n h => ?_⟩
  have h2 : (2 * n : Rat) = -3 := by linarith
  have : (2 * n : Int) = -3 := by exact_mod_cast h2
  omega
example : clamp (fun a b : Nat => decide (a < b)) 7 2 5 = 5 ∧ clamp (fun a b : Nat => decide (a < b)) 3 2 5 = 3 ∧ sign (fun a b : Int => decide (a < b)) 0 (-4) = -1 := by decide

end Verif.Math
