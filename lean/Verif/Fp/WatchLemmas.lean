import Verif.Fp.Model
import Mathlib.Tactic.Linarith
import Mathlib.Tactic.Ring
import Mathlib.Tactic.FieldSimp
import Mathlib.Tactic.NormNum

/-! # Stop watches with floating point numbers: lemmas -/

namespace Verif.Fp

open Verif
open Verif.Double (two_pos)

variable {p : ℕ}

/-- `x` differs from `y` by at most the part `a` of `y`. -/
def Near (a x y : ℚ) : Prop := |x - y| ≤ a * |y|

theorem near_rnd (x : ℚ) : Near (1 / 2 ^ (p + 1)) (rnd p x) x := by
  have h := rnd_error (p := p) x
  unfold Near
  calc _ ≤ _ := h
    _ = _ := by ring

theorem Near.mono {a b x y : ℚ} (h : Near a x y) (hab : a ≤ b) : Near b x y :=
  le_trans h (mul_le_mul_of_nonneg_right hab (abs_nonneg _))

theorem Near.abs_le {a x y : ℚ} (h : Near a x y) : |x| ≤ (1 + a) * |y| := by
  have : |x| ≤ |x - y| + |y| := by
    have := abs_add_le (x - y) y
    rwa [sub_add_cancel] at this
  unfold Near at h
  linarith

theorem Near.trans {a b x y z : ℚ} (hb : 0 ≤ b) (h1 : Near b x y) (h2 : Near a y z) : Near (a + b + a * b) x z := by
  have h3 := h2.abs_le
  unfold Near at *
  have : |x - z| ≤ |x - y| + |y - z| := by
    have := abs_add_le (x - y) (y - z)
    rwa [sub_add_sub_cancel] at this
  have h4 := mul_le_mul_of_nonneg_left h3 hb
  linarith

theorem Near.mul_right {a x y : ℚ} (h : Near a x y) (c : ℚ) : Near a (x * c) (y * c) := by
  unfold Near at *
  rw [← sub_mul, abs_mul, abs_mul]
  have := mul_le_mul_of_nonneg_right h (abs_nonneg c)
  linarith

theorem Near.mul_left {a x y : ℚ} (h : Near a x y) (c : ℚ) : Near a (c * x) (c * y) := by
  rw [mul_comm c, mul_comm c]
  exact h.mul_right c

theorem Near.div_right {a x y : ℚ} (h : Near a x y) (c : ℚ) : Near a (x / c) (y / c) := by
  rw [div_eq_mul_inv, div_eq_mul_inv]
  exact h.mul_right _

theorem step_small (h : 9 ≤ p) : (1 / 2 ^ (p + 1) : ℚ) ≤ 1 / 1000 := by
  have : (2 : ℚ) ^ 10 ≤ 2 ^ (p + 1) := pow_le_pow_right₀ (by norm_num) (by omega)
  rw [div_le_div_iff₀ (by positivity) (by norm_num)]
  norm_num at this
  linarith

theorem rnd_pos {x : ℚ} (hp : 9 ≤ p) (h : 0 < x) : 0 < rnd p x := by
  have e := near_rnd (p := p) x
  have s := step_small hp
  unfold Near at e
  rw [abs_of_pos h] at e
  have := (abs_le.1 e).1
  nlinarith

/-- The reciprocal of a rounded number. -/
theorem near_inv {y : ℚ} (hp : 9 ≤ p) (h : 0 < y) : Near (11 / 10 / 2 ^ (p + 1)) (1 / rnd p y) (1 / y) := by
  have e := near_rnd (p := p) y
  have s := step_small hp
  have hr := rnd_pos hp h
  have hu : (0 : ℚ) < 1 / 2 ^ (p + 1) := by positivity
  unfold Near at e ⊢
  rw [show (11 / 10 / 2 ^ (p + 1) : ℚ) = 11 / 10 * (1 / 2 ^ (p + 1)) by ring]
  generalize (1 / 2 ^ (p + 1) : ℚ) = u at *
  generalize rnd p y = r at *
  rw [abs_of_pos h] at e
  have e1 : 1 / r - 1 / y = (y - r) / (r * y) := by field_simp
  rw [e1, abs_div, abs_sub_comm, abs_of_pos (mul_pos hr h), abs_of_pos (one_div_pos.2 h), div_le_iff₀ (mul_pos hr h)]
  have e2 : 11 / 10 * u * (1 / y) * (r * y) = 11 / 10 * u * r := by field_simp
  rw [e2]
  have h3 := (abs_le.1 e).1
  nlinarith [mul_pos hu h]

theorem rnd_billion (hp : 20 ≤ p) : rnd p ((10 ^ 9 : ℕ) : ℚ) = 10 ^ 9 := by
  have h : (2 : ℤ) ^ 21 ≤ 2 ^ (p + 1) := pow_le_pow_right₀ (by norm_num) (by omega)
  have := rnd_is (p := p) (x := (10 ^ 9 : ℚ)) ⟨1953125, 9, by norm_num at h ⊢; linarith, by norm_num⟩
  push_cast
  exact this

theorem rnd_one : rnd p ((1 : ℕ) : ℚ) = 1 := by
  have := rnd_int (p := p) (n := 1) (by rw [abs_one]; exact one_le_pow₀ (by norm_num))
  exact_mod_cast this

theorem seconds_eq (hp : 20 ≤ p) (e : ℤ) : seconds p e = rnd p (rnd p e / 10 ^ 9) := by
  unfold seconds cast
  rw [rnd_billion hp, rnd_one, mul_one, rnd_is (is_rnd _)]

theorem trunc_bounds (q : ℚ) : q - 1 < trunc q ∧ (trunc q : ℚ) < q + 1 := by
  unfold trunc
  split
  · exact ⟨Int.sub_one_lt_floor q, lt_of_le_of_lt (Int.floor_le q) (by linarith)⟩
  · exact ⟨lt_of_lt_of_le (by linarith) (Int.le_ceil q), Int.ceil_lt_add_one q⟩

theorem trunc_nonneg {q : ℚ} (h : 0 ≤ q) : (trunc q : ℚ) ≤ q := by
  unfold trunc
  rw [if_pos h]
  exact Int.floor_le q

theorem trunc_int (n : ℤ) : trunc (n : ℚ) = n := by
  unfold trunc
  split
  · exact Int.floor_intCast n
  · exact Int.ceil_intCast n

theorem trunc_mono {a b : ℚ} (h : a ≤ b) : trunc a ≤ trunc b := by
  unfold trunc
  split <;> split
  · exact Int.floor_mono h
  · linarith
  · have h1 : ⌈a⌉ ≤ 0 := by rw [Int.ceil_le]; push_cast; linarith
    have h2 : 0 ≤ ⌊b⌋ := by rw [Int.le_floor]; push_cast; assumption
    omega
  · exact Int.ceil_mono h

/-- The number of nanoseconds of an interval of `x` seconds, `x` a number of the type. -/
theorem nanos_eq (hp : 20 ≤ p) {x : ℚ} (hx : Is p x) : cast p (10 ^ 9) 1 x = rnd p (x * 10 ^ 9) := by
  unfold cast
  rw [rnd_billion hp, rnd_one, rnd_is hx, div_one, rnd_is (is_rnd _)]

theorem hasElapsed_ok (hp : 20 ≤ p) {x : ℚ} (hx : Is p x) {e : ℤ} {b : Bool} (h : hasElapsed p x e = .ok b) :
    b = decide (trunc (rnd p (x * 10 ^ 9)) ≤ e) := by
  unfold hasElapsed at h
  rw [nanos_eq hp hx] at h
  simp only at h
  split at h
  · exact (Res.ok.inj h).symm
  · cases h

end Verif.Fp
