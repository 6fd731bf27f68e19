import Verif.StopWatch.Model
import Mathlib.Tactic.Linarith
import Mathlib.Tactic.Ring

/-!
# C122: the stop watch
-/

namespace Verif.StopWatch

open Verif

/-- A duration of `c` periods is no longer than `e` nanoseconds, exactly: `c * num / den ≤ e / 10^9`. -/
def NotLonger (p : Period) (c e : Int) : Prop := c * p.num * 10 ^ 9 ≤ e * p.den

instance (p : Period) (c e : Int) : Decidable (NotLonger p c e) := by unfold NotLonger; infer_instance

/-- Numerator and denominator of the fraction of a period and a nanosecond. -/
def nsNum (p : Period) : Nat := p.num * 10 ^ 9 / Nat.gcd (p.num * 10 ^ 9) p.den
def nsDen (p : Period) : Nat := p.den / Nat.gcd (p.num * 10 ^ 9) p.den

theorem gcd_pos (p : Period) : 0 < Nat.gcd (p.num * 10 ^ 9) p.den := Nat.gcd_pos_of_pos_right _ p.hd

theorem nsNum_mul (p : Period) : nsNum p * Nat.gcd (p.num * 10 ^ 9) p.den = p.num * 10 ^ 9 := Nat.div_mul_cancel (Nat.gcd_dvd_left _ _)
theorem nsDen_mul (p : Period) : nsDen p * Nat.gcd (p.num * 10 ^ 9) p.den = p.den := Nat.div_mul_cancel (Nat.gcd_dvd_right _ _)

theorem nsDen_pos (p : Period) : 0 < nsDen p := by
  rcases Nat.eq_zero_or_pos (nsDen p) with h | h
  · have := nsDen_mul p
    rw [h, Nat.zero_mul] at this
    exact absurd this.symm (Nat.ne_of_gt p.hd)
  · exact h

theorem notLonger_iff (p : Period) (c e : Int) : NotLonger p c e ↔ c * nsNum p ≤ e * nsDen p := by
  have hg : (0 : Int) < (Nat.gcd (p.num * 10 ^ 9) p.den : Nat) := by exact_mod_cast gcd_pos p
  have h1 : (nsNum p : Int) * (Nat.gcd (p.num * 10 ^ 9) p.den : Nat) = p.num * 10 ^ 9 := by exact_mod_cast nsNum_mul p
  have h2 : (nsDen p : Int) * (Nat.gcd (p.num * 10 ^ 9) p.den : Nat) = p.den := by exact_mod_cast nsDen_mul p
  unfold NotLonger
  rw [← h2, mul_assoc, ← h1, ← mul_assoc, ← mul_assoc]
  exact ⟨fun h => le_of_mul_le_mul_right h hg, fun h => mul_le_mul_of_nonneg_right h (le_of_lt hg)⟩

theorem cast_nano (p : Period) (c : Int) : durationCast p nano c = if Fits (c * nsNum p) then .ok ((c * nsNum p).tdiv (nsDen p)) else .ub := by
  simp only [durationCast, nano, Nat.mul_one, i64]
  by_cases h : Fits (c * nsNum p)
  · rw [if_pos h]
    unfold nsNum at h
    rw [if_pos h]
    rfl
  · rw [if_neg h]
    unfold nsNum at h
    rw [if_neg h]
    rfl

/-- C122: for periods that are a whole number of nanoseconds (nanoseconds to years) `HasElapsed` is true exactly if the time since the start is not shorter than
the interval. -/
theorem c122_has_elapsed_partial (w : Watch) (p : Period) (c now : Int) (hp : p.den ∣ p.num * 10 ^ 9) (hc : Fits (c * (p.num * 10 ^ 9 / p.den : Nat)))
    (he : Fits (now - w.startTime)) : hasElapsed w p c now = .ok (decide (NotLonger p c (now - w.startTime))) := by
  have hg : Nat.gcd (p.num * 10 ^ 9) p.den = p.den := Nat.gcd_eq_right hp
  have h1 : nsDen p = 1 := by unfold nsDen; rw [hg]; exact Nat.div_self p.hd
  have h2 : nsNum p = p.num * 10 ^ 9 / p.den := by unfold nsNum; rw [hg]
  simp only [hasElapsed, elapsed, i64, if_pos he, Res.ok_bind, cast_nano]
  rw [if_pos (by rw [h2]; exact hc)]
  simp only [notLonger_iff, h1]
  simp [Int.tdiv_one]

/-- C122: for every period `HasElapsed` is true once the interval has passed, and not earlier than a nanosecond before. -/
theorem c122_within_nanosecond (w : Watch) (p : Period) (c now : Int) (h0 : 0 ≤ c) (r : Bool) (h : hasElapsed w p c now = .ok r) :
    (NotLonger p c (now - w.startTime) → r = true) ∧ (r = true → NotLonger p c (now - w.startTime + 1)) := by
  simp only [hasElapsed, elapsed, i64, cast_nano] at h
  by_cases he : Fits (now - w.startTime)
  · rw [if_pos he] at h
    simp only [Res.ok_bind] at h
    by_cases hc : Fits (c * nsNum p)
    · rw [if_pos hc] at h
      simp only [Res.ok_bind, pure, Res.ok.injEq] at h
      subst h
      have hd : (0 : Int) < nsDen p := by exact_mod_cast nsDen_pos p
      have hn : (0 : Int) ≤ c * nsNum p := Int.mul_nonneg h0 (Int.natCast_nonneg _)
      rw [Int.tdiv_eq_ediv_of_nonneg hn]
      simp only [notLonger_iff, decide_eq_true_eq]
      constructor
      · intro h
        have := Int.ediv_le_ediv hd h
        rwa [Int.mul_ediv_cancel _ (ne_of_gt hd)] at this
      · intro h
        have := Int.lt_ediv_add_one_mul_self (c * nsNum p) hd
        have h2 : (c * ↑(nsNum p) / ↑(nsDen p) + 1) * (nsDen p : Int) ≤ (now - w.startTime + 1) * nsDen p := mul_le_mul_of_nonneg_right (by omega) (le_of_lt hd)
        omega
    · rw [if_neg hc] at h
      simp [Bind.bind, Res.bind] at h
  · rw [if_neg he] at h
    simp [Bind.bind, Res.bind] at h

/-- C122: what has elapsed stays elapsed until the watch is reset. -/
theorem c122_stays (w : Watch) (p : Period) (c now now' : Int) (h : hasElapsed w p c now = .ok true) (hn : now ≤ now') (he : Fits (now' - w.startTime)) :
    hasElapsed w p c now' = .ok true := by
  simp only [hasElapsed, elapsed, i64, cast_nano, if_pos he] at h ⊢
  by_cases he : Fits (now - w.startTime)
  · rw [if_pos he] at h
    simp only [Res.ok_bind] at h ⊢
    by_cases hc : Fits (c * nsNum p)
    · rw [if_pos hc] at h ⊢
      simp only [Res.ok_bind, pure, Res.ok.injEq, decide_eq_true_eq] at h ⊢
      omega
    · rw [if_neg hc] at h
      simp [Bind.bind, Res.bind] at h
  · rw [if_neg he] at h
    simp [Bind.bind, Res.bind] at h

/-- C122: the time since the start, or since the last reset. -/
theorem c122_elapsed_partial (t now : Int) (w : Watch) (r : Int) (h1 : Fits (now - t)) (h2 : Fits (now - r)) :
    elapsed (make t) now = .ok (now - t) ∧ elapsed (reset w r) now = .ok (now - r) := by
  simp [elapsed, i64, make, reset, h1, h2]

theorem wrap_id (bits : Nat) (hb : 0 < bits) (x : Int) (h : -2 ^ (bits - 1) ≤ x) (h' : x < 2 ^ (bits - 1)) : wrap bits x = x := by
  obtain ⟨b, rfl⟩ : ∃ b, bits = b + 1 := ⟨bits - 1, by omega⟩
  simp only [Nat.add_sub_cancel] at h h'
  have hp : (2 : Int) ^ (b + 1) = 2 * 2 ^ b := by rw [pow_succ]; ring
  have h0 : (0 : Int) < 2 ^ b := by positivity
  unfold wrap
  simp only [Nat.add_sub_cancel, hp]
  by_cases hx : 0 ≤ x
  · rw [Int.emod_eq_of_lt hx (by omega), if_neg (by omega)]
  · rw [show x % (2 * 2 ^ b) = x + 2 * 2 ^ b by
      rw [← Int.add_emod_right]; exact Int.emod_eq_of_lt (by omega) (by omega)]
    rw [if_pos (by omega)]
    omega

/-- C122: the elapsed time in other units is the number of whole units, if they are multiples of a nanosecond and the type of the result can hold it. -/
theorem c122_count_partial (w : Watch) (bits : Nat) (hb : 0 < bits) (p : Period) (now : Int) (hp : p.den ∣ p.num * 10 ^ 9) (h0 : w.startTime ≤ now)
    (he : Fits (now - w.startTime)) (hfit : (now - w.startTime) * p.den < 2 ^ (bits - 1) * (p.num * 10 ^ 9)) :
    ∃ k : Int, elapsedCount w bits p now = .ok k ∧ NotLonger p k (now - w.startTime) ∧ ¬ NotLonger p (k + 1) (now - w.startTime) := by
  obtain ⟨m, hm⟩ := hp
  have hm0 : 0 < m := by
    rcases Nat.eq_zero_or_pos m with h | h
    · rw [h, Nat.mul_zero] at hm
      have := p.hn
      omega
    · exact h
  have hden : (0 : Int) < p.den := by exact_mod_cast p.hd
  have hmi : (0 : Int) < m := by exact_mod_cast hm0
  have hmz : (p.num : Int) * 10 ^ 9 = p.den * m := by exact_mod_cast hm
  generalize hE : now - w.startTime = E at *
  have hE0 : 0 ≤ E := by omega
  have hcast : durationCast nano p E = .ok (E / m) := by
    have hm' : 10 ^ 9 * p.num = p.den * m := by rw [Nat.mul_comm]; exact hm
    have hg : Nat.gcd p.den (p.den * m) = p.den := Nat.gcd_eq_left (Nat.dvd_mul_right _ _)
    simp only [durationCast, nano, Nat.one_mul]
    rw [hm', hg, Nat.div_self p.hd, Nat.mul_div_cancel_left _ p.hd]
    simp only [i64, Nat.cast_one, mul_one, if_pos he, Res.ok_bind, pure]
    rw [Int.tdiv_eq_ediv_of_nonneg hE0]
  refine ⟨E / m, ?_, ?_, ?_⟩
  · have hk0 : 0 ≤ E / m := Int.ediv_nonneg hE0 (le_of_lt hmi)
    have hk1 : E / m < 2 ^ (bits - 1) := by
      rw [hmz] at hfit
      have : E < 2 ^ (bits - 1) * m := by
        have h3 : E * p.den < (2 ^ (bits - 1) * m) * p.den := by
          calc E * p.den < 2 ^ (bits - 1) * (p.den * m) := hfit
            _ = _ := by ring
        exact lt_of_mul_lt_mul_right h3 (le_of_lt hden)
      exact (Int.ediv_lt_iff_lt_mul hmi).2 this
    simp only [elapsedCount, elapsed, i64, hE, if_pos he, Res.ok_bind, hcast, pure]
    rw [wrap_id bits hb _ (by have : (0 : Int) < 2 ^ (bits - 1) := by positivity
                              omega) hk1]
  · unfold NotLonger
    rw [mul_assoc, hmz]
    have := Int.ediv_mul_le E (ne_of_gt hmi)
    calc E / m * (p.den * m) = (E / m * m) * p.den := by ring
      _ ≤ E * p.den := mul_le_mul_of_nonneg_right this (le_of_lt hden)
  · unfold NotLonger
    rw [mul_assoc, hmz, not_le]
    have := Int.lt_ediv_add_one_mul_self E hmi
    calc E * p.den < ((E / m + 1) * m) * p.den := mul_lt_mul_of_pos_right this hden
      _ = _ := by ring

/-- Half of a nanosecond in picoseconds; hours; milliseconds. -/
def pico : Period := ⟨1, 10 ^ 12, by omega, by omega⟩
def hour : Period := ⟨3600, 1, by omega, by omega⟩
def milli : Period := ⟨1, 1000, by omega, by omega⟩

/-- C122 is violated for intervals that are not whole nanoseconds: 500 picoseconds have elapsed at once. -/
theorem c122_fine_violated (t : Int) : hasElapsed (make t) pico 500 t = .ok true ∧ ¬ NotLonger pico 500 (t - t) := by
  constructor
  · have hn : nsNum pico = 1 := by decide
    have hd : nsDen pico = 1000 := by decide
    simp only [hasElapsed, elapsed, make, i64, cast_nano, hn, hd, Int.sub_self]
    decide
  · rw [Int.sub_self]
    decide

/-- C122 is violated for long intervals: more than 2562047 hours are undefined behaviour whatever the time is. -/
theorem c122_long_violated (w : Watch) (c now : Int) (hc : 2562047 < c) : hasElapsed w hour c now = .ub := by
  have hn : nsNum hour = 3600000000000 := by decide
  simp only [hasElapsed, elapsed, i64, cast_nano, hn]
  rw [if_neg (show ¬ Fits (c * ((3600000000000 : Nat) : Int)) by unfold Fits; omega)]
  split <;> rfl

/-- C122 is violated for a watch started before all times: the elapsed time is undefined behaviour. -/
theorem c122_min_violated (now : Int) (h : 0 ≤ now) : elapsed (make (-2 ^ 63)) now = .ub := by
  unfold elapsed i64
  exact if_neg (by unfold Fits make; simp only; omega)

/-- C122 is violated for counts of 32 bits: after 2^31 milliseconds (25 days) the count of milliseconds is negative. -/
theorem c122_wrapped_violated : elapsedCount (make 0) 32 milli (2 ^ 31 * 10 ^ 6) = .ok (-2 ^ 31) := by decide

/-- C122 is violated by every type that cannot hold the number of whole units: what is returned is a number that it can hold, which is smaller, often negative, and differs from the right one by a
multiple of 2^bits. -/
theorem c122_too_many_violated (w : Watch) (bits : Nat) (hb : 0 < bits) (p : Period) (now : Int) (hp : p.den ∣ p.num * 10 ^ 9) (h0 : w.startTime ≤ now) (he : Fits (now - w.startTime)) (k : Int)
    (hk : NotLonger p k (now - w.startTime) ∧ ¬ NotLonger p (k + 1) (now - w.startTime)) (hlarge : 2 ^ (bits - 1) ≤ k) :
    ∃ c : Int, elapsedCount w bits p now = .ok c ∧ -2 ^ (bits - 1) ≤ c ∧ c < 2 ^ (bits - 1) ∧ c < k ∧ (2 : Int) ^ bits ∣ k - c := by
  obtain ⟨m, hm⟩ := hp
  have hm0 : 0 < m := by
    rcases Nat.eq_zero_or_pos m with h | h
    · rw [h, Nat.mul_zero] at hm
      have := p.hn
      omega
    · exact h
  have hden : (0 : Int) < p.den := by exact_mod_cast p.hd
  have hmi : (0 : Int) < m := by exact_mod_cast hm0
  have hmz : (p.num : Int) * 10 ^ 9 = p.den * m := by exact_mod_cast hm
  generalize hE : now - w.startTime = E at *
  have hE0 : 0 ≤ E := by omega
  have hcast : durationCast nano p E = .ok (E / m) := by
    have hm' : 10 ^ 9 * p.num = p.den * m := by rw [Nat.mul_comm]; exact hm
    have hg : Nat.gcd p.den (p.den * m) = p.den := Nat.gcd_eq_left (Nat.dvd_mul_right _ _)
    simp only [durationCast, nano, Nat.one_mul]
    rw [hm', hg, Nat.div_self p.hd, Nat.mul_div_cancel_left _ p.hd]
    simp only [i64, Nat.cast_one, mul_one, if_pos he, Res.ok_bind, pure]
    rw [Int.tdiv_eq_ediv_of_nonneg hE0]
  have hkE : E / m = k := by
    obtain ⟨k1, k2⟩ := hk
    unfold NotLonger at k1 k2
    rw [mul_assoc, hmz] at k1 k2
    rw [not_le] at k2
    have a1 : k * m ≤ E := by
      have : (k * m) * p.den ≤ E * p.den := by
        calc (k * m) * p.den = k * (p.den * m) := by ring
          _ ≤ _ := k1
      exact le_of_mul_le_mul_right this hden
    have a2 : E < (k + 1) * m := by
      have : E * p.den < ((k + 1) * m) * p.den := by
        calc E * p.den < (k + 1) * (p.den * m) := k2
          _ = _ := by ring
      exact lt_of_mul_lt_mul_right this (le_of_lt hden)
    have b1 := (Int.le_ediv_iff_mul_le hmi).2 a1
    have b2 := (Int.ediv_lt_iff_lt_mul hmi).2 a2
    omega
  refine ⟨wrap bits k, by simp only [elapsedCount, elapsed, i64, hE, if_pos he, Res.ok_bind, hcast, hkE, pure], ?_⟩
  obtain ⟨b, rfl⟩ : ∃ b, bits = b + 1 := ⟨bits - 1, by omega⟩
  simp only [Nat.add_sub_cancel] at hlarge ⊢
  have hp2 : (2 : Int) ^ (b + 1) = 2 * 2 ^ b := by rw [pow_succ]; ring
  have hpos : (0 : Int) < 2 ^ b := by positivity
  unfold wrap
  simp only [Nat.add_sub_cancel, hp2]
  have r0 := Int.emod_nonneg k (show (2 * 2 ^ b : Int) ≠ 0 by omega)
  have r1 := Int.emod_lt_of_pos k (show (0 : Int) < 2 * 2 ^ b by omega)
  have r2 := Int.emod_add_mul_ediv k (2 * 2 ^ b)
  split
  · refine ⟨by omega, by omega, by omega, ⟨k / (2 * 2 ^ b) + 1, ?_⟩⟩
    rw [mul_add, mul_one]; omega
  · exact ⟨by omega, by omega, by omega, ⟨k / (2 * 2 ^ b), by omega⟩⟩

example : NotLonger milli (2 ^ 31) (2 ^ 31 * 10 ^ 6 - (make 0).startTime) ∧ ¬ NotLonger milli (2 ^ 31 + 1) (2 ^ 31 * 10 ^ 6 - (make 0).startTime) := by decide

/-- A watch that is started at 1000 ns: 3 ms have elapsed at 3001000 ns and not before. -/
example : hasElapsed (make 1000) milli 3 3001000 = .ok true ∧ hasElapsed (make 1000) milli 3 3000999 = .ok false := by decide

example : milli.den ∣ milli.num * 10 ^ 9 ∧ Fits (3 * (milli.num * 10 ^ 9 / milli.den : Nat)) ∧ Fits (3001000 - (make 1000).startTime) := by decide

example : elapsedCount (make 1000) 32 milli 3000999 = .ok 2 := by decide

end Verif.StopWatch
