import Verif.Serialize.Props
import Verif.Serialize.TimeCut

/-! # C80: time points, for every tick -/

namespace Verif.Serialize

/-- C80, exactly, for every tick of p/q nanoseconds: the bytes are eight, reading gives a time point between zero and the original, and it is the original if and only if the time is a whole number of
nanoseconds; ticks of 1/q nanoseconds are cut down to a multiple of q.  Missing: times
of which the number of ticks times p does not fit 64 bits, where the cast overflows. -/
theorem c80_exact_partial (env : Env) (p q : Nat) (i : Int) (old : Val) (hp : 0 < p) (hq : 0 < q) (h1 : -2 ^ 63 ≤ i * p) (h2 : i * p < 2 ^ 63) (rest : List UInt8) :
    ∃ bs j, bs.length = 8 ∧ write env (.time p q) (.int i) = .ok bs ∧ read env (.time p q) old (bs ++ rest) = .ok (.int j, rest) ∧
      (j = i ↔ (q : Int) ∣ i * p) ∧ (0 ≤ i → 0 ≤ j ∧ j ≤ i) ∧ (i ≤ 0 → i ≤ j ∧ j ≤ 0) ∧ (p = 1 → j = i.tdiv q * q) := by
  obtain ⟨ns, j, e1, b1, b2, e2, hj⟩ := time_cut p q i hp hq h1 h2
  refine ⟨leBytes 8 (ofInt64 ns), j, by simp, by simp [write, writeTy, e1], ?_, hj⟩
  have hx : Exact (σ := Unit) (I := fun _ => True) (readTy env plainHook (.time p q) old) (leBytes 8 (ofInt64 ns)) (.int j) := by
    simp only [readTy]
    refine Exact.bind_nil (Exact.readRaw _ 8 (by simp)) ?_
    rw [leVal_leBytes 8 _ (by have := ofInt64_lt ns; norm_num at this ⊢; exact this), toInt64_ofInt64 ns b1 b2]
    exact Exact.nil_bind (Exact.lift e2) (Exact.pure _)
  obtain ⟨c', _, e⟩ := (hx () trivial).1 rest
  simp only [read, e]

-- ticks of two thirds of a nanosecond
example : ∃ bs, write env0 (.time 2 3) (.int 7) = .ok bs ∧ read env0 (.time 2 3) (.int 0) bs = .ok (.int 6, []) := ⟨_, rfl, rfl⟩

end Verif.Serialize
