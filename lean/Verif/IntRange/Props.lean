import Verif.IntRange.Model

/-! # C166: a range of integers -/

namespace Verif.IntRange

/-- The numbers from `b` on, `n` of them. -/
def numbers (b : Int) (n : Nat) : List Int := (List.range n).map fun i => b + (i : Nat)

/-- The value can be held by the type. -/
def Fits (T : Ty) (v : Int) : Prop := T.min ≤ v ∧ v ≤ T.max

theorem span (T : Ty) (h : 0 < T.bits) : T.max + 1 - T.min = 2 ^ T.bits := by
  obtain ⟨k, hk⟩ : ∃ k, T.bits = k + 1 := ⟨T.bits - 1, by omega⟩
  unfold Ty.max Ty.min
  cases T.signed
  · simp
  · simp only [hk, if_true, Nat.add_sub_cancel, Int.pow_succ]; omega

theorem convert_fits (T : Ty) (h : 0 < T.bits) (v : Int) : Fits T (T.convert v) := by
  have := span T h
  have hp : (0 : Int) < 2 ^ T.bits := Int.pow_pos (by decide)
  have h1 := Int.emod_nonneg (v - T.min) (Int.ne_of_gt hp)
  have h2 := Int.emod_lt_of_pos (v - T.min) hp
  unfold Fits Ty.convert
  omega

theorem convert_of_fits (T : Ty) (h : 0 < T.bits) {v : Int} (hv : Fits T v) : T.convert v = v := by
  have := span T h
  obtain ⟨h1, h2⟩ := hv
  unfold Ty.convert
  rw [Int.emod_eq_of_lt (by omega) (by omega)]
  omega

theorem zero_fits (T : Ty) : T.min ≤ 0 ∧ 0 ≤ T.max := by
  unfold Ty.max Ty.min
  have h1 : (0 : Int) < 2 ^ T.bits := Int.pow_pos (by decide)
  have h2 : (0 : Int) < 2 ^ (T.bits - 1) := Int.pow_pos (by decide)
  cases T.signed <;> simp <;> omega

theorem numbers_succ (b : Int) (n : Nat) : numbers b (n + 1) = b :: numbers (b + 1) n := by
  simp only [numbers, List.range_succ_eq_map, List.map_cons, List.map_map]
  congr 1
  · simp
  · apply List.map_congr_left
    intro i _
    simp only [Function.comp]
    omega

theorem loop_numbers (T : Ty) (r : Range) (hb : r.bound ≤ T.max) (k : Nat) : ∀ v n, v + (k : Int) = r.bound → k ≤ n →
    r.loop T n v = .ok (some (numbers v k)) := by
  induction k with
  | zero =>
    intro v n hv _
    cases n <;> simp [Range.loop, show v = r.bound by omega, numbers]
  | succ k ih =>
    intro v n hv hn
    obtain ⟨n, rfl⟩ : ∃ m, n = m + 1 := ⟨n - 1, by omega⟩
    rw [Range.loop, if_neg (by omega), Ty.inc, if_neg (by omega)]
    rw [Res.ok_bind, ih (v + 1) n (by omega) (by omega), Res.ok_bind, numbers_succ]
    rfl

/-- **C166.**  A loop over `make_int_range(b, e)` sees `b`, `b + 1`, ... up to `e - 1`, each once, and ends, for all values `b ≤ e` of the type, also the greatest one.
Missing: `e < b`, see `c166_backwards_violated`. -/
theorem c166_range_partial (T : Ty) (hT : 0 < T.bits) (b e : Int) (hb : Fits T b) (he : Fits T e) (hbe : b ≤ e) (n : Nat) (hn : (e - b).toNat ≤ n) :
    ∃ r, makeIntRange T b e = .ok r ∧ r.forEach T n = .ok (some (numbers b (e - b).toNat)) := by
  refine ⟨⟨b, e⟩, ?_, ?_⟩
  · simp only [makeIntRange, convert_of_fits T hT hb, convert_of_fits T hT he]
    rw [if_neg (by omega)]
  · exact loop_numbers T ⟨b, e⟩ he.2 (e - b).toNat b n (by show b + _ = e; omega) hn

/-- **C166.**  A loop over `make_count(e)` sees 0, 1, ... up to `e - 1`. -/
theorem c166_count_partial (T : Ty) (hT : 0 < T.bits) (e : Nat) (he : Fits T e) (n : Nat) (hn : e ≤ n) :
    ∃ r, makeCount T e = .ok r ∧ r.forEach T n = .ok (some (numbers 0 e)) := by
  have h0 := zero_fits T
  obtain ⟨r, h1, h2⟩ := c166_range_partial T hT 0 e h0 he (by omega) n (by omega)
  refine ⟨r, ?_, by simpa using h2⟩
  rw [makeCount, convert_of_fits T hT h0, convert_of_fits T hT he, h1]

example : ∃ r, makeIntRange ⟨8, true⟩ (-2) 2 = .ok r ∧ r.forEach ⟨8, true⟩ 9 = .ok (some [-2, -1, 0, 1]) := ⟨_, rfl, rfl⟩

/-- **C166.**  What the loop sees are exactly the values that are not less than `b` and less than `e`, in increasing order. -/
theorem c166_exactly (b e : Int) (hbe : b ≤ e) :
    (∀ v, v ∈ numbers b (e - b).toNat ↔ b ≤ v ∧ v < e) ∧ (numbers b (e - b).toNat).Pairwise (· < ·) := by
  constructor
  · intro v
    simp only [numbers, List.mem_map, List.mem_range]
    constructor
    · rintro ⟨i, hi, rfl⟩; omega
    · intro h; exact ⟨(v - b).toNat, by omega, by omega⟩
  · simp only [numbers, List.pairwise_map]
    exact List.pairwise_lt_range.imp fun h => by omega

/-- **C166.**  A count that does not fit a type that is given explicitly is cut without notice: `make_count<uint8_t>(256)` is a loop that sees nothing. -/
theorem c166_cut_violated (T : Ty) (hT : 0 < T.bits) (hs : T.signed = false) (e : Nat) (n : Nat) (hn : 2 ^ T.bits ≤ n) :
    ∃ r, makeCount T e = .ok r ∧ r.forEach T n = .ok (some (numbers 0 (e % 2 ^ T.bits))) := by
  have hm : T.min = 0 := by simp [Ty.min, hs]
  have hc : T.convert (e : Int) = ((e % 2 ^ T.bits : Nat) : Int) := by simp [Ty.convert, hm]
  have hf := convert_fits T hT (e : Int)
  have hlt : e % 2 ^ T.bits < 2 ^ T.bits := Nat.mod_lt _ (Nat.pow_pos (by decide))
  obtain ⟨r, h1, h2⟩ := c166_count_partial T hT (e % 2 ^ T.bits) (by rw [← hc]; exact hf) n (by omega)
  refine ⟨r, ?_, h2⟩
  rw [← h1, makeCount, makeCount, ← hc, convert_of_fits T hT hf]

/-- **C166 is violated** when there is nothing to see because the end is before the beginning: the range is undefined, not empty (a loop over it
usually runs through all other values of the type or does not end). -/
theorem c166_backwards_violated (T : Ty) (hT : 0 < T.bits) (b e : Int) (hb : Fits T b) (he : Fits T e) (hbe : e < b) :
    makeIntRange T b e = .ub := by
  simp only [makeIntRange, convert_of_fits T hT hb, convert_of_fits T hT he, if_pos hbe]

/-- So is a negative count, -/
theorem c166_negative_violated (T : Ty) (hT : 0 < T.bits) (e : Int) (he : Fits T e) (hn : e < 0) : makeCount T e = .ub := by
  have h0 := zero_fits T
  rw [makeCount, convert_of_fits T hT h0, convert_of_fits T hT he]
  exact c166_backwards_violated T hT 0 e h0 he hn

/-- and a count converted from a size that is more than the greatest `int` (`make_count(static_cast<int>(v.size()))`). -/
theorem c166_large_violated (e : Nat) (h1 : 2 ^ 31 ≤ e) (h2 : e < 2 ^ 32) : makeCount ⟨32, true⟩ e = .ub := by
  have hT : (0 : Nat) < (⟨32, true⟩ : Ty).bits := by decide
  have hc : (⟨32, true⟩ : Ty).convert e = e - 2 ^ 32 := by
    simp only [Ty.convert, Ty.min, if_true]
    omega
  have h := c166_negative_violated ⟨32, true⟩ hT ((e : Int) - 2 ^ 32) (by simp only [Fits, Ty.min, Ty.max, if_true]; omega) (by omega)
  rw [makeCount, ← hc, convert_of_fits _ hT (convert_fits _ hT _)] at h
  exact h

example : makeCount ⟨32, true⟩ 3000000000 = .ub ∧ makeCount ⟨8, false⟩ 256 = .ok ⟨0, 0⟩ := by decide

end Verif.IntRange
