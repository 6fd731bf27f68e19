import Verif.Serialize.Props

/-! # C79: the other types for which some bytes are undefined behaviour -/

namespace Verif.Serialize

/-- **C79.**  A time point whose tick is `p/q` nanoseconds: eight bytes are read, and it is undefined exactly if their number times `q` does not fit 64 bits.  With `q` = 1 (nanoseconds and
longer ticks) this never happens. -/
theorem c79_time (env : Env) (p q n : Nat) (old : Val) (hn : n < 2 ^ 64) (rest : List UInt8) :
    (-2 ^ 63 ≤ toInt64 n * q ∧ toInt64 n * q < 2 ^ 63 → ∃ i, read env (.time p q) old (leBytes 8 n ++ rest) = .ok (.int i, rest)) ∧
    (¬ (-2 ^ 63 ≤ toInt64 n * q ∧ toInt64 n * q < 2 ^ 63) → read env (.time p q) old (leBytes 8 n ++ rest) = .ub) := by
  obtain ⟨c', _, e⟩ := (Exact.readRaw (σ := Unit) (I := fun _ => True) (leBytes 8 n) 8 (by simp) () trivial).1 rest
  have hl : leVal (leBytes 8 n) = n := leVal_leBytes 8 n (by norm_num at hn ⊢; exact hn)
  have key : read env (.time p q) old (leBytes 8 n ++ rest) =
      match durationCast q p (toInt64 n) with
      | .ok i => .ok (.int i, rest)
      | .throw e => .throw e
      | .ub => .ub := by
    simp only [read, readTy, Rd.bind_def, e, hl]
    cases durationCast q p (toInt64 n) <;> rfl
  rw [key]
  unfold durationCast fits64
  constructor
  · intro h
    rw [if_pos (by simpa using h)]
    exact ⟨_, rfl⟩
  · intro h
    rw [if_neg (by simpa using h)]

/-- **C79 is violated** by time points with ticks finer than a nanosecond: the conversion of what was read may overflow. -/
theorem c79_time_violated (env : Env) (p q : Nat) (hq : 2 ≤ q) (old : Val) (rest : List UInt8) :
    read env (.time p q) old (leBytes 8 (2 ^ 63 - 1) ++ rest) = .ub := by
  refine (c79_time env p q (2 ^ 63 - 1) old (by norm_num) rest).2 ?_
  have : toInt64 (2 ^ 63 - 1) = 2 ^ 63 - 1 := by
    unfold toInt64
    norm_num
  rw [this]
  intro h
  have : (2 : Int) ≤ q := by exact_mod_cast hq
  nlinarith [h.2]

/-- **C79 is violated** by rings without a limit: if there is an element at all in the data, it is pushed into a ring that has no place for it. -/
theorem c79_ring_violated (env : Env) (t : Ty) (vs : List Val) (n : Nat) (hn : n + 1 < 2 ^ 64) (s s' : List UInt8) (v : Val) (hr : read env t (dflt t) s = .ok (v, s')) :
    read env (.coll (.ring 0) t) (.list vs) (leBytes 8 (n + 1) ++ s) = .ub := by
  obtain ⟨c', _, e⟩ := (Exact.readSize (σ := Unit) (I := fun _ => True) (n + 1) hn () trivial).1 s
  unfold read at hr ⊢
  have hx : ∃ c, readTy env (plainHook (σ := Unit)) t (dflt t) () s = .ok (v, c, s') := by
    cases hq : readTy env (plainHook (σ := Unit)) t (dflt t) () s with
    | ok r =>
      rw [hq] at hr
      obtain ⟨a, b, c⟩ := r
      cases hr
      exact ⟨b, rfl⟩
    | throw x => rw [hq] at hr; cases hr
    | ub => rw [hq] at hr; cases hr
  obtain ⟨c, hx⟩ := hx
  simp only [readTy, Rd.bind_def, e, readColl, hx, collInsert, if_true]
  rfl

/-- One picosecond ticks: 9223372036854776 nanoseconds are too many, 9223372036854775 are not. -/
example : (∃ i, read env0 (.time 1 1000) (.int 0) (leBytes 8 9223372036854775 ++ []) = .ok (.int i, [])) ∧
    read env0 (.time 1 1000) (.int 0) (leBytes 8 9223372036854776 ++ []) = .ub := ⟨⟨_, rfl⟩, rfl⟩

/-- A number pushed into a ring without a limit (for `c79_ring_violated`). -/
example : read env0 (.num 1) (dflt (.num 1)) [7] = .ok (.num 7, []) ∧ read env0 (.coll (.ring 0) (.num 1)) (.list []) (leBytes 8 1 ++ [7]) = .ub := ⟨rfl, rfl⟩

end Verif.Serialize
