import Verif.Serialize.Props

/-! # C78: lengths that get past the limit, for every limit and character -/

namespace Verif.Serialize

/-- **C78 is violated**, for every limit and every width of characters: a length of which the number of bytes wraps around to one within the limit is not refused as too long, whatever follows: the
string is resized to it, which throws another exception, no `IoException`, if that many characters cannot be had. -/
theorem c78_wrapped_violated (env : Env) (L c len : Nat) (hL : env.limit = some L) (hlen : len < 2 ^ 64) (hw : len * c % 2 ^ 64 ≤ L) (hcap : env.cap < len) (old : Val) (rest : List UInt8) :
    read env (.str c) old (leBytes 8 len ++ rest) = .throw .general := by
  obtain ⟨c', _, e⟩ := (Exact.readSize (σ := Unit) (I := fun _ => True) len hlen () trivial).1 rest
  have hn : ¬ L < len * c % 2 ^ 64 := by omega
  simp only [read, readTy, Rd.bind_def, e, hL, Option.any_some, decide_eq_true_eq, if_neg hn, resize, if_pos hcap, Rd.lift]

/-- There is such a length for characters of two and of four bytes, however small the limit. -/
theorem c78_lengths (k n : Nat) (hk : k = 2 ∧ n = 2 ^ 63 ∨ k = 4 ∧ n = 2 ^ 62) : n < 2 ^ 64 ∧ n * k % 2 ^ 64 = 0 := by
  rcases hk with ⟨rfl, rfl⟩ | ⟨rfl, rfl⟩ <;> decide

example (rest : List UInt8) : read env3 (.str 4) (.list []) (leBytes 8 (2 ^ 62) ++ rest) = .throw .general :=
  c78_wrapped_violated env3 3 4 (2 ^ 62) rfl (by decide) (by decide) (by decide) _ rest

end Verif.Serialize
