import Verif.Vts.EmptyProps
import Verif.Vts.PlainProps

/-!
# C121: every structure of numbers is taken for any other one of the same size
-/

namespace Verif.Vts

open Verif.Serialize

theorem writeFields_nums (env : Env) : ∀ (ws ns : List Nat), ns.length = ws.length →
    ∃ bs, writeFields (writeTys env preV (ws.map fun w => Ty.num w)) (ns.map .num) = .ok bs ∧ bs.length = ws.sum ∧
      ((∀ x ∈ ns.zip ws, x.1 < 256 ^ x.2) → numbersIn ws bs = ns.map .num) := by
  intro ws
  induction ws with
  | nil => intro ns h; cases ns with | nil => exact ⟨[], rfl, rfl, fun _ => rfl⟩ | cons => simp at h
  | cons w ws ih =>
    intro ns h
    cases ns with
    | nil => simp at h
    | cons n ns =>
      obtain ⟨bs, h1, h2, h3⟩ := ih ns (by simpa using h)
      refine ⟨leBytes w n ++ bs, by simp [writeTys, writeFields, writeTy, h1], by simp [h2, leBytes_length], fun hb => ?_⟩
      simp only [numbersIn, List.map_cons, List.take_left' (leBytes_length w n), List.drop_left' (leBytes_length w n)]
      rw [h3 (fun x hx => hb x (by simp [hx])), leVal_leBytes w n (hb (n, w) (by simp))]

theorem numbersIn_append : ∀ (ws : List Nat) (s rest : List UInt8), ws.sum ≤ s.length → numbersIn ws (s ++ rest) = numbersIn ws s := by
  intro ws
  induction ws with
  | nil => intro _ _ _; rfl
  | cons w ws ih =>
    intro s rest h
    simp only [List.sum_cons] at h
    simp only [numbersIn]
    rw [List.take_append_of_le_length (by omega), List.drop_append_of_le_length (by omega), ih _ _ (by simp; omega)]

/-- **C121 is violated** by every structure of numbers that is read as any other structure of numbers of the same total size, whatever the indices and the names: there is no exception, nothing is left, and the
members are what the bytes give.  In particular members of the same sizes get the values by position: if only their names were exchanged, so are the values. -/
theorem c121_every_version_violated (env : Env) (i j : Nat) (names names' : List Name) {ws ws' ns : List Nat} {os : List Val} (hns : ns.length = ws.length) (hsum : ws'.sum = ws.sum)
    (ho : os.length = ws'.length) :
    ∃ bs, writeTy env preV (.struct (some ⟨i, names⟩) (ws.map fun w => Ty.num w)) (.list (ns.map .num)) = .ok (leBytes 2 i ++ bs) ∧ bs.length = ws.sum ∧
      (∀ rest, readPlain env (.struct (some ⟨j, names'⟩) (ws'.map fun w => Ty.num w)) (.list os) (leBytes 2 i ++ bs ++ rest) = .ok (.list (numbersIn ws' bs), rest)) ∧
      (ws' = ws → (∀ x ∈ ns.zip ws, x.1 < 256 ^ x.2) → numbersIn ws' bs = ns.map .num) := by
  obtain ⟨bs, h1, h2, h3⟩ := writeFields_nums env ws ns hns
  refine ⟨bs, by simp [writeTy, h1, preV], h2, fun rest => ?_, fun h => by rw [h]; exact h3⟩
  have hl : (leBytes 2 i).length = 2 := leBytes_length 2 i
  have hlen : ¬ (leBytes 2 i ++ (bs ++ rest)).length < 2 := by simp [hl]
  simp only [List.append_assoc, readPlain, readTy, hookPlain, bind, Rd.bind, readStructIndex, readRaw, pure, Rd.pure, hlen, if_false, List.drop_left' hl]
  rw [readFields_nums _ _ ws' os _ _ ho, if_neg (by simp; omega), numbersIn_append ws' bs rest (by omega)]
  simp only [List.drop_left' (h2.trans hsum.symm)]

/-- `struct { uint16_t p, q; }` read as `struct { uint16_t q, p; }`. -/
example : ∃ bs, writeTy ⟨none, 1000⟩ preV (.struct (some ⟨1, [[112], [113]]⟩) [.num 2, .num 2]) (.list [.num 5, .num 600]) = .ok bs ∧
    readPlain ⟨none, 1000⟩ (.struct (some ⟨0, [[113], [112]]⟩) [.num 2, .num 2]) (.list [.num 0, .num 0]) bs = .ok (.list [.num 5, .num 600], []) :=
  ⟨[1, 0, 5, 0, 88, 2], by rfl, by rfl⟩

end Verif.Vts
