import Verif.File.Lemmas

/-! # C98: a file stream is a byte array with a position.  C99: a file handle is closed exactly once -/

namespace Verif.File

/-- **C98.**  A `Write` that returns has written all bytes at the position: they are there, the bytes outside are as before (zero where there were none), the
length is what it has to be, the position is behind them. -/
theorem c98_write (lim room : Nat) (f f' : File) (b : List UInt8) (hb : b ≠ []) (h : write lim room f b = (f', .ok ())) :
    (∀ i, i < b.length → f'.data[f.pos + i]? = b[i]?)
    ∧ (∀ i, i < f.pos → f'.data[i]? = some (f.data[i]?.getD 0))
    ∧ (∀ i, f.pos + b.length ≤ i → f'.data[i]? = f.data[i]?)
    ∧ getLength f' = max (getLength f) (f.pos + b.length) ∧ getPosition f' = f.pos + b.length := by
  rw [(write_ok lim room f f' b hb h).1]
  refine ⟨?_, ?_, ?_, ?_, rfl⟩
  · intro i hi
    rw [List.getElem?_append_left (by simp [resize_length]; omega), List.getElem?_append_right (by simp [resize_length]), resize_length]
    congr 1; omega
  · intro i hi
    rw [List.getElem?_append_left (by simp [resize_length]; omega), List.getElem?_append_left (by simp [resize_length]; omega)]
    exact resize_get _ _ _ hi
  · intro i hi
    rw [List.getElem?_append_right (by simp [resize_length]; omega)]
    simp only [List.length_append, resize_length, List.getElem?_drop]
    congr 1; omega
  · simp [getLength, resize_length]; omega

/-- **C98.**  A `Write` of no bytes returns and does nothing, wherever the position is. -/
theorem c98_write_nothing (lim room : Nat) (f : File) : write lim room f [] = (f, .ok ()) := write_nil lim room f

/-- **C98.**  What was written is read back. -/
theorem c98_read_back (lim room : Nat) (f f' : File) (b : List UInt8) (h : write lim room f b = (f', .ok ())) (hp : f.pos < 2 ^ 63) :
    ∃ f1, seek f' f.pos true = (f1, .ok ()) ∧ (read lim f1 b.length).2 = b := by
  have ht : toOff f.pos = f.pos := by simp only [toOff]; rw [Nat.mod_eq_of_lt (by omega), if_pos hp]
  by_cases hb : b = []
  · subst hb
    refine ⟨⟨f'.data, f.pos⟩, ?_, by simp [read, sysRead]⟩
    simp only [seek, if_true, sysSeek, ht]
    rw [if_neg (by omega)]; simp
  obtain ⟨he, hl⟩ := write_ok lim room f f' b hb h
  rw [he]
  simp only [seek, if_true, sysSeek, ht]
  rw [if_neg (by omega)]
  refine ⟨_, rfl, ?_⟩
  simp only [read, sysRead]
  rw [show ((↑(0 : Nat) + (↑f.pos : Int))).toNat = f.pos by omega, List.append_assoc, List.drop_append_of_le_length (by simp [resize_length]), List.drop_eq_nil_of_le (by simp [resize_length]),
    List.nil_append, Nat.min_eq_left hl, List.take_append_of_le_length (Nat.le_refl _), List.take_length]

/-- **C98.**  `Read` gives the next bytes of the file, at least one if there is one, and moves the position behind them. -/
theorem c98_read (lim : Nat) (f : File) (n : Nat) :
    (read lim f n).2 = (f.data.drop f.pos).take (min n lim) ∧ (read lim f n).1 = ⟨f.data, f.pos + (read lim f n).2.length⟩
    ∧ (0 < n → 0 < lim → f.pos < getLength f → (read lim f n).2 ≠ []) := by
  refine ⟨rfl, rfl, fun h1 h2 h3 h4 => ?_⟩
  have := congrArg List.length h4
  simp only [getLength] at h3
  simp [read, sysRead] at this; omega

/-- **C98.**  A `Write` throws if and only if the file system cannot store the bytes or they are more than one call of write(2) takes. -/
theorem c98_write_throws (lim room : Nat) (f : File) (b : List UInt8) (hb : b ≠ []) :
    (write lim room f b).2 = .throw .io ↔ lim < b.length ∨ room < f.pos + b.length := by
  have h0 : b.length ≠ 0 := by simpa using hb
  simp only [write, sysWrite]
  by_cases h : min (min b.length lim) (room - f.pos) = 0
  · rw [if_pos h, if_neg h0]; simp; omega
  · rw [if_neg h]
    by_cases h2 : min (min b.length lim) (room - f.pos) ≠ b.length
    · simp only [if_pos h2, true_iff]; omega
    · simp only [if_neg h2]; simp; omega

/-- **C98 is violated**: a `Write` of more bytes than one call of write(2) takes (2147479552 on Linux) throws, however large the disk is, -/
theorem c98_large_violated (lim room : Nat) (f : File) (b : List UInt8) (hb : lim < b.length) : (write lim room f b).2 = .throw .io :=
  (c98_write_throws lim room f b (by rintro rfl; simp at hb)).2 (.inl hb)

/-- and what did fit has been written then: the file is not as before. -/
theorem c98_short_violated : write 4 100 ⟨[1, 2, 3], 1⟩ [7, 8, 9, 10, 11] = (⟨[1, 7, 8, 9, 10], 5⟩, .throw .io) := by decide

/-- So it is with every `Write` that throws: the file and the position are then those that a `Write` of the first bytes leaves, as many as could be stored. -/
theorem c98_part_violated (lim room : Nat) (f : File) (b : List UInt8) (h : (write lim room f b).2 = .throw .io) :
    min lim (room - f.pos) < b.length ∧ (write lim room f b).1 = (write lim room f (b.take (min lim (room - f.pos)))).1 ∧
      (write lim room f (b.take (min lim (room - f.pos)))).2 = .ok () := by
  have hb : b ≠ [] := by rintro rfl; rw [write_nil] at h; cases h
  have h0 : b.length ≠ 0 := by simpa using hb
  have hlt : min lim (room - f.pos) < b.length := by
    rcases (c98_write_throws lim room f b hb).1 h with h | h <;> omega
  refine ⟨hlt, ?_⟩
  have e1 : min (min b.length lim) (room - f.pos) = min lim (room - f.pos) := by omega
  have e2 : (b.take (min lim (room - f.pos))).length = min lim (room - f.pos) := by rw [List.length_take]; omega
  have e3 : min (min (min lim (room - f.pos)) lim) (room - f.pos) = min lim (room - f.pos) := by omega
  simp only [write, sysWrite, e1, e2, e3]
  by_cases hk : min lim (room - f.pos) = 0
  · simp [hk, hb]
  · simp only [hk, if_false, ne_eq, not_true_eq_false, List.take_take, Nat.min_self, and_true]
    rw [if_pos (by omega)]

example : (write 4 100 ⟨[1, 2, 3], 1⟩ [7, 8, 9, 10, 11]).1 = (write 4 100 ⟨[1, 2, 3], 1⟩ [7, 8, 9, 10]).1 ∧ (write 9 4 ⟨[1, 2, 3], 1⟩ [7, 8, 9, 10, 11]).1 = ⟨[1, 7, 8, 9], 4⟩ := by decide

/-- **C98.**  `End` tells whether there is nothing to read, if the position is not behind the end. -/
theorem c98_end_partial (lim : Nat) (hl : 0 < lim) (f : File) (hp : f.pos ≤ getLength f) (n : Nat) (hn : 0 < n) :
    atEnd f = true ↔ (read lim f n).2 = [] := by
  simp only [atEnd, getPosition, getLength, beq_iff_eq, read, sysRead] at hp ⊢
  rw [List.take_eq_nil_iff, List.drop_eq_nil_iff]
  omega

/-- **C98 is violated**: behind the end there is nothing to read and `End` is false: a loop that reads until `End` does not terminate. -/
theorem c98_end_violated (lim : Nat) (f : File) (hp : getLength f < f.pos) (n : Nat) :
    atEnd f = false ∧ (read lim f n).2 = [] ∧ (read lim f n).1 = f := by
  have hd : f.data.drop f.pos = [] := by simp only [getLength] at hp; exact List.drop_eq_nil_of_le (by omega)
  refine ⟨?_, ?_, ?_⟩
  · simp only [atEnd, getPosition, getLength] at hp ⊢; rw [beq_eq_false_iff_ne]; omega
  · simp [read, sysRead, hd]
  · cases f; simp_all [read, sysRead]

/-- Reading blocks of `n` bytes until `End`; at most `k` blocks. -/
def readAll (lim n : Nat) : Nat → File → Option (List UInt8)
  | 0, _ => none
  | k + 1, f => if atEnd f then some [] else (readAll lim n k (read lim f n).1).map ((read lim f n).2 ++ ·)

/-- **C98.**  Reading until `End` gives the rest of the file. -/
theorem c98_read_all (lim n : Nat) (hl : 0 < lim) (hn : 0 < n) (k : Nat) : ∀ f : File, f.pos ≤ getLength f → getLength f - f.pos < k →
    readAll lim n k f = some (f.data.drop f.pos) := by
  induction k with
  | zero => intro f _ h; cases h
  | succ k ih =>
    intro f hp hk
    simp only [getLength] at hp hk
    simp only [readAll]
    split
    · rename_i he
      simp only [atEnd, getPosition, getLength, beq_iff_eq] at he
      rw [he, List.drop_length]
    · rename_i he
      simp only [atEnd, getPosition, getLength, beq_iff_eq] at he
      have hlen : (read lim f n).2.length = min (min n lim) (f.data.length - f.pos) := by simp [read, sysRead]
      have hpos : (read lim f n).1 = ⟨f.data, f.pos + (read lim f n).2.length⟩ := rfl
      rw [ih _ (by rw [hpos]; simp only [getLength]; omega) (by rw [hpos]; simp only [getLength]; omega)]
      simp only [hpos, Option.map_some, Option.some.injEq]
      have h1 : (read lim f n).2 = (f.data.drop f.pos).take (read lim f n).2.length := by
        rw [hlen]; simp only [read, sysRead]
        rw [List.take_eq_take_iff]; simp
      rw [← List.drop_drop]
      conv => lhs; arg 1; rw [h1]
      exact List.take_append_drop _ _

/-- **C98.**  `Seek` and `Move` go where they are told or throw and stay; the contents stay. -/
theorem c98_seek (f : File) (p : Nat) (hp : p < 2 ^ 63) : seek f p true = (⟨f.data, p⟩, .ok ()) ∧ seek f p false = (⟨f.data, f.data.length + p⟩, .ok ()) := by
  have ht : toOff p = p := by simp only [toOff]; rw [Nat.mod_eq_of_lt (by omega), if_pos hp]
  simp only [seek, sysSeek, ht]
  refine ⟨?_, ?_⟩
  · simp only [if_true]; rw [if_neg (by omega)]; simp
  · simp only [Bool.false_eq_true, if_false]; rw [if_neg (by omega)]; congr
theorem c98_move (f : File) (o : Int) : move f o = if (f.pos : Int) + o < 0 then (f, .throw .io) else (⟨f.data, ((f.pos : Int) + o).toNat⟩, .ok ()) := by
  simp only [move, sysSeek]; split <;> simp_all

/-- **C98.**  `Truncate` makes the position the end of the file; the bytes before it stay. -/
theorem c98_truncate (f : File) : getLength (truncate f) = f.pos ∧ getPosition (truncate f) = f.pos ∧ ∀ i, i < f.pos → (truncate f).data[i]? = some (f.data[i]?.getD 0) :=
  ⟨resize_length _ _, rfl, fun i hi => resize_get _ _ i hi⟩

example : write 4 100 ⟨[1, 2, 3], 5⟩ [7, 8] = (⟨[1, 2, 3, 0, 0, 7, 8], 7⟩, .ok ()) := by decide
example : readAll 3 2 9 ⟨[1, 2, 3, 4, 5], 0⟩ = some [1, 2, 3, 4, 5] := by decide

/-! ## Handles -/

/-- **C99.**  In every history of handles a descriptor is open if and only if exactly one handle has it; no descriptor that is not open is ever closed. -/
theorem c99_owner (l : List HAct) (s : HState) (h : hrun hinit l = .ok s) :
    (∀ fd, fd ∈ s.opened ↔ ∃ v, s.vars v = some (some fd) ∧ ∀ w, s.vars w = some (some fd) → w = v) ∧ s.bad = false := by
  have hi := hinv_run l hinit s hinv_init h
  refine ⟨fun fd => ⟨fun hf => ?_, fun ⟨v, hv, _⟩ => hi.own v fd hv⟩, hi.good⟩
  obtain ⟨v, hv⟩ := hi.all fd hf
  exact ⟨v, hv, fun w hw => hi.uniq w v fd hw hv⟩

/-- **C99.**  When no handle exists any more, every descriptor has been closed. -/
theorem c99_no_leak (l : List HAct) (s : HState) (h : hrun hinit l = .ok s) (hn : ∀ v, s.vars v = none) : s.opened = [] := by
  have hi := hinv_run l hinit s hinv_init h
  cases e : s.opened with
  | nil => rfl
  | cons fd r =>
    obtain ⟨v, hv⟩ := hi.all fd (by simp [e])
    rw [hn v] at hv; cases hv

/-- **C99.**  Move assignment of another handle closes the old descriptor and takes the new one. Missing: assignment of a handle to itself (`c99_self_violated`). -/
theorem c99_assign_partial (s s' : HState) (v w : Nat) (h k : Option Nat) (hv : s.vars v = some h) (hw : s.vars w = some k) (hne : v ≠ w)
    (hs : hstep s (.assign v w) = .ok s') :
    s'.vars v = some k ∧ s'.vars w = some none ∧ s'.closed = (match h with | some fd => [fd] | none => []) ++ s.closed := by
  have hne' : ¬ w = v := fun e => hne e.symm
  simp only [hstep, hv, hw] at hs
  have h2 : (close s v h).vars w = some k := by cases h <;> simp [close, upd, hw, hne']
  rw [h2] at hs; simp only at hs; cases hs
  refine ⟨by simp [upd, hne], by simp [upd], ?_⟩
  cases h <;> rfl

/-- **C99 is violated** for a move assignment of a handle to itself: the file is closed and the handle is empty. -/
theorem c99_self_violated (s : HState) (v fd : Nat) (hv : s.vars v = some (some fd)) :
    ∃ s', hstep s (.assign v v) = .ok s' ∧ s'.vars v = some none ∧ s'.closed = fd :: s.closed := by
  simp only [hstep, hv, close, upd, if_true]
  exact ⟨_, rfl, by simp [upd], rfl⟩

def hview (r : Res HState) : Option (List Nat × List Nat × Bool) := match r with | .ok s => some (s.opened, s.closed, s.bad) | _ => none

example : hview (hrun hinit [.open 0 3, .open 1 4, .moveTo 2 0, .assign 1 2, .destroy 2, .destroy 0, .open 3 4, .destroy 1]) = some ([4], [3, 4], false) := by decide +kernel

end Verif.File
