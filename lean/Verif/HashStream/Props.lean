import Verif.HashStream.Decode

/-!
# Properties of hashed, buffered and memory streams (C38, C39, C40, C42, C82, C83)

`hash` is any function to arrays of a fixed size, the block size is any number larger than that.
-/

namespace Verif.HashStream

/-! ## Examples used below -/

/-- A toy hash of one byte: the sum of all bytes plus one. -/
def sumHash (blockSize : Nat) : Cfg := ⟨blockSize, 1, fun x => [x.foldl (· + ·) 1], fun _ => rfl⟩

theorem sumHash_good : (sumHash 4).Good := by unfold Cfg.Good; decide

/-- A toy hash of two bytes. -/
def sumHash2 (blockSize : Nat) : Cfg := ⟨blockSize, 2, fun x => [x.foldl (· + ·) 1, 77], fun _ => rfl⟩

/-! ## Lemmas -/

theorem no_exception_ideal : ∀ (ops : List Op) (p : Bytes) (l : List Obs), untilException l = ideal false p ops →
    l = ideal false p ops
  | ops, p, l, h => by
    have key : ∀ (ops : List Op) (p : Bytes), ∀ o ∈ ideal false p ops, ∀ e, o ≠ .exception e := by
      intro ops
      induction ops with
      | nil => intro p o ho; simp [ideal] at ho
      | cons op ops ih =>
        intro p o ho e
        cases op with
        | read n =>
          rw [ideal] at ho
          by_cases h1 : n ≤ p.length
          · rw [if_pos h1] at ho
            rcases List.mem_cons.1 ho with rfl | ho
            · simp
            · exact ih _ o ho e
          · rw [if_neg h1] at ho
            simp only [Bool.false_eq_true, if_false] at ho
            rcases List.mem_cons.1 ho with rfl | ho
            · simp
            · exact ih _ o ho e
        | atEnd =>
          rw [ideal] at ho
          by_cases h1 : p ≠ []
          · rw [if_pos h1] at ho
            rcases List.mem_cons.1 ho with rfl | ho
            · simp
            · exact ih _ o ho e
          · rw [if_neg h1] at ho
            simp only [Bool.false_eq_true, if_false] at ho
            rcases List.mem_cons.1 ho with rfl | ho
            · simp
            · exact ih _ o ho e
    have gen : ∀ (l l' : List Obs), untilException l = l' → (∀ o ∈ l', ∀ e, o ≠ .exception e) → l = l' := by
      intro l
      induction l with
      | nil => intro l' h _; exact h
      | cons o l ih =>
        intro l' h hne
        cases o with
        | exception e => rw [untilException] at h; subst h; exact absurd rfl (hne _ (by simp) e)
        | data b =>
          rw [untilException] at h
          · subst h; rw [← ih _ rfl (fun o ho => hne o (List.mem_cons_of_mem _ ho))]
          · simp
        | flag b =>
          rw [untilException] at h
          · subst h; rw [← ih _ rfl (fun o ho => hne o (List.mem_cons_of_mem _ ho))]
          · simp
        | ub =>
          rw [untilException] at h
          · subst h; rw [← ih _ rfl (fun o ho => hne o (List.mem_cons_of_mem _ ho))]
          · simp
        | running =>
          rw [untilException] at h
          · subst h; rw [← ih _ rfl (fun o ho => hne o (List.mem_cons_of_mem _ ho))]
          · simp
    exact gen l _ h (key ops p)

theorem run_full {c : Cfg} (hc : c.Good) {s p : Bytes} {bad : Bool} {fuel : Nat} (hf : s.length ≤ fuel)
    (h : decode c fuel s = (p, bad)) (ops : List Op) :
    untilException (run c (In.init ⟨s, []⟩) ops) = ideal bad p ops :=
  run_ideal (fullDen_closed hc) ops _ _ _ (holds_init ⟨by simp, fuel, hf, h⟩)

/-! ## C38 -/

/-- C38: bytes written in any pieces are stored in the block format, and read back in any pieces, with any calls of
`End` in between, they are exactly what was written, then the end of the stream, with no corruption reported. -/
theorem c38_transparent (c : Cfg) (hc : c.Good) (pieces : List Bytes) :
    ∃ e, Encodes (c.blockSize - c.size) c.hash pieces.flatten e ∧
      writeAll c (Out.init ⟨[], none⟩) pieces = (⟨e, none⟩, .returned) ∧
      ∀ ops, run c (In.init ⟨e, []⟩) ops = ideal false pieces.flatten ops := by
  obtain ⟨e, he, hfit, _⟩ := writeAll_spec hc pieces (Out.init ⟨[], none⟩) (by
    unfold Cfg.Good at hc; simp [Out.init]; omega)
  refine ⟨e, by simpa [Out.init] using he, ?_, fun ops => ?_⟩
  · rw [hfit (by intro r hr; simp [Out.init] at hr)]
    simp [Sink.adv, Out.init]
  · apply no_exception_ideal
    apply run_full hc (Nat.le_refl _)
    have := (decode_truncated hc (by simpa [Out.init] using he) e.length e.length (by omega) (by omega)).2.2 rfl
    rwa [List.take_length] at this

example : writeAll (sumHash 4) (Out.init ⟨[], none⟩) [[1, 2], [], [3, 4, 5, 6, 7]] =
    (⟨[1, 2, 3, 7, 4, 5, 6, 16, 7, 8], none⟩, .returned) := by decide
example : run (sumHash 4) (In.init ⟨[1, 2, 3, 7, 4, 5, 6, 16, 7, 8], []⟩) [.read 1, .atEnd, .read 5, .atEnd, .read 9, .atEnd] =
    [.data [1], .flag false, .data [2, 3, 4, 5, 6], .flag false, .data [7], .flag true] := by decide

/-- C38: the bytes that the user gets are a prefix of what was written, and all of it once as many bytes are asked
for. -/
theorem c38_all_received (c : Cfg) (hc : c.Good) (pieces : List Bytes) (counts : List Nat)
    (hsum : pieces.flatten.length ≤ counts.sum) (e : Bytes) (h : Encodes (c.blockSize - c.size) c.hash pieces.flatten e) :
    ∃ answers, run c (In.init ⟨e, []⟩) (counts.map .read ++ [.atEnd]) = answers ++ [.flag true] ∧
      received answers = pieces.flatten := by
  have hrun : run c (In.init ⟨e, []⟩) (counts.map .read ++ [.atEnd]) =
      ideal false pieces.flatten (counts.map .read ++ [.atEnd]) := by
    apply no_exception_ideal
    apply run_full hc (Nat.le_refl _)
    have := (decode_truncated hc h e.length e.length (by omega) (by omega)).2.2 rfl
    rwa [List.take_length] at this
  rw [hrun]
  clear hrun h
  generalize pieces.flatten = d at hsum
  induction counts generalizing d with
  | nil =>
    have : d = [] := List.eq_nil_of_length_eq_zero (by simpa using hsum)
    subst this
    exact ⟨[], by simp [ideal], rfl⟩
  | cons n ns ih =>
    rw [List.map_cons, List.cons_append, ideal]
    by_cases h1 : n ≤ d.length
    · rw [if_pos h1]
      obtain ⟨a, ha, hr⟩ := ih (d.drop n) (by simp at hsum ⊢; omega)
      refine ⟨.data (d.take n) :: a, by rw [ha]; rfl, ?_⟩
      rw [received, hr, List.take_append_drop]
    · rw [if_neg h1]
      simp only [Bool.false_eq_true, if_false]
      obtain ⟨a, ha, hr⟩ := ih [] (by simp)
      refine ⟨.data d :: a, by rw [ha]; rfl, ?_⟩
      rw [received, hr, List.append_nil]

example : ∃ answers, run (sumHash 4) (In.init ⟨[1, 2, 3, 7, 4, 5, 6, 16, 7, 8], []⟩)
    ([1, 1, 9].map .read ++ [.atEnd]) = answers ++ [.flag true] ∧ received answers = [1, 2, 3, 4, 5, 6, 7] :=
  ⟨[.data [1], .data [2], .data [3, 4, 5, 6, 7]], by decide, by decide⟩

/-! ## C39 -/

/-- C39: cutting the stored bytes anywhere and reading: the data are a prefix `p` of what was written, followed by the
end of the stream or by a corruption exception, and if anything was cut off `p` is a proper prefix. -/
theorem c39_truncated (c : Cfg) (hc : c.Good) (d e : Bytes) (h : Encodes (c.blockSize - c.size) c.hash d e)
    (k : Nat) (hk : k ≤ e.length) :
    ∃ p bad, p <+: d ∧ (k < e.length → p ≠ d) ∧
      ∀ ops, untilException (run c (In.init ⟨e.take k, []⟩) ops) = ideal bad p ops := by
  obtain ⟨h1, h2, _⟩ := decode_truncated hc h k e.length hk (by omega)
  refine ⟨_, _, h1, fun hlt heq => ?_, fun ops => run_full hc (fuel := e.length) (by simp <;> omega) rfl ops⟩
  have := h2 hlt
  rw [heq] at this
  omega

example : Encodes 3 (sumHash 4).hash [1, 2, 3, 4] [1, 2, 3, 7, 4, 5] := .more (p := [1, 2, 3]) rfl (.last (p := [4]) (by decide) (by decide))
-- cut between blocks, in a payload, and such that the rest of the payload looks like a hash
example : run (sumHash 4) (In.init ⟨[1, 2, 3, 7], []⟩) [.read 9, .atEnd] = [.data [1, 2, 3], .flag true] ∧
    run (sumHash 4) (In.init ⟨[1, 2, 3], []⟩) [.read 9] = [.exception .corruption] ∧
    run (sumHash 4) (In.init ⟨[4, 5], []⟩) [.read 9] = [.data [4]] := by decide

/-- C39: bytes received before the first exception from a truncated stream are a prefix of what was written. -/
theorem c39_received_prefix (c : Cfg) (hc : c.Good) (d e : Bytes) (h : Encodes (c.blockSize - c.size) c.hash d e)
    (k : Nat) (hk : k ≤ e.length) (ops : List Op) :
    received (untilException (run c (In.init ⟨e.take k, []⟩) ops)) <+: d := by
  obtain ⟨p, bad, hp, _, hr⟩ := c39_truncated c hc d e h k hk
  rw [hr ops]
  exact (received_ideal_prefix bad ops p).trans hp

/-! ## C40 -/

/-- C40: the stored bytes are changed in place; block `j` is the first that differs and it is not consistent by
itself.  Then exactly the data of the blocks before it are delivered, followed by a corruption exception. -/
theorem c40_modified (c : Cfg) (hc : c.Good) (d e e' : Bytes) (h : Encodes (c.blockSize - c.size) c.hash d e)
    (hl : e'.length = e.length) (j : Nat)
    (hsame : ∀ i, i < j → blockAt c.blockSize e' i = blockAt c.blockSize e i)
    (hdiff : blockAt c.blockSize e' j ≠ blockAt c.blockSize e j)
    (hcon : ¬ Consistent c.hash (blockAt c.blockSize e' j)) (ops : List Op) :
    untilException (run c (In.init ⟨e', []⟩) ops) = ideal true (d.take (j * (c.blockSize - c.size))) ops := by
  apply run_full hc (fuel := e.length) (by omega)
  refine decode_modified hc h e' j e.length hl (Nat.le_refl _) hsame ?_ hcon
  intro h0
  apply hdiff
  rw [h0]
  unfold blockAt at h0 ⊢
  rcases List.take_eq_nil_iff.1 h0 with h1 | h1
  · unfold Cfg.Good at hc; omega
  · rw [List.drop_eq_nil_iff] at h1
    rw [List.drop_eq_nil_of_le (by omega), List.take_nil]

example : run (sumHash 4) (In.init ⟨[1, 2, 3, 7, 4, 99, 6, 16, 7, 8], []⟩) [.read 2, .read 9] =
    [.data [1, 2], .exception .corruption] := by decide

/-- C40: the stored bytes are changed in place.  Reading returns the original data, or a prefix of it and then a
corruption exception, or some changed block is a payload followed by its hash. -/
theorem c40_original_or_reported (c : Cfg) (hc : c.Good) (d e e' : Bytes)
    (h : Encodes (c.blockSize - c.size) c.hash d e) (hl : e'.length = e.length) :
    (∀ ops, run c (In.init ⟨e', []⟩) ops = ideal false d ops) ∨
    (∃ p, p <+: d ∧ ∀ ops, untilException (run c (In.init ⟨e', []⟩) ops) = ideal true p ops) ∨
    (∃ j, blockAt c.blockSize e' j ≠ blockAt c.blockSize e j ∧ Consistent c.hash (blockAt c.blockSize e' j)) := by
  by_cases hj : ∃ j, blockAt c.blockSize e' j ≠ blockAt c.blockSize e j
  · right
    obtain ⟨j, hj, hmin⟩ : ∃ j, blockAt c.blockSize e' j ≠ blockAt c.blockSize e j ∧
        ∀ i, i < j → blockAt c.blockSize e' i = blockAt c.blockSize e i := by
      obtain ⟨j, hj⟩ := hj
      induction j using Nat.strongRecOn with
      | ind j ih =>
        by_cases hex : ∃ i, i < j ∧ blockAt c.blockSize e' i ≠ blockAt c.blockSize e i
        · obtain ⟨i, hi, hne⟩ := hex
          exact ih i hi hne
        · refine ⟨j, hj, fun i hi => Decidable.byContradiction fun hne => hex ⟨i, hi, hne⟩⟩
    by_cases hcon : Consistent c.hash (blockAt c.blockSize e' j)
    · exact .inr ⟨j, hj, hcon⟩
    · exact .inl ⟨_, List.take_prefix _ _, fun ops => c40_modified c hc d e e' h hl j hmin hj hcon ops⟩
  · left
    have he : e' = e := by
      refine eq_of_blocks (n := c.blockSize) (by unfold Cfg.Good at hc; omega) e.length e' e (by omega) (by omega)
        fun j => Decidable.byContradiction fun hne => hj ⟨j, hne⟩
    subst he
    intro ops
    apply no_exception_ideal
    apply run_full hc (Nat.le_refl _)
    have := (decode_truncated hc h e'.length e'.length (by omega) (by omega)).2.2 rfl
    rwa [List.take_length] at this

/-! ## C42 -/

/-- C42: reading through a buffered stream in any pieces returns exactly the bytes of the underlying stream in order
and ends when it ends, for every buffer size and also if the underlying stream returns fewer bytes than asked for (at
least one as long as there are any). -/
theorem c42_buffered_input (n : Nat) (hn : 0 < n) (data : Bytes) (lims : List Nat) (hl : ∀ l ∈ lims, 0 < l)
    (ops : List Op) :
    run (fakeHash n) (In.init ⟨data, lims⟩) ops = ideal false data ops :=
  no_exception_ideal _ _ _ (run_ideal (bufDen_closed hn) ops _ _ _ (holds_init ⟨rfl, rfl, hl⟩))

example : run (fakeHash 3) (In.init ⟨[1, 2, 3, 4, 5], [2, 1]⟩) [.read 1, .atEnd, .read 3, .read 4, .atEnd] =
    [.data [1], .flag false, .data [2, 3, 4], .data [5], .flag true] := by decide

theorem encodes_fake {n : Nat} {d e : Bytes} (h : Encodes n (fun _ => []) d e) : e = d := by
  induction h with
  | nil => rfl
  | last _ _ => simp
  | more _ _ ih => simp [ih]

/-- C42: what is written through a buffered stream in any pieces arrives unchanged when the stream is destroyed. -/
theorem c42_buffered_output (n : Nat) (hn : 0 < n) (before : Bytes) (pieces : List Bytes) :
    writeAll (fakeHash n) (Out.init ⟨before, none⟩) pieces = (⟨before ++ pieces.flatten, none⟩, .returned) := by
  obtain ⟨e, he, hfit, _⟩ := writeAll_spec (c := fakeHash n) hn pieces (Out.init ⟨before, none⟩) hn
  rw [hfit (by intro r hr; simp [Out.init] at hr)]
  have : e = pieces.flatten := by simpa [Out.init] using encodes_fake he
  subst this
  simp [Sink.adv, Out.init]

example : writeAll (fakeHash 3) (Out.init ⟨[9], none⟩) [[1, 2], [3, 4], [], [5]] = (⟨[9, 1, 2, 3, 4, 5], none⟩, .returned) := by
  decide

/-- One call of a vector stream. -/
def vecCall (s : VecIn) : Op → VecIn × Obs
  | .read n =>
    match s.read n with
    | (s, .ok b) => (s, .data b)
    | (s, .throw e) => (s, .exception e)
    | (s, .ub) => (s, .ub)
  | .atEnd => (s, .flag s.atEnd)

/-- A program of calls of a vector stream. -/
def vecRun : VecIn → List Op → List Obs
  | _, [] => []
  | s, op :: ops => (vecCall s op).2 :: vecRun (vecCall s op).1 ops

theorem vecRun_ideal : ∀ (ops : List Op) (s : VecIn), s.i ≤ s.v.length → vecRun s ops = ideal false (s.v.drop s.i) ops
  | [], _, _ => rfl
  | .read n :: ops, s, h => by
    have hcall : vecCall s (.read n) = ({ s with i := s.i + min (s.v.length - s.i) n },
        .data ((s.v.drop s.i).take n)) := by
      simp only [vecCall, VecIn.read, if_pos h]
      congr 2
      by_cases hz : min (s.v.length - s.i) n = 0
      · rw [if_neg (by omega)]
        rcases Nat.min_eq_zero_iff.1 hz with h1 | h1
        · rw [List.drop_eq_nil_of_le (by omega), List.take_nil]
        · rw [h1, List.take_zero]
      · rw [if_pos hz]
        rw [List.take_eq_take_iff, List.length_drop]
        omega
    rw [vecRun, hcall, vecRun_ideal ops _ (by simp <;> omega), ideal]
    have hd : (s.v.drop s.i).length = s.v.length - s.i := by simp
    by_cases h1 : n ≤ (s.v.drop s.i).length
    · rw [if_pos h1, List.drop_drop, show min (s.v.length - s.i) n = n by omega]
    · rw [if_neg h1]
      simp only [Bool.false_eq_true, if_false]
      rw [List.take_of_length_le (by omega), List.drop_eq_nil_of_le (i := s.i + _) (by omega)]
  | .atEnd :: ops, s, h => by
    have hcall : vecCall s .atEnd = (s, .flag (s.i == s.v.length)) := rfl
    rw [vecRun, hcall, vecRun_ideal ops _ h, ideal]
    by_cases h1 : s.i = s.v.length
    · have : s.v.drop s.i = [] := List.drop_eq_nil_of_le (by omega)
      rw [this]; simp [h1]
    · have hne : s.v.drop s.i ≠ [] := by rw [ne_eq, List.drop_eq_nil_iff]; omega
      have hb : (s.i == s.v.length) = false := by simp [h1]
      rw [if_pos hne, hb]

/-- C42: a vector stream is a FIFO of bytes: what was appended in any pieces is read in any pieces, and then the end. -/
theorem c42_vector_fifo (pieces : List Bytes) (ops : List Op) :
    vecRun ⟨pieces.foldl vectorWrite [], 0⟩ ops = ideal false pieces.flatten ops := by
  have : ∀ (v : Bytes), pieces.foldl vectorWrite v = v ++ pieces.flatten := by
    induction pieces with
    | nil => simp
    | cons p ps ih => intro v; simp [vectorWrite, ih]
  rw [vecRun_ideal _ _ (by simp), this]
  simp

example : vecRun ⟨[[1, 2], [3]].foldl vectorWrite [], 0⟩ [.read 1, .atEnd, .read 5, .atEnd, .read 2] =
    [.data [1], .flag false, .data [2, 3], .flag true, .data []] := by decide

/-- C42: a measuring stream counts the bytes that are written. -/
theorem c42_measure (pieces : List Bytes) (h : pieces.flatten.length < 2 ^ 64) :
    pieces.foldl measureWrite 0 = pieces.flatten.length := by
  have : ∀ (n : Nat), n + pieces.flatten.length < 2 ^ 64 →
      pieces.foldl measureWrite n = n + pieces.flatten.length := by
    clear h
    induction pieces with
    | nil => simp
    | cons p ps ih =>
      intro n h
      simp only [List.flatten_cons, List.length_append] at h
      rw [List.foldl_cons, measureWrite, Nat.mod_eq_of_lt (by omega), ih _ (by omega)]
      simp [Nat.add_assoc]
  rw [this 0 (by omega)]
  omega

example : [[1, 2], [], [3]].foldl measureWrite 0 = 3 := by decide

/-! ## C82: errors of the underlying stream -/

/-- C82 is violated: if the underlying stream cannot take all that is to be stored (a full disk), then whenever this is
found out, in `Write` or at the end, the program is terminated instead of an exception being reported. -/
theorem c82_write_error_violated (c : Cfg) (hc : c.Good) (pieces : List Bytes) (e : Bytes)
    (h : Encodes (c.blockSize - c.size) c.hash pieces.flatten e) (room : Nat) (hr : room < e.length) :
    (writeAll c (Out.init ⟨[], some room⟩) pieces).2 = .terminated := by
  have hn : 0 < c.blockSize - c.size := by unfold Cfg.Good at hc; omega
  obtain ⟨e', he', _, hun⟩ := writeAll_spec hc pieces (Out.init ⟨[], some room⟩) (by simpa [Out.init] using hn)
  have : e' = e := (by simpa [Out.init] using he' : Encodes _ _ pieces.flatten e').unique hn h
  subst this
  rw [hun room rfl hr]

example : writeAll (sumHash 4) (Out.init ⟨[], some 5⟩) [[1, 2, 3], [4, 5], [6]] =
    (⟨[1, 2, 3, 7, 4], some 0⟩, .terminated) := by decide

/-- C82, the part that holds: the stored bytes are those that fit, so what is read from them is a proper prefix of the
data and then the end of the stream or a corruption exception.  Missing: the error is not reported as an exception
(`c82_write_error_violated`). -/
theorem c82_stored_partial (c : Cfg) (hc : c.Good) (pieces : List Bytes) (e : Bytes)
    (h : Encodes (c.blockSize - c.size) c.hash pieces.flatten e) (room : Nat) (hr : room < e.length) :
    (writeAll c (Out.init ⟨[], some room⟩) pieces).1.data = e.take room ∧
    ∃ p bad, p <+: pieces.flatten ∧ p ≠ pieces.flatten ∧ ∀ ops,
      untilException (run c (In.init ⟨(writeAll c (Out.init ⟨[], some room⟩) pieces).1.data, []⟩) ops) = ideal bad p ops := by
  have hn : 0 < c.blockSize - c.size := by unfold Cfg.Good at hc; omega
  obtain ⟨e', he', _, hun⟩ := writeAll_spec hc pieces (Out.init ⟨[], some room⟩) (by simpa [Out.init] using hn)
  have : e' = e := (by simpa [Out.init] using he' : Encodes _ _ pieces.flatten e').unique hn h
  subst this
  have hd : (writeAll c (Out.init ⟨[], some room⟩) pieces).1.data = e'.take room := by
    rw [hun room rfl hr]; simp [Out.init]
  refine ⟨hd, ?_⟩
  rw [hd]
  obtain ⟨p, bad, h1, h2, h3⟩ := c39_truncated c hc _ e' h room (by omega)
  exact ⟨p, bad, h1, h2 hr, h3⟩

/-! ## C83: arbitrary bytes, and the stream after an exception -/

/-- C83, the part that holds: whatever bytes the underlying stream contains, every call returns what an ideal stream
over some bytes would, up to and including the first exception, which is a corruption exception; there is no undefined
behaviour until then.  Missing: calls after the exception (`c83_after_exception_violated`). -/
theorem c83_any_bytes_partial (c : Cfg) (hc : c.Good) (s : Bytes) :
    ∃ p bad, ∀ ops, untilException (run c (In.init ⟨s, []⟩) ops) = ideal bad p ops :=
  ⟨_, _, fun ops => run_full hc (Nat.le_refl s.length) rfl ops⟩

example : untilException (run (sumHash 4) (In.init ⟨[7, 7, 7, 7, 7], []⟩) [.read 0, .atEnd, .read 1]) =
    [.data [], .exception .corruption] := by decide

theorem invalid_after_exception {c : Cfg} {Den} (hc : Closed c Den) {s : In} {p : Bytes} {bad : Bool}
    (h : Holds Den s p bad) (op : Op) (e : Exn) (hx : (call c s op).2 = .exception e) : (call c s op).1.it = none := by
  cases op with
  | read n =>
    have hr := readLoop_spec hc n (n + 2) s [] p bad h (by simp) (by simp)
    simp only [List.length_nil, Nat.sub_zero, List.nil_append] at hr
    by_cases h1 : n ≤ p.length
    · obtain ⟨s', h2, h3⟩ := hr.1 h1
      simp only [call, read, h2] at hx
      simp at hx
    · cases bad with
      | true =>
        obtain ⟨s', h2, h3⟩ := hr.2.2 (by omega) rfl
        simp only [call, read, h2]
        exact h3
      | false =>
        obtain ⟨s', h2, h3⟩ := hr.2.1 (by omega) rfl
        simp only [call, read, h2] at hx
        simp at hx
  | atEnd =>
    rcases atEnd_spec hc h with ⟨h1, h2, s', h3, h4⟩ | ⟨h1, h2, s', h3, h4⟩ | ⟨h1, s', i, h3, h4, _⟩
    · simp only [call, h3]; exact h4
    · simp only [call, h3] at hx; simp at hx
    · simp only [call, h3] at hx; simp at hx

/-- C83 is violated: after a stream has reported corruption, every further call is undefined behaviour (the iterator of
the stream was invalidated by the resize of its buffer). -/
theorem c83_after_exception_violated (c : Cfg) (hc : c.Good) (s : Bytes) (first rest : List Op) (answers : List Obs)
    (h : run c (In.init ⟨s, []⟩) first = answers ++ [.exception .corruption]) (ha : ∀ o ∈ answers, ∀ e, o ≠ .exception e) :
    run c (In.init ⟨s, []⟩) (first ++ rest) = answers ++ [.exception .corruption] ++ rest.map fun _ => .ub := by
  have gen : ∀ (first : List Op) (st : In) (p : Bytes) (bad : Bool) (answers : List Obs), Holds (FullDen c) st p bad →
      run c st first = answers ++ [.exception .corruption] → (∀ o ∈ answers, ∀ e, o ≠ .exception e) →
      run c st (first ++ rest) = answers ++ [.exception .corruption] ++ rest.map fun _ => .ub := by
    intro first
    induction first with
    | nil => intro st p bad answers _ h; simp [run] at h
    | cons op ops ih =>
      intro st p bad answers hst h ha
      have hcl := fullDen_closed hc
      cases answers with
      | nil =>
        simp only [run, List.nil_append, List.cons.injEq] at h
        have hops : ops = [] := by cases ops; rfl; simp [run] at h
        subst hops
        have := invalid_after_exception hcl hst op _ h.1
        simp only [List.cons_append, List.nil_append, run]
        rw [h.1, run_invalid c rest _ this]
      | cons a answers =>
        simp only [run, List.cons_append, List.cons.injEq] at h
        have hnext : ∃ p' bad', Holds (FullDen c) (call c st op).1 p' bad' := by
          cases op with
          | read n =>
            have hr := readLoop_spec hcl n (n + 2) st [] p bad hst (by simp) (by simp)
            simp only [List.length_nil, Nat.sub_zero, List.nil_append] at hr
            by_cases h1 : n ≤ p.length
            · obtain ⟨s', h2, h3⟩ := hr.1 h1
              exact ⟨_, _, by simp only [call, read, h2]; exact h3⟩
            · cases bad with
              | true =>
                obtain ⟨s', h2, h3⟩ := hr.2.2 (by omega) rfl
                exfalso
                have h4 := h.1
                simp only [call, read, h2] at h4
                exact ha a (by simp) _ h4.symm
              | false =>
                obtain ⟨s', h2, h3⟩ := hr.2.1 (by omega) rfl
                exact ⟨_, _, by simp only [call, read, h2]; exact h3⟩
          | atEnd =>
            rcases atEnd_spec hcl hst with ⟨h1, h2, s', h3, h4⟩ | ⟨h1, h2, s', h3, h4⟩ | ⟨h1, s', i, h3, h4, _⟩
            · exfalso
              have h5 := h.1
              simp only [call, h3] at h5
              exact ha a (by simp) _ h5.symm
            · exact ⟨_, _, by simp only [call, h3]; exact h4⟩
            · exact ⟨_, _, by simp only [call, h3]; exact h4⟩
        obtain ⟨p', bad', hst'⟩ := hnext
        have := ih _ p' bad' answers hst' h.2 (fun o ho => ha o (List.mem_cons_of_mem _ ho))
        simp only [List.cons_append, run, this, h.1]
  exact gen first _ _ _ answers (holds_init ⟨by simp, s.length, Nat.le_refl _, rfl⟩) h ha

example : run (sumHash 4) (In.init ⟨[1, 2, 3, 7, 4, 99], []⟩) [.read 3, .read 1, .atEnd] =
    [.data [1, 2, 3], .exception .corruption, .ub] := by decide

/-! ## C85: underlying streams that return less than asked for -/

/-- C85, the part that holds: the underlying stream may limit its reads to no less than the block size.  Missing: smaller
limits (`c85_short_read_violated`). -/
theorem c85_long_reads_partial (c : Cfg) (hc : c.Good) (d e : Bytes) (h : Encodes (c.blockSize - c.size) c.hash d e)
    (lims : List Nat) (hl : ∀ l ∈ lims, c.blockSize ≤ l) (ops : List Op) :
    run c (In.init ⟨e, lims⟩) ops = ideal false d ops := by
  apply no_exception_ideal
  apply run_ideal (fullDen_closed hc)
  have := (decode_truncated hc h e.length e.length (by omega) (by omega)).2.2 rfl
  rw [List.take_length] at this
  exact holds_init ⟨hl, e.length, Nat.le_refl _, this⟩

example : run (sumHash2 4) (In.init ⟨[1, 2, 4, 77, 3, 4, 77], [5, 4]⟩) [.read 3] = [.data [1, 2, 3]] := by decide

/-- C85 is violated when the underlying stream returns fewer bytes than asked for before its end, as a pipe, a socket
or a terminal does: with every hash of two or more bytes and whatever was written, corruption is reported although
nothing is corrupt. -/
theorem c85_short_read_violated (c : Cfg) (hc : c.Good) (h2 : 2 ≤ c.size) (d e : Bytes) (hd : d ≠ [])
    (h : Encodes (c.blockSize - c.size) c.hash d e) (n : Nat) (hn : 0 < n) :
    (call c (In.init ⟨e, [1]⟩) (.read n)).2 = .exception .corruption := by
  have he : e ≠ [] := by
    intro h'
    have := (decode_truncated hc h 0 e.length (by omega) (by omega)).2.2 (by simp [h'])
    rw [List.take_zero, decode_nil] at this
    simp at this
    exact hd this
  have hl := List.length_pos_iff.2 he
  have hread : (Src.mk e [1]).read c.blockSize = (e.take 1, ⟨e.drop 1, []⟩) := by
    unfold Src.read
    unfold Cfg.Good at hc
    simp only [show min 1 c.blockSize = 1 by omega]
  have hpeek : peekBuf c (In.init ⟨e, [1]⟩) = (⟨⟨e.drop 1, []⟩, e.take 1, none⟩, .throw .corruption) := by
    have hlen : (e.take 1).length = 1 := by simp <;> omega
    simp only [peekBuf, In.init, List.length_nil, if_true, hread, hlen]
    rw [if_neg (by omega), if_pos (by omega)]
  have hend : atEnd c (In.init ⟨e, [1]⟩) = (⟨⟨e.drop 1, []⟩, e.take 1, none⟩, .throw .corruption) := by
    unfold atEnd; rw [hpeek]
  have hflush : flushBuf (In.init ⟨e, [1]⟩) n = (In.init ⟨e, [1]⟩, .ok []) := by
    simp [flushBuf, In.init]
  have hloop : read c (In.init ⟨e, [1]⟩) n = (⟨⟨e.drop 1, []⟩, e.take 1, none⟩, .throw .corruption) := by
    unfold read
    simp only [readLoop, List.length_nil, Nat.sub_zero, hflush, List.append_nil, hend]
    rw [if_neg (by omega)]
  simp only [call, hloop]

example : (run (sumHash2 4) (In.init ⟨[1, 2, 4, 77, 3, 4, 77], [1]⟩) [.read 3]) = [.exception .corruption] ∧
    (run (sumHash2 4) (In.init ⟨[1, 2, 4, 77, 3, 4, 77], []⟩) [.read 3]) = [.data [1, 2, 3]] := by decide

end Verif.HashStream
