import Verif.FixedMem.Lemmas

/-!
# C161: a stream in a memory of a fixed size keeps what is written
-/

namespace Verif.FixedMem

/-- **C161**, the part that holds.  A program of writing, reading and `Reset` that keeps to the size, with numbers at
multiples of their length, gives exactly what the memory of the specification gives, with and without assertions.
Missing: programs that do not keep to the size or have numbers anywhere, see the violations. -/
theorem c161_memory_partial (dbg : Bool) (addr size : Nat) (cs : List Cmd) (h : Keeps addr size 0 cs) :
    ∃ m, run dbg (create addr size) cs = .ok (m, (Abs.fresh.run size cs).2) ∧
      m.bytes = (List.range size).map (Abs.fresh.run size cs).1.at' ∧ m.pos = (Abs.fresh.run size cs).1.pos ∧
      (atEnd m = true ↔ (Abs.fresh.run size cs).1.pos = size) := by
  suffices H : ∀ (cs : List Cmd) (m : Mem) (a : Abs), Rel addr size m a → a.pos ≤ size → Keeps addr size a.pos cs →
      ∃ m', run dbg m cs = .ok (m', (a.run size cs).2) ∧ Rel addr size m' (a.run size cs).1 by
    obtain ⟨m, h1, h2⟩ := H cs _ _ (rel_fresh addr size) (Nat.zero_le _) h
    exact ⟨m, h1, h2.bytes_eq, h2.pos_eq, by simp [atEnd, h2.bytes_eq, h2.pos_eq]⟩
  intro cs
  induction cs with
  | nil => intro m a hr _ _; exact ⟨m, rfl, hr⟩
  | cons c cs ih =>
    intro m a hr hp hk
    have hl := rel_length hr
    have hpos := hr.pos_eq
    have haddr := hr.addr_eq
    cases c with
    | write src bs =>
      obtain ⟨h1, h2⟩ := hk
      have h3 := rel_moved hr bs h1
      obtain ⟨m', h4, h5⟩ := ih _ _ h3 h1 h2
      refine ⟨m', ?_, h5⟩
      have h6 : ¬ (dbg = true ∧ ¬ m.pos + bs.length ≤ m.bytes.length) := by
        rintro ⟨_, h⟩; apply h; omega
      simp only [run, step, write, h6, if_false, stdCopy_ok bs m.bytes m.pos (by omega), Out.bind, h4]
      rfl
    | putNumber bs =>
      obtain ⟨h1, hal, h2⟩ := hk
      have h3 := rel_moved hr bs h1
      obtain ⟨m', h4, h5⟩ := ih _ _ h3 h1 h2
      refine ⟨m', ?_, h5⟩
      have h7 : (m.addr + m.pos) % bs.length = 0 := by
        rw [haddr, hpos]; exact Nat.mod_eq_zero_of_dvd hal
      have h8 : m.pos + bs.length ≤ m.bytes.length := by omega
      simp only [run, step, putNumber_ok dbg h8 h7, Out.bind, h4]
      rfl
    | read n =>
      have h1 : a.pos + min n (size - a.pos) ≤ size := by omega
      have h3 : Rel addr size (read m n).1 (a.read (min n (size - a.pos))).1 :=
        ⟨haddr, hr.bytes_eq, by simp [read, Abs.read, hl, hpos]⟩
      obtain ⟨m', h4, h5⟩ := ih _ _ h3 h1 hk
      refine ⟨m', ?_, h5⟩
      have h6 : (read m n).2 = (a.read (min n (size - a.pos))).2 := by
        have := rel_slice hr _ h1
        simp only [read, Abs.read]
        rw [← this, hl, hpos]
      simp only [run, step, Out.bind, h4, h6]
      rfl
    | getNumber n =>
      obtain ⟨h1, hal, h2⟩ := hk
      have h3 : Rel addr size ⟨m.addr, m.bytes, m.pos + n⟩ (a.read n).1 :=
        ⟨haddr, hr.bytes_eq, by simp [Abs.read, hpos]⟩
      obtain ⟨m', h4, h5⟩ := ih _ _ h3 h1 h2
      refine ⟨m', ?_, h5⟩
      have h6 : ¬ (dbg = true ∧ ¬ m.pos + n ≤ m.bytes.length) := by
        rintro ⟨_, h⟩; apply h; omega
      have h7 : (m.addr + m.pos) % n = 0 ∧ m.pos + n ≤ m.bytes.length := by
        refine ⟨?_, by omega⟩
        rw [haddr, hpos]; exact Nat.mod_eq_zero_of_dvd hal
      simp only [run, step, getNumber, h6, if_false, if_pos h7, Out.bind, h4, rel_slice hr n h1]
      rfl
    | reset =>
      have h3 : Rel addr size (reset m) ⟨a.at', 0⟩ := ⟨haddr, hr.bytes_eq, rfl⟩
      obtain ⟨m', h4, h5⟩ := ih _ _ h3 (Nat.zero_le _) hk
      refine ⟨m', ?_, h5⟩
      simp only [run, step, Out.bind, h4]
      rfl

/-- A program with everything: two bytes, a number of four bytes at the place 4, back, and reading. -/
example : Keeps 16 8 0 [.write 7 [1, 2, 3, 4], .putNumber [5, 6, 7, 8], .reset, .read 4, .getNumber 4, .reset, .read 100] ∧
    (Abs.fresh.run 8 [.write 7 [1, 2, 3, 4], .putNumber [5, 6, 7, 8], .reset, .read 4, .getNumber 4, .reset, .read 100]).2 =
      [[], [], [], [1, 2, 3, 4], [5, 6, 7, 8], [], [1, 2, 3, 4, 5, 6, 7, 8]] := by
  constructor
  · simp [Keeps]
  · decide

theorem content_cons (c : Nat × List UInt8) (ws : List (Nat × List UInt8)) : content (c :: ws) = c.2 ++ content ws := rfl

/-- **C161**, the part that holds.  The three streams leave the same bytes: what was written, then zeros; their length is
the number of the bytes, and the measuring streams tell it before. -/
theorem c161_same_bytes_partial (k : Kind) (dbg : Bool) (addr size : Nat) (ws : List (Nat × List UInt8))
    (hfit : (content ws).length ≤ size) (hsize : size < 2 ^ 64) (hal : k = .switched → Aligned addr 0 ws) :
    writeAll k dbg (create addr size) ws =
      .ok ⟨addr, content ws ++ List.replicate (size - (content ws).length) 0, (content ws).length⟩ ∧
    (measure 0 ws).toNat = (content ws).length := by
  constructor
  · suffices H : ∀ (ws : List (Nat × List UInt8)) (pre : List UInt8) (z : Nat), (content ws).length ≤ z →
        (k = .switched → Aligned addr pre.length ws) →
        writeAll k dbg ⟨addr, pre ++ List.replicate z 0, pre.length⟩ ws =
          .ok ⟨addr, pre ++ content ws ++ List.replicate (z - (content ws).length) 0, pre.length + (content ws).length⟩ by
      have := H ws [] size hfit hal
      simpa [create] using this
    intro ws
    induction ws with
    | nil => intro pre z _ _; simp [writeAll, content]
    | cons c ws ih =>
      intro pre z hz hal
      rw [content_cons, List.length_append] at hz
      have hroom : pre.length + c.2.length ≤ (pre ++ List.replicate z (0 : UInt8)).length := by simp; omega
      have hmoved : (pre ++ List.replicate z (0 : UInt8)).take pre.length ++ c.2 ++
          (pre ++ List.replicate z 0).drop (pre.length + c.2.length) =
          (pre ++ c.2) ++ List.replicate (z - c.2.length) 0 := by simp [List.drop_append]
      have hw : write k dbg ⟨addr, pre ++ List.replicate z 0, pre.length⟩ c.1 c.2 =
          .ok ⟨addr, (pre ++ c.2) ++ List.replicate (z - c.2.length) 0, pre.length + c.2.length⟩ := by
        have h6 : ¬ (dbg = true ∧ ¬ pre.length + c.2.length ≤ (pre ++ List.replicate z (0 : UInt8)).length) := by
          rintro ⟨_, h⟩; exact h hroom
        cases k with
        | trivial => simp only [write, h6, if_false, stdCopy_ok c.2 _ _ hroom, Out.bind, hmoved]
        | virt => simp only [write, h6, if_false, memmove_ok hroom, Out.bind, hmoved]
        | switched =>
          simp only [write]
          by_cases hc : c.2.length = 1 ∨ c.2.length = 2 ∨ c.2.length = 4 ∨ c.2.length = 8
          · have h7 : (addr + pre.length) % c.2.length = 0 ∧ c.1 % c.2.length = 0 := by
              rcases hc with h1 | h1
              · rw [h1]; omega
              · have := (hal rfl).1 h1
                exact ⟨Nat.mod_eq_zero_of_dvd this.1, Nat.mod_eq_zero_of_dvd this.2⟩
            rw [if_pos hc]
            simp only [plainCopy, if_pos h7, memmove_ok hroom, Out.bind, hmoved]
          · rw [if_neg hc]
            simp only [stdCopy_ok c.2 _ _ hroom, Out.bind, hmoved]
      have := ih (pre ++ c.2) (z - c.2.length) (by omega) (fun hk => by simpa using (hal hk).2)
      rw [List.length_append] at this
      simp only [writeAll, hw, Out.bind]
      rw [this, content_cons, List.length_append]
      simp only [List.append_assoc, Nat.sub_sub, Nat.add_assoc]
  · suffices H : ∀ (ws : List (Nat × List UInt8)) (p : UInt64), p.toNat + (content ws).length < 2 ^ 64 →
        (measure p ws).toNat = p.toNat + (content ws).length by
      have := H ws 0 (by simp; omega)
      simpa using this
    intro ws
    induction ws with
    | nil => intro p _; simp [measure, content]
    | cons c ws ih =>
      intro p hp
      rw [content_cons, List.length_append] at hp
      have h1 : (p + UInt64.ofNat c.2.length).toNat = p.toNat + c.2.length := by
        rw [UInt64.toNat_add, UInt64.toNat_ofNat']
        omega
      rw [measure, ih _ (by rw [h1]; omega), h1, content_cons, List.length_append]
      omega

example : (content [(3, [1]), (5, [2, 3, 4]), (8, [5, 6, 7, 8])]).length ≤ 10 ∧
    Aligned 16 0 [(3, [1]), (5, [2, 3, 4]), (8, [5, 6, 7, 8])] := by
  constructor
  · decide
  · simp [Aligned]

/-- **C161**, reading.  What was written piece by piece into a `TrivialMemoryStream` is read after `Reset` in pieces of
any other lengths: together the pieces are the memory, as far as they go. -/
theorem c161_read_back (dbg : Bool) (addr size : Nat) (ws : List (Nat × List UInt8)) (ns : List Nat)
    (hfit : (content ws).length ≤ size) (hsize : size < 2 ^ 64) :
    ∃ m m' out, writeAll .trivial dbg (create addr size) ws = .ok m ∧
      run dbg (reset m) (ns.map Cmd.read) = .ok (m', out) ∧
      out.flatten = (content ws ++ List.replicate (size - (content ws).length) 0).take ns.sum ∧
      (atEnd m' = true ↔ size ≤ ns.sum) := by
  have hw := (c161_same_bytes_partial .trivial dbg addr size ws hfit hsize (by simp)).1
  suffices H : ∀ (ns : List Nat) (b : List UInt8) (p : Nat), p ≤ b.length →
      ∃ m' out, run dbg ⟨addr, b, p⟩ (ns.map Cmd.read) = .ok (m', out) ∧ out.flatten = (b.drop p).take ns.sum ∧
        (atEnd m' = true ↔ b.length ≤ p + ns.sum) by
    obtain ⟨m', out, h1, h2, h3⟩ := H ns (content ws ++ List.replicate (size - (content ws).length) 0) 0 (Nat.zero_le _)
    refine ⟨_, m', out, hw, h1, by simpa using h2, ?_⟩
    rw [h3]
    simp
    omega
  intro ns
  induction ns with
  | nil =>
    intro b p hp
    refine ⟨_, [], rfl, by simp, ?_⟩
    simp [atEnd]
    omega
  | cons n ns ih =>
    intro b p hp
    obtain ⟨m', out, h1, h2, h3⟩ := ih b (p + min n (b.length - p)) (by omega)
    refine ⟨m', (b.drop p).take (min n (b.length - p)) :: out, ?_, ?_, ?_⟩
    · simp only [List.map_cons, run, step, read, Out.bind, h1]
    · rw [List.flatten_cons, h2, List.sum_cons]
      have : (b.drop p).take (min n (b.length - p)) = (b.drop p).take n := by
        have hd : (b.drop p).length = b.length - p := List.length_drop
        rw [← hd, ← List.take_take, List.take_length] 
      rw [this]
      by_cases hn : n ≤ b.length - p
      · rw [Nat.min_eq_left hn, ← List.drop_drop, ← List.take_add]
      · have hl : (b.drop p).length ≤ n := by simp; omega
        rw [List.drop_eq_nil_of_le (by omega : b.length ≤ p + min n (b.length - p)), List.take_of_length_le hl,
          List.take_of_length_le (Nat.le_trans hl (Nat.le_add_right _ _)), List.take_nil, List.append_nil]
    · rw [h3, List.sum_cons]
      omega

/-- Without assertions every stream writes outside of its memory when there is too little room, and
`SwitchMemoryOutputStream` does so always; the others end the program when assertions are compiled in. -/
theorem c161_overrun_violated (k : Kind) (m : Mem) (src : Nat) (bs : List UInt8) (hne : bs ≠ [])
    (h : m.bytes.length < m.pos + bs.length) :
    write k false m src bs = .ub ∧ write .switched true m src bs = .ub ∧
    (k ≠ .switched → write k true m src bs = .abort) := by
  have h1 : ¬ m.pos + bs.length ≤ m.bytes.length := by omega
  have hs : ∀ dbg, write .switched dbg m src bs = .ub := by
    intro dbg
    simp only [write, plainCopy, memmove, h1, if_false, ite_self, stdCopy_ub bs _ _ h hne, Out.bind]
  refine ⟨?_, hs true, ?_⟩
  · cases k with
    | trivial => simp [write, stdCopy_ub bs _ _ h hne, Out.bind]
    | switched => exact hs false
    | virt => simp [write, memmove, h1, Out.bind]
  · intro hk
    cases k with
    | trivial => simp [write, h1]
    | switched => exact absurd rfl hk
    | virt => simp [write, h1]

example : (create 16 3).bytes.length < (create 16 3).pos + [1, 2, 3, (4 : UInt8)].length := by decide

/-- A byte and then a number of two, four or eight bytes: a store at an address that is not aligned, wherever the memory
is aligned, in the stream with numbers and in the one with the switch. -/
theorem c161_misaligned_violated (dbg : Bool) (addr size src : Nat) (b : UInt8) (bs : List UInt8)
    (hl : bs.length = 2 ∨ bs.length = 4 ∨ bs.length = 8) (ha : bs.length ∣ addr) (hs : bs.length < size) :
    run dbg (create addr size) [.putNumber [b], .putNumber bs] = .ub ∧
    writeAll .switched dbg (create addr size) [(src, [b]), (src, bs)] = .ub := by
  have h0 : 0 + 1 ≤ (List.replicate size (0 : UInt8)).length := by simp; omega
  have hmod : (addr + 1) % bs.length ≠ 0 := by
    obtain ⟨q, hq⟩ := ha
    subst hq
    rcases hl with h | h | h <;> rw [h] <;> omega
  have hroom : ∀ x : List UInt8, x.length = size → ¬ (dbg = true ∧ ¬ 1 + bs.length ≤ x.length) := by
    rintro x hx ⟨_, h⟩; apply h; omega
  have hmoved : ((List.replicate size (0 : UInt8)).take 0 ++ [b] ++ (List.replicate size 0).drop (0 + 1)).length = size := by
    simp; omega
  constructor
  · have h1 := putNumber_ok dbg (m := create addr size) (bs := [b]) h0 (Nat.mod_one _)
    simp only [run, step, h1, Out.bind]
    simp only [putNumber, create, List.length_singleton, Nat.zero_add]
    rw [if_neg (hroom _ hmoved), if_neg hmod]
  · have hcond : bs.length = 1 ∨ bs.length = 2 ∨ bs.length = 4 ∨ bs.length = 8 := Or.inr hl
    simp only [writeAll, write, plainCopy, create, List.length_singleton, true_or, if_true, Nat.mod_one, and_self,
      memmove, h0, Out.bind, Nat.zero_add, if_pos hcond, hmod, false_and, if_false]

example : [1, 2, 3, (4 : UInt8)].length ∣ 16 := by decide

/-- The stream does not know how much was written: after `Reset` more can be read than was written, zeros or what an
earlier and longer writing left. -/
theorem c161_more_than_written_violated (dbg : Bool) (addr : Nat) :
    (∃ m, run dbg (create addr 4) [.write 0 [1], .reset, .read 4] = .ok (m, [[], [], [1, 0, 0, 0]])) ∧
    ∃ m, run dbg (create addr 4) [.write 0 [1, 2, 3], .reset, .write 0 [9], .reset, .read 3] =
      .ok (m, [[], [], [], [], [9, 2, 3]]) := by
  cases dbg <;> exact ⟨⟨_, rfl⟩, ⟨_, rfl⟩⟩

/-- A number is read from too few bytes: outside of the memory, instead of the end being reported. -/
theorem c161_truncated_violated (m : Mem) (n : Nat) (h : m.bytes.length < m.pos + n) :
    getNumber false m n = .ub ∧ getNumber true m n = .abort := by
  have h1 : ¬ m.pos + n ≤ m.bytes.length := by omega
  simp [getNumber, h1]

/-- A stream (`TrivialMemoryStream`, `SwitchMemoryOutputStream`) can be copied, and then its memory is deleted twice. -/
theorem c161_copy_violated (heap : List Nat) (pBuf n : Nat) (hh : heap.Nodup) (hn : 2 ≤ n) :
    destroyAll heap (copies pBuf n) = .ub ∧ (pBuf ∈ heap → destroyAll heap (copies pBuf 1) = .ok (heap.erase pBuf)) := by
  obtain ⟨k, rfl⟩ : ∃ k, n = k + 2 := ⟨n - 2, by omega⟩
  constructor
  · simp only [copies, List.replicate_succ, destroyAll, destroy]
    by_cases h : pBuf ∈ heap
    · have h2 : pBuf ∉ heap.erase pBuf := fun hc => by
        rw [hh.mem_erase_iff] at hc; exact hc.1 rfl
      simp [h, h2, Out.bind]
    · simp [h, Out.bind]
  · intro h
    simp [copies, destroyAll, destroy, h, Out.bind]

example : [16, 48].Nodup ∧ 16 ∈ [16, 48] := by decide

end Verif.FixedMem
