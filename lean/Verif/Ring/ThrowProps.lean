import Verif.Ring.ThrowLemmas

/-!
# Properties of `awl::ring` with exceptions

The hypotheses `throwRun husk ⟨cap, [], 0, []⟩ prog = some (ts, d)` and `runT husk ⟨make cap, 0, []⟩ prog = .ok (ts, w)` describe the rings that a program
can reach in which calls have thrown: `d` is what it expects, `w` what it has.
-/

namespace Verif.Ring

variable {α : Type}

theorem reach {husk : α → α} {cap : Nat} (hcap : 0 < cap) {prog : List (Op α × Nat)} {ts : List Bool} {d : Deque α} (h : throwRun husk ⟨cap, [], 0, []⟩ prog = some (ts, d)) :
    ∃ w, runT husk ⟨make cap, 0, []⟩ prog = .ok (ts, w) ∧ w.ring.cap = d.cap ∧ Rep w.ring d.elems ∧ w.lostBlocks = d.lostBlocks ∧ w.lostElems = d.lostElems :=
  (rep_make (α := α) cap hcap).runT prog 0 [] h

/-- **C147**, what holds: a program whose calls throw wherever they like runs without undefined behaviour and shows what `throwRun` says.  A `reserve` that
cannot allocate changes nothing; one whose element throws leaves the ring with its capacity and its size, the elements that have been moved are
moved-from; the ring can be destroyed.  Missing: the pushes whose constructor throws (`c147_push_violated`), and the new buffer of the `reserve` is lost with the
elements in it (`lostBlocks`, `lostElems`; `c147_reserve_violated`). -/
theorem c147_exceptions_partial (husk : α → α) (cap : Nat) (hcap : 0 < cap) (prog : List (Op α × Nat)) (ts : List Bool) (d : Deque α)
    (h : throwRun husk ⟨cap, [], 0, []⟩ prog = some (ts, d)) :
    ∃ w, runT husk ⟨make cap, 0, []⟩ prog = .ok (ts, w) ∧ Shows w.ring d.cap d.elems ∧ w.lostBlocks = d.lostBlocks ∧ w.lostElems = d.lostElems ∧
      ∃ r', w.ring.free = .ok r' ∧ r'.buf = none := by
  obtain ⟨w, e, c, hr, a, b⟩ := reach hcap h
  exact ⟨w, e, c ▸ hr.shows, a, b, hr.free⟩

/-- A ring of strings that are moved; the second `reserve` throws at its second element, the third one cannot allocate. -/
example : throwRun (fun _ => "") ⟨2, ([] : List String), 0, []⟩
    [(.pushBack "a", 1), (.pushBack "b", 1), (.pushBack "c", 1), (.reserve 3, 9), (.pushFront "x", 1), (.reserve 2, 2), (.reserve 4, 0), (.popFront, 0)]
    = some ([false, false, false, false, false, true, true, false], ⟨3, ["", "c"], 1, ["b"]⟩) := by decide

theorem movedAway_id (start i : Nat) (l : List α) : movedAway id start i l = l := by
  unfold movedAway
  apply List.ext_getElem?
  intro j
  simp only [List.getElem?_mapIdx, id, ite_self]
  cases l[j]? <;> rfl

theorem returned_dequeRun (prog : List (Op α × Nat)) : ∀ (d0 : Deque α) {ts : List Bool} {d : Deque α}, throwRun id d0 prog = some (ts, d) →
    dequeRun (d0.cap, d0.elems) (returned prog ts) = some (d.cap, d.elems) := by
  induction prog with
  | nil =>
    intro d0 ts d h
    simp only [throwRun, Option.some.injEq, Prod.mk.injEq] at h
    obtain ⟨rfl, rfl⟩ := h
    rfl
  | cons c prog ih =>
    intro d0 ts d h
    obtain ⟨op, k⟩ := c
    simp only [throwRun, Option.bind_eq_some_iff, Option.map_eq_some_iff] at h
    obtain ⟨⟨t, d1⟩, h1, ⟨ts', d2⟩, h2, h3⟩ := h
    simp only [Prod.mk.injEq] at h3
    obtain ⟨rfl, rfl⟩ := h3
    have := ih d1 h2
    cases op with
    | reserve n =>
      simp only [throwStep] at h1
      split at h1
      · simp at h1
      · split at h1
        · simp only [Option.some.injEq, Prod.mk.injEq] at h1
          obtain ⟨rfl, rfl⟩ := h1
          simpa [returned] using this
        · split at h1
          · simp only [Option.some.injEq, Prod.mk.injEq] at h1
            obtain ⟨rfl, rfl⟩ := h1
            simpa [returned, movedAway_id] using this
          · simp only [Option.some.injEq, Prod.mk.injEq] at h1
            obtain ⟨rfl, rfl⟩ := h1
            simp [returned, dequeRun, dequeStep, *]
    | pushBack x | pushFront x =>
      simp only [throwStep] at h1
      split at h1
      · simp at h1
      · simp only [Option.map_eq_some_iff] at h1
        obtain ⟨⟨c', l'⟩, h4, h5⟩ := h1
        simp only [Prod.mk.injEq] at h5
        obtain ⟨rfl, rfl⟩ := h5
        simp only [returned, Bool.false_eq_true, if_false, dequeRun, h4, Option.bind_some]
        exact this
    | popBack | popFront | clear =>
      simp only [throwStep, Option.map_eq_some_iff] at h1
      obtain ⟨⟨c', l'⟩, h4, h5⟩ := h1
      simp only [Prod.mk.injEq] at h5
      obtain ⟨rfl, rfl⟩ := h5
      simp only [returned, Bool.false_eq_true, if_false, dequeRun, h4, Option.bind_some]
      exact this

/-- **C147**, elements that are copied (`husk` is the identity): the ring shows what it would show if the calls that have thrown had not been made.  Missing: as in
`c147_exceptions_partial`. -/
theorem c147_as_if_not_called_partial (cap : Nat) (hcap : 0 < cap) (prog : List (Op α × Nat)) (ts : List Bool) (d : Deque α)
    (h : throwRun id ⟨cap, [], 0, []⟩ prog = some (ts, d)) :
    ∃ w c l, runT id ⟨make cap, 0, []⟩ prog = .ok (ts, w) ∧ dequeRun (cap, []) (returned prog ts) = some (c, l) ∧ Shows w.ring c l := by
  obtain ⟨w, e, hs, -⟩ := c147_exceptions_partial id cap hcap prog ts d h
  exact ⟨w, _, _, e, returned_dequeRun prog _ h, hs⟩

example : throwRun id ⟨2, ([] : List Nat), 0, []⟩ [(.pushBack 1, 1), (.pushBack 2, 1), (.reserve 1, 1), (.pushBack 3, 1), (.reserve 8, 2)]
    = some ([false, false, true, false, true], ⟨2, [2, 3], 2, [2]⟩) := by decide

theorem RepO.deref_ub {r : Ring α} {l : List (Option α)} (h : RepO r l) {i : Nat} (hi : l[i]? = some none) : r.deref (r.address i) = .ub := by
  obtain ⟨s, hb, hc, hd, hs, hl, hrep⟩ := h
  have hi' : i < l.length := by
    by_cases hlt : i < l.length
    · exact hlt
    · rw [List.getElem?_eq_none (by omega)] at hi; simp at hi
  have hx := hrep i (by omega)
  rw [hi] at hx
  simp [Ring.deref, hb, address_lt hd (show i ≤ r.cap by omega), hx]

/-- **C147** is false for the code: on every ring that a program can reach, a push whose constructor throws leaves a ring which counts an element
that does not exist.  To read it is undefined behaviour, and so are `clear` and the destructor: the program that catches the exception cannot even destroy the ring. -/
theorem c147_push_violated (husk : α → α) (cap : Nat) (hcap : 0 < cap) (prog : List (Op α × Nat)) (ts : List Bool) (d : Deque α)
    (h : throwRun husk ⟨cap, [], 0, []⟩ prog = some (ts, d)) (w : W α) (hw : runT husk ⟨make cap, 0, []⟩ prog = .ok (ts, w)) (x : α) :
    (∃ r', w.ring.pushBackT x 0 = .ok (true, r') ∧ r'.size = min (d.elems.length + 1) d.cap ∧ r'.back = .ub ∧ r'.clear = .ub ∧ r'.free = .ub) ∧
    (∃ r', w.ring.pushFrontT x 0 = .ok (true, r') ∧ r'.size = min (d.elems.length + 1) d.cap ∧ r'.front = .ub ∧ r'.clear = .ub ∧ r'.free = .ub) := by
  obtain ⟨w', e, c, hr, -, -⟩ := reach hcap h
  rw [hw] at e
  obtain rfl : w = w' := by simpa using e
  obtain ⟨-, -, hpos, -, -, hle, -⟩ := id hr
  constructor
  · obtain ⟨r', p, e, hc, hn⟩ := hr.allocateNext
    obtain ⟨hf, hcl⟩ := hn.free_ub (by simp)
    have hsz : r'.size = min (d.elems.length + 1) d.cap := by
      obtain ⟨-, -, -, -, hs, -⟩ := id hn
      rw [hs]; rw [c] at hle hpos ⊢
      by_cases hlt : d.elems.length < d.cap <;> simp [hlt] <;> omega
    refine ⟨r', by simp [Ring.pushBackT, e], hsz, ?_, hcl, hf⟩
    obtain ⟨-, -, -, -, hs, -⟩ := id hn
    have hne : r'.size ≠ 0 := by rw [hs]; simp
    simp only [Ring.back, Ring.last, hne, if_false]
    apply hn.deref_ub
    rw [hs, List.getElem?_append_right (by simp)]
    simp
  · obtain ⟨r', p, e, hc, hn⟩ := hr.allocatePrev
    obtain ⟨hf, hcl⟩ := hn.free_ub (by simp)
    have hsz : r'.size = min (d.elems.length + 1) d.cap := by
      obtain ⟨-, -, -, -, hs, -⟩ := id hn
      rw [hs]; rw [c] at hle hpos ⊢
      by_cases hlt : d.elems.length < d.cap <;> simp [hlt] <;> omega
    refine ⟨r', by simp [Ring.pushFrontT, e], hsz, ?_, hcl, hf⟩
    have := hn.deref_ub (i := 0) (by simp)
    obtain ⟨-, -, hc0, hd0, -, -⟩ := id hn
    have ha0 : r'.address 0 = r'.data := by unfold Ring.address; dsimp only; split <;> omega
    rw [ha0] at this
    exact this

/-- A full ring of two, reached with a `reserve` that has thrown. -/
example : throwRun id ⟨2, ([] : List Nat), 0, []⟩ [(.pushBack 1, 1), (.reserve 1, 1), (.pushBack 2, 1)] = some ([false, true, false], ⟨2, [1, 2], 1, []⟩) := by decide

/-- **C147** is false for the code: on every ring that a program can reach, a `reserve` whose element throws loses the new buffer, and the elements in it will never be
destroyed; if the elements are moved, they have left the ring. -/
theorem c147_reserve_violated (husk : α → α) (cap : Nat) (hcap : 0 < cap) (prog : List (Op α × Nat)) (ts : List Bool) (d : Deque α)
    (h : throwRun husk ⟨cap, [], 0, []⟩ prog = some (ts, d)) (w : W α) (hw : runT husk ⟨make cap, 0, []⟩ prog = .ok (ts, w)) (n i : Nat) (hi : i < min n d.elems.length) :
    ∃ w', Ring.reserveT husk w n (i + 1) = .ok (true, w') ∧ Shows w'.ring d.cap (movedAway husk (d.elems.length - n) i d.elems) ∧
      w'.lostBlocks = w.lostBlocks + 1 ∧ w'.lostElems = w.lostElems ++ (d.elems.drop (d.elems.length - n)).take i := by
  obtain ⟨w', e, c, hr, a, b⟩ := reach hcap h
  rw [hw] at e
  obtain rfl : w = w' := by simpa using e
  obtain ⟨r, lb, le⟩ := w
  simp only at c hr a b
  obtain ⟨w', e', c', hr', a', b'⟩ := hr.reserveT (husk := husk) (n := n) (by omega) (i + 1) lb le (t := true)
    (d := ⟨r.cap, movedAway husk (d.elems.length - min n d.elems.length) i d.elems, lb + 1,
        le ++ (d.elems.drop (d.elems.length - min n d.elems.length)).take i⟩) (by
      simp only [throwStep, Nat.add_sub_cancel, hi, if_true]
      rw [if_neg (by omega), if_neg (by omega)])
  have hm : d.elems.length - min n d.elems.length = d.elems.length - n := by omega
  simp only [hm] at hr' b'
  exact ⟨w', e', by rw [← c, ← (show w'.ring.cap = r.cap from c')]; exact hr'.shows, a', b'⟩

/-- Strings that are moved: `"b"` is not in the ring any more, and nobody will destroy it. -/
example : ∃ w w', runT (fun _ => "") ⟨make 3, 0, []⟩ [(.pushBack "a", 1), (.pushBack "b", 1), (.pushBack "c", 1)] = .ok ([false, false, false], w) ∧
    Ring.reserveT (fun _ => "") w 2 2 = .ok (true, w') ∧ w'.lostBlocks = 1 ∧ w'.lostElems = ["b"] ∧ w'.ring.elems = .ok ["a", "", "c"] := by
  refine ⟨_, _, rfl, rfl, ?_, ?_, ?_⟩ <;> decide

/-- **C147**, the copy constructor, for every ring that a program can reach: without memory it loses nothing; if the copy of element `i` throws, the buffer is lost and the
`i` copies before it will never be destroyed (the full statement would be that nothing is lost); otherwise the copy shows what the source shows. -/
theorem c147_copy_constructor_partial (husk : α → α) (cap : Nat) (hcap : 0 < cap) (prog : List (Op α × Nat)) (ts : List Bool) (d : Deque α)
    (h : throwRun husk ⟨cap, [], 0, []⟩ prog = some (ts, d)) (w : W α) (hw : runT husk ⟨make cap, 0, []⟩ prog = .ok (ts, w)) :
    w.ring.copyT 0 = .ok (none, 0, []) ∧ (∀ i, i < d.elems.length → w.ring.copyT (i + 1) = .ok (none, 1, d.elems.take i)) ∧
    (∀ k, d.elems.length < k → ∃ q, w.ring.copyT k = .ok (some q, 0, []) ∧ Shows q d.cap d.elems) := by
  obtain ⟨w', e, c, hr, -, -⟩ := reach hcap h
  rw [hw] at e
  obtain rfl : w = w' := by simpa using e
  have hel := hr.elems
  obtain ⟨-, -, hpos, -, -, hle, -⟩ := id hr
  have hm := rep_make (α := α) w.ring.cap hpos
  refine ⟨by simp [Ring.copyT, hel], fun i hi => ?_, fun k hk => ?_⟩
  · obtain ⟨r', e', c', hn⟩ := (hm.pushAllT (xs := d.elems) (by simpa [make] using hle) i).2 hi
    have hd0 : r'.data = 0 := pushAllT_data (by simpa [make] using hle) _ e'
    obtain ⟨s, hs, hlive⟩ := RepO.live (l := d.elems.take i) (by simpa only [List.nil_append] using hn) hd0
    simp [Ring.copyT, hel, e', hs, hlive]
  · obtain ⟨r', e', c', hn⟩ := (hm.pushAllT (xs := d.elems) (by simpa [make] using hle) (k - 1)).1 (by omega)
    have : r'.cap = d.cap := by rw [c', ← c]; rfl
    refine ⟨r', ?_, by rw [← this]; exact Rep.shows (by simpa using hn)⟩
    have hk0 : k ≠ 0 := by omega
    simp [Ring.copyT, hel, hk0, e']

/-- **C147** is false for the code: a copy constructor that throws loses memory. -/
theorem c147_copy_constructor_violated : ∃ r : Ring Nat, run (make 3) [.pushBack 1, .pushBack 2, .pushBack 3, .pushBack 4] = .ok r ∧ r.copyT 3 = .ok (none, 1, [2, 3]) := by
  exact ⟨_, rfl, rfl⟩

/-- **C147**, copy assignment between two rings that programs can reach.  Without memory the target has lost its elements, and can be destroyed; otherwise it shows what the
source shows.  If the copy of an element throws, the target cannot be destroyed any more, whatever it has held before.  Missing: the target keeps its elements if the assignment throws. -/
theorem c147_copy_assignment_partial (husk : α → α) (cap : Nat) (hcap : 0 < cap) (prog : List (Op α × Nat)) (ts : List Bool) (d : Deque α)
    (h : throwRun husk ⟨cap, [], 0, []⟩ prog = some (ts, d)) (w : W α) (hw : runT husk ⟨make cap, 0, []⟩ prog = .ok (ts, w))
    (cap' : Nat) (hcap' : 0 < cap') (prog' : List (Op α × Nat)) (ts' : List Bool) (d' : Deque α)
    (h' : throwRun husk ⟨cap', [], 0, []⟩ prog' = some (ts', d')) (w' : W α) (hw' : runT husk ⟨make cap', 0, []⟩ prog' = .ok (ts', w')) :
    (∃ t, w.ring.copyAssignT w'.ring 0 = .ok (true, t) ∧ t.buf = none ∧ t.size = 0 ∧ t.free = .ok t) ∧
    (∀ i, i < d'.elems.length → ∃ t, w.ring.copyAssignT w'.ring (i + 1) = .ok (true, t) ∧ t.size = i + 1 ∧ t.back = .ub ∧ t.clear = .ub ∧ t.free = .ub) ∧
    (∀ k, d'.elems.length < k → ∃ t, w.ring.copyAssignT w'.ring k = .ok (false, t) ∧ Shows t d'.cap d'.elems) := by
  obtain ⟨x, e, c, hr, -, -⟩ := reach hcap h
  rw [hw] at e
  obtain rfl : w = x := by simpa using e
  obtain ⟨x, e', c', hr', -, -⟩ := reach hcap' h'
  rw [hw'] at e'
  obtain rfl : w' = x := by simpa using e'
  have hel := hr'.elems
  obtain ⟨old, hold, holdb⟩ := hr.free
  have holds : old.size = 0 := by
    obtain ⟨r1, h1, -, hr1⟩ := hr.clear
    obtain ⟨s1, hb1, -⟩ := id hr1
    obtain ⟨s, hb, -⟩ := id hr
    have hs1 : r1.size = 0 := hr1.size_eq
    simp only [Ring.free, hb, h1, Res.ok_bind, Ring.dealloc, hb1] at hold
    split at hold
    · simp only [Res.ok.injEq] at hold
      rw [← hold]; exact hs1
    · simp at hold
  obtain ⟨-, -, hpos, -, -, hle, -⟩ := id hr'
  have hm := rep_make (α := α) w'.ring.cap hpos
  refine ⟨⟨{ old with cap := w'.ring.cap }, by simp [Ring.copyAssignT, hold, hel], holdb, holds, by simp [Ring.free, holdb]⟩, fun i hi => ?_, fun k hk => ?_⟩
  · obtain ⟨r', e', c', hn⟩ := (hm.pushAllT (xs := d'.elems) (by simpa [make] using hle) i).2 hi
    obtain ⟨hf, hcl⟩ := hn.free_ub (by simp)
    obtain ⟨-, -, -, -, hs, -⟩ := id hn
    have hsz : r'.size = i + 1 := by rw [hs]; simp; omega
    refine ⟨r', by simp [Ring.copyAssignT, hold, hel, e'], hsz, ?_, hcl, hf⟩
    simp only [Ring.back, Ring.last, hsz, Nat.add_one_ne_zero, if_false, Nat.add_sub_cancel]
    apply hn.deref_ub
    rw [List.getElem?_append_right (by simp; omega)]
    have : i - (List.map some ([] ++ d'.elems.take i)).length = 0 := by simp; omega
    rw [this]; rfl
  · obtain ⟨r', e', c'', hn⟩ := (hm.pushAllT (xs := d'.elems) (by simpa [make] using hle) (k - 1)).1 (by omega)
    have : r'.cap = d'.cap := by rw [c'', ← c']; rfl
    refine ⟨r', ?_, by rw [← this]; exact Rep.shows (by simpa using hn)⟩
    have hk0 : k ≠ 0 := by omega
    simp [Ring.copyAssignT, hold, hel, hk0, e']

example : throwRun id ⟨2, ([] : List Nat), 0, []⟩ [(.pushBack 1, 1), (.pushBack 2, 1)] = some ([false, false], ⟨2, [1, 2], 0, []⟩) ∧
    throwRun id ⟨3, ([] : List Nat), 0, []⟩ [(.pushFront 7, 1), (.pushFront 8, 1), (.reserve 9, 2)] = some ([false, false, true], ⟨3, [8, 7], 1, [8]⟩) := by decide

end Verif.Ring
