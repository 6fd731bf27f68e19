import Verif.Ring.ThrowSpec
import Verif.Ring.Lemmas

/-! # Lemmas on rings with exceptions -/

namespace Verif.Ring

variable {α : Type}

/-- The ring counts the positions of `l`; a position is raw memory where `l` has `none`. -/
def RepO (r : Ring α) (l : List (Option α)) : Prop :=
  ∃ s, r.buf = some s ∧ 0 < r.cap ∧ r.data < r.cap ∧ r.size = l.length ∧ l.length ≤ r.cap ∧
    ∀ i, i < r.cap → s (r.address i) = (l[i]?).join

theorem RepO.popFront {r : Ring α} {x : α} {l : List (Option α)} (h : RepO r (some x :: l)) : ∃ r', r.popFront = .ok r' ∧ RepO r' l := by
  obtain ⟨s, hb, hc, hd, hs, hl, hrep⟩ := h
  simp only [List.length_cons] at hs hl
  have ha0 : r.address 0 = r.data := by unfold Ring.address; dsimp only; split <;> omega
  have hx0 : s r.data = some x := by
    rw [← ha0, hrep 0 hc]; simp
  refine ⟨{ r with data := r.next r.data, size := r.size - 1, buf := some (setSlot s r.data none) }, ?_, ?_⟩
  · simp [Ring.popFront, Ring.destroy, hb, hd, hx0, Ring.next]
  · refine ⟨_, rfl, hc, ?_, by simp [hs], by simp; omega, ?_⟩
    · simp only [Ring.next]; split <;> omega
    · intro i hi
      simp only at hi
      have hadr : ({ r with data := r.next r.data, size := r.size - 1, buf := some (setSlot s r.data none) } : Ring α).address i
          = if i + 1 = r.cap then r.data else r.address (i + 1) := by
        unfold Ring.address Ring.next; dsimp only; split <;> split <;> split <;> (try split) <;> omega
      rw [hadr]
      by_cases hl1 : i + 1 = r.cap
      · rw [if_pos hl1, List.getElem?_eq_none (by omega)]; simp [setSlot]
      · rw [if_neg hl1]
        have hne : r.address (i + 1) ≠ r.data := by
          unfold Ring.address; dsimp only; split <;> omega
        rw [setSlot, if_neg hne, hrep _ (by omega)]
        simp

theorem RepO.popFront_ub {r : Ring α} {l : List (Option α)} (h : RepO r (none :: l)) : r.popFront = .ub := by
  obtain ⟨s, hb, hc, hd, hs, hl, hrep⟩ := h
  have ha0 : r.address 0 = r.data := by unfold Ring.address; dsimp only; split <;> omega
  have hx0 : s r.data = none := by
    rw [← ha0, hrep 0 hc]; simp
  simp [Ring.popFront, Ring.destroy, hb, hd, hx0]

theorem RepO.popAll_ub {l : List (Option α)} : ∀ {r : Ring α}, RepO r l → none ∈ l → r.popAll l.length = .ub := by
  induction l with
  | nil => intro r _ h; cases h
  | cons o l ih =>
    intro r h hn
    cases o with
    | none => simp [Ring.popAll, h.popFront_ub]
    | some x =>
      obtain ⟨r', e, h'⟩ := h.popFront
      simp only [List.length_cons, Ring.popAll, e, Res.ok_bind]
      exact ih h' (by simpa using hn)

/-- A ring that counts an element which does not exist cannot be destroyed. -/
theorem RepO.free_ub {r : Ring α} {l : List (Option α)} (h : RepO r l) (hn : none ∈ l) : r.free = .ub ∧ r.clear = .ub := by
  have hp := h.popAll_ub hn
  obtain ⟨s, hb, hc, hd, hs, hl, hrep⟩ := h
  have hclear : r.clear = .ub := by simp [Ring.clear, hb, hs, hp]
  exact ⟨by simp [Ring.free, hb, hclear], hclear⟩

/-- `allocate_next()` alone. -/
theorem Rep.allocateNext {r : Ring α} {l : List α} (h : Rep r l) :
    ∃ r' p, r.allocateNext = .ok (r', p) ∧ r'.cap = r.cap ∧ RepO r' ((if l.length < r.cap then l else l.drop 1).map some ++ [none]) := by
  obtain ⟨s, hb, hc, hd, hs, hl, hrep⟩ := h
  by_cases hf : l.length < r.cap
  · have hnf : r.full = false := by simp [Ring.full]; omega
    refine ⟨{ r with size := r.size + 1 }, r.address r.size, by simp [Ring.allocateNext, hnf], rfl, s, hb, hc, hd, by simp [hs, hf], by simp [hf]; omega, ?_⟩
    intro i hi
    rw [if_pos hf]
    show s (r.address i) = _
    rw [hrep i hi]
    by_cases hi' : i < l.length
    · rw [List.getElem?_append_left (by simpa using hi')]; simp [List.getElem?_eq_getElem hi']
    · rw [List.getElem?_append_right (by simpa using hi'), List.getElem?_eq_none (by omega)]
      cases hz : i - (l.map some).length with
      | zero => simp
      | succ n => simp
  · have hlc : l.length = r.cap := by omega
    have hfull : r.full = true := by simp [Ring.full]; omega
    have ha0 : r.address 0 = r.data := by unfold Ring.address; dsimp only; split <;> omega
    have hx0 : s r.data = some (l[0]'(by omega)) := by
      rw [← ha0, hrep 0 hc, List.getElem?_eq_getElem (by omega)]
    refine ⟨{ r with data := r.next r.data, buf := some (setSlot s r.data none) }, r.address r.size, ?_, rfl, _, rfl, hc, ?_, ?_, ?_, ?_⟩
    · simp [Ring.allocateNext, hfull, Ring.destroy, hb, hd, hx0, Ring.next]
    · simp only [Ring.next]; split <;> omega
    · simp [hf, hs]; omega
    · simp [hf]; omega
    · intro i hi
      simp only at hi
      rw [if_neg hf]
      have hadr : ({ r with data := r.next r.data, buf := some (setSlot s r.data none) } : Ring α).address i
          = if i + 1 = r.cap then r.data else r.address (i + 1) := by
        unfold Ring.address Ring.next; dsimp only; split <;> split <;> split <;> (try split) <;> omega
      rw [hadr]
      by_cases hl1 : i + 1 = r.cap
      · rw [if_pos hl1, List.getElem?_append_right (by simp; omega)]
        have : i - ((l.drop 1).map some).length = 0 := by simp; omega
        rw [this]
        simp [setSlot]
      · rw [if_neg hl1]
        have hne : r.address (i + 1) ≠ r.data := by
          unfold Ring.address; dsimp only; split <;> omega
        rw [setSlot, if_neg hne, hrep _ (by omega), List.getElem?_append_left (by simp; omega)]
        simp only [List.getElem?_map, List.getElem?_drop]
        rw [Nat.add_comm 1 i, List.getElem?_eq_getElem (by omega)]
        simp

/-- `allocate_prev()` alone. -/
theorem Rep.allocatePrev {r : Ring α} {l : List α} (h : Rep r l) :
    ∃ r' p, r.allocatePrev = .ok (r', p) ∧ r'.cap = r.cap ∧ RepO r' (none :: (if l.length < r.cap then l else l.dropLast).map some) := by
  obtain ⟨s, hb, hc, hd, hs, hl, hrep⟩ := h
  have hpd : r.prev r.data < r.cap := by unfold Ring.prev; split <;> omega
  have hpa : r.prev r.data = r.address (r.cap - 1) := by unfold Ring.prev Ring.address; dsimp only; split <;> split <;> omega
  by_cases hf : l.length < r.cap
  · have hnf : r.full = false := by simp [Ring.full]; omega
    refine ⟨{ r with data := r.prev r.data, size := r.size + 1 }, r.prev r.data, by simp [Ring.allocatePrev, hnf], rfl, s, hb, hc, hpd, by simp [hs, hf], by simp [hf]; omega, ?_⟩
    intro i hi
    rw [if_pos hf]
    simp only at hi
    have hadr : ({ r with data := r.prev r.data, size := r.size + 1 } : Ring α).address i = if i = 0 then r.address (r.cap - 1) else r.address (i - 1) := by
      unfold Ring.address Ring.prev; dsimp only; split <;> split <;> split <;> (try split) <;> omega
    rw [hadr]
    cases i with
    | zero => rw [if_pos rfl, hrep _ (by omega), List.getElem?_eq_none (by omega)]; simp
    | succ i =>
      rw [if_neg (by omega), Nat.add_sub_cancel, hrep _ (by omega)]
      simp only [List.getElem?_cons_succ, List.getElem?_map]
      cases l[i]? <;> rfl
  · have hlc : l.length = r.cap := by omega
    have hfull : r.full = true := by simp [Ring.full]; omega
    have hx0 : s (r.prev r.data) = some (l[r.cap - 1]'(by omega)) := by
      rw [hpa, hrep _ (by omega), List.getElem?_eq_getElem (by omega)]
    refine ⟨{ r with data := r.prev r.data, buf := some (setSlot s (r.prev r.data) none) }, r.prev r.data, ?_, rfl, _, rfl, hc, hpd, ?_, ?_, ?_⟩
    · simp [Ring.allocatePrev, hfull, Ring.destroy, hb, hpd, hx0]
    · simp [hf, hs]; omega
    · simp [hf]; omega
    · intro i hi
      simp only at hi
      rw [if_neg hf]
      have hadr : ({ r with data := r.prev r.data, buf := some (setSlot s (r.prev r.data) none) } : Ring α).address i = if i = 0 then r.address (r.cap - 1) else r.address (i - 1) := by
        unfold Ring.address Ring.prev; dsimp only; split <;> split <;> split <;> (try split) <;> omega
      rw [hadr]
      cases i with
      | zero => rw [if_pos rfl, ← hpa]; simp [setSlot]
      | succ i =>
        rw [if_neg (by omega), Nat.add_sub_cancel]
        have hne : r.address i ≠ r.prev r.data := by
          rw [hpa]; unfold Ring.address; dsimp only; split <;> split <;> omega
        rw [setSlot, if_neg hne, hrep _ (by omega)]
        simp only [List.getElem?_cons_succ, List.getElem?_map, List.getElem?_dropLast]
        rw [if_pos (by omega), List.getElem?_eq_getElem (by omega)]
        simp

theorem pushBackT_succ (r : Ring α) (x : α) {k : Nat} (hk : k ≠ 0) : r.pushBackT x k = (do let r' ← r.pushBack x; .ok (false, r')) := by
  simp only [Ring.pushBackT, Ring.pushBack, hk, if_false]
  cases r.allocateNext <;> rfl

theorem pushFrontT_succ (r : Ring α) (x : α) {k : Nat} (hk : k ≠ 0) : r.pushFrontT x k = (do let r' ← r.pushFront x; .ok (false, r')) := by
  simp only [Ring.pushFrontT, Ring.pushFront, hk, if_false]
  cases r.allocatePrev <;> rfl

/-! ## `reserve` -/

theorem movedAway_zero (husk : α → α) (start : Nat) (l : List α) : movedAway husk start 0 l = l := by
  unfold movedAway
  apply List.ext_getElem?
  intro i
  simp only [List.getElem?_mapIdx, Nat.add_zero]
  cases l[i]? with
  | none => rfl
  | some x => simp; intro h1 h2; omega

theorem movedAway_length (husk : α → α) (start i : Nat) (l : List α) : (movedAway husk start i l).length = l.length := by simp [movedAway]

/-- One element is moved away. -/
theorem Rep.movedFrom {husk : α → α} {r : Ring α} {l : List α} {start i : Nat} (h : Rep r (movedAway husk start i l)) (hi : start + i < l.length) :
    ∃ r', r.movedFrom husk (r.address (start + i)) = .ok r' ∧ r'.cap = r.cap ∧ r'.size = r.size ∧ Rep r' (movedAway husk start (i + 1) l) := by
  obtain ⟨s, hb, hc, hd, hs, hl, hrep⟩ := h
  rw [movedAway_length] at hs hl
  have ha : r.address (start + i) < r.cap := address_lt hd (by omega)
  have hx : s (r.address (start + i)) = some l[start + i] := by
    rw [hrep _ (by omega)]
    simp [movedAway, List.getElem?_mapIdx, List.getElem?_eq_getElem hi]
  refine ⟨{ r with buf := some (setSlot s (r.address (start + i)) (some (husk l[start + i]))) }, by simp [Ring.movedFrom, hb, ha, hx], rfl, rfl, _, rfl, hc, hd,
    by rw [movedAway_length]; exact hs, by rw [movedAway_length]; exact hl, ?_⟩
  intro j hj
  show setSlot s (r.address (start + i)) (some (husk l[start + i])) (r.address j) = _
  by_cases hji : j = start + i
  · subst hji
    simp [setSlot, movedAway, List.getElem?_mapIdx, List.getElem?_eq_getElem hi]
  · have hne : r.address j ≠ r.address (start + i) := by
      have : j < r.cap := hj
      unfold Ring.address; dsimp only; split <;> split <;> omega
    rw [setSlot, if_neg hne, hrep j hj]
    simp only [movedAway, List.getElem?_mapIdx]
    cases l[j]? with
    | none => rfl
    | some x =>
      simp only [Option.map_some, Option.some.injEq]
      have : (start ≤ j ∧ j < start + (i + 1)) ↔ (start ≤ j ∧ j < start + i) := by omega
      simp only [this]

theorem Rep.getMoved {husk : α → α} {r : Ring α} {l : List α} {start i : Nat} (h : Rep r (movedAway husk start i l)) (hi : start + i < l.length) :
    r.get (start + i) = .ok l[start + i] := by
  rw [h.get (start + i) (by rw [movedAway_length]; exact hi)]
  simp [movedAway]

theorem Rep.moveLoopT {husk : α → α} {l : List α} {start : Nat} : ∀ (n : Nat) {r : Ring α} (i : Nat) (dst : Nat → Option α) (k : Nat), Rep r (movedAway husk start i l) → start + i + n = l.length →
    (∀ j, dst j = if j < i then l[start + j]? else none) →
    ∃ r' d, Ring.moveLoopT husk start n r i dst k = .ok (decide (k < n), r', d) ∧ r'.cap = r.cap ∧ Rep r' (movedAway husk start (i + min k n) l) ∧
      ∀ j, d j = if j < i + min k n then l[start + j]? else none := by
  intro n
  induction n with
  | zero =>
    intro r i dst k h hn hd
    exact ⟨r, dst, by simp [Ring.moveLoopT], rfl, by simpa using h, by simpa using hd⟩
  | succ n ih =>
    intro r i dst k h hn hd
    have hi : start + i < l.length := by omega
    have hg := h.getMoved hi
    cases k with
    | zero =>
      refine ⟨r, dst, ?_, rfl, by simpa using h, by simpa using hd⟩
      simp [Ring.moveLoopT, hg]
    | succ k =>
      obtain ⟨r1, e1, c1, -, h1⟩ := h.movedFrom hi
      obtain ⟨r2, d, e2, c2, h2, hd2⟩ := ih (i + 1) (setSlot dst i (some l[start + i])) k h1 (by omega) (by
        intro j
        by_cases hj : j = i
        · subst hj; simp [setSlot, List.getElem?_eq_getElem hi]
        · rw [setSlot, if_neg hj, hd]
          by_cases hlt : j < i
          · rw [if_pos hlt, if_pos (by omega)]
          · rw [if_neg hlt, if_neg (by omega)])
      have hmin : i + min (k + 1) (n + 1) = i + 1 + min k n := by omega
      refine ⟨r2, d, ?_, c2.trans c1, by rw [hmin]; exact h2, by rw [hmin]; exact hd2⟩
      simp [Ring.moveLoopT, hg, e1, e2]

theorem live_take {d : Nat → Option α} {l : List α} (hd : ∀ j, d j = l[j]?) (cap : Nat) : Ring.live d cap = l.take cap := by
  induction cap with
  | zero => simp [Ring.live]
  | succ n ih =>
    unfold Ring.live at ih ⊢
    rw [List.range_succ, List.filterMap_append, ih, List.take_add_one]
    simp only [List.filterMap_cons, List.filterMap_nil, hd]
    cases l[n]? <;> rfl

theorem live_eq {d : Nat → Option α} {l : List α} {cap : Nat} (hl : l.length ≤ cap) (hd : ∀ j, d j = l[j]?) : Ring.live d cap = l := by
  rw [live_take hd, List.take_of_length_le hl]

/-- `reserve` on a ring that holds `l`. -/
theorem Rep.reserveT {husk : α → α} {r : Ring α} {l : List α} (h : Rep r l) {n : Nat} (hn : n ≠ 0) (k lb : Nat) (le : List α) {t : Bool} {d : Deque α}
    (hs : throwStep husk ⟨r.cap, l, lb, le⟩ (.reserve n) k = some (t, d)) :
    ∃ w, Ring.reserveT husk ⟨r, lb, le⟩ n k = .ok (t, w) ∧ w.ring.cap = d.cap ∧ Rep w.ring d.elems ∧ w.lostBlocks = d.lostBlocks ∧ w.lostElems = d.lostElems := by
  have hsz := h.size_eq
  simp only [throwStep, hn, if_false] at hs
  unfold Ring.reserveT
  by_cases hk : k = 0
  · rw [if_pos hk] at hs ⊢
    simp only [Option.some.injEq, Prod.mk.injEq] at hs
    obtain ⟨rfl, rfl⟩ := hs
    exact ⟨_, rfl, rfl, h, rfl, rfl⟩
  · rw [if_neg hk] at hs ⊢
    obtain ⟨s, hb, -⟩ := id h
    obtain ⟨r', d', e, c', h', hd'⟩ := Rep.moveLoopT (husk := husk) (l := l) (start := l.length - min n l.length) (min n l.length) 0 (fun _ => none) (k - 1)
      (by rw [movedAway_zero]; exact h) (by omega) (by intro j; simp)
    simp only [Nat.zero_add] at h' hd'
    simp only [Ring.reserveMove, hb, hsz, e, Res.ok_bind]
    by_cases hlt : k - 1 < min n l.length
    · rw [if_pos hlt] at hs
      simp only [Option.some.injEq, Prod.mk.injEq] at hs
      obtain ⟨rfl, rfl⟩ := hs
      simp only [hlt, decide_true, if_true]
      rw [Nat.min_eq_left (Nat.le_of_lt hlt)] at h' hd'
      refine ⟨_, rfl, c', h', rfl, ?_⟩
      simp only
      congr 1
      refine live_eq (by simp; omega) ?_
      intro j
      rw [hd', List.getElem?_take, List.getElem?_drop]
    · rw [if_neg hlt] at hs
      simp only [Option.some.injEq, Prod.mk.injEq] at hs
      obtain ⟨rfl, rfl⟩ := hs
      rw [Nat.min_eq_right (Nat.le_of_not_lt hlt)] at h' hd'
      obtain ⟨r1, hf, -⟩ := h'.free
      simp only [hlt, decide_false, Bool.false_eq_true, if_false, hf, Res.ok_bind]
      refine ⟨_, rfl, rfl, ⟨d', rfl, by simp only; omega, by simp only; omega, by simp; omega, by simp; omega, ?_⟩, rfl, rfl⟩
      intro i hi
      simp only at hi
      have : (⟨some d', n, 0, min n l.length⟩ : Ring α).address i = i := by
        unfold Ring.address; dsimp only; split <;> omega
      rw [this, hd', List.getElem?_drop]
      by_cases hi' : i < min n l.length
      · rw [if_pos hi']; congr 1; omega
      · rw [if_neg hi', List.getElem?_eq_none (by omega)]

/-- One call. -/
theorem Rep.stepT {husk : α → α} {r : Ring α} {l : List α} (h : Rep r l) (op : Op α) (k lb : Nat) (le : List α) {t : Bool} {d : Deque α}
    (hs : throwStep husk ⟨r.cap, l, lb, le⟩ op k = some (t, d)) :
    ∃ w, Ring.stepT husk ⟨r, lb, le⟩ op k = .ok (t, w) ∧ w.ring.cap = d.cap ∧ Rep w.ring d.elems ∧ w.lostBlocks = d.lostBlocks ∧ w.lostElems = d.lostElems := by
  cases op with
  | reserve n =>
    by_cases hn : n = 0
    · simp [throwStep, hn] at hs
    · exact h.reserveT hn k lb le hs
  | pushBack x =>
    by_cases hk : k = 0
    · simp [throwStep, hk] at hs
    · simp only [throwStep, hk, if_false, Option.map_eq_some_iff] at hs
      obtain ⟨⟨c', l'⟩, h1, h2⟩ := hs
      simp only [Prod.mk.injEq] at h2
      obtain ⟨rfl, rfl⟩ := h2
      obtain ⟨r', e, c, h'⟩ := h.step _ h1
      refine ⟨⟨r', lb, le⟩, ?_, c, h', rfl, rfl⟩
      simp only [Ring.step] at e
      simp [Ring.stepT, pushBackT_succ _ _ hk, e]
  | pushFront x =>
    by_cases hk : k = 0
    · simp [throwStep, hk] at hs
    · simp only [throwStep, hk, if_false, Option.map_eq_some_iff] at hs
      obtain ⟨⟨c', l'⟩, h1, h2⟩ := hs
      simp only [Prod.mk.injEq] at h2
      obtain ⟨rfl, rfl⟩ := h2
      obtain ⟨r', e, c, h'⟩ := h.step _ h1
      refine ⟨⟨r', lb, le⟩, ?_, c, h', rfl, rfl⟩
      simp only [Ring.step] at e
      simp [Ring.stepT, pushFrontT_succ _ _ hk, e]
  | popBack | popFront | clear =>
    simp only [throwStep, Option.map_eq_some_iff] at hs
    obtain ⟨⟨c', l'⟩, h1, h2⟩ := hs
    simp only [Prod.mk.injEq] at h2
    obtain ⟨rfl, rfl⟩ := h2
    obtain ⟨r', e, c, h'⟩ := h.step _ h1
    exact ⟨⟨r', lb, le⟩, by simp [Ring.stepT, e], c, h', rfl, rfl⟩

/-- Many calls. -/
theorem Rep.runT {husk : α → α} (prog : List (Op α × Nat)) : ∀ {r : Ring α} {l : List α} (_ : Rep r l) (lb : Nat) (le : List α) {ts : List Bool} {d : Deque α}
    (_ : throwRun husk ⟨r.cap, l, lb, le⟩ prog = some (ts, d)),
    ∃ w, Ring.runT husk ⟨r, lb, le⟩ prog = .ok (ts, w) ∧ w.ring.cap = d.cap ∧ Rep w.ring d.elems ∧ w.lostBlocks = d.lostBlocks ∧ w.lostElems = d.lostElems := by
  induction prog with
  | nil =>
    intro r l h lb le ts d hs
    simp only [throwRun, Option.some.injEq, Prod.mk.injEq] at hs
    obtain ⟨rfl, rfl⟩ := hs
    exact ⟨_, rfl, rfl, h, rfl, rfl⟩
  | cons c prog ih =>
    intro r l h lb le ts d hs
    obtain ⟨op, k⟩ := c
    simp only [throwRun, Option.bind_eq_some_iff, Option.map_eq_some_iff] at hs
    obtain ⟨⟨t, d1⟩, h1, ⟨ts', d2⟩, h2, h3⟩ := hs
    simp only [Prod.mk.injEq] at h3
    obtain ⟨rfl, rfl⟩ := h3
    obtain ⟨⟨r1, lb1, le1⟩, e1, c1, hr1, a1, b1⟩ := h.stepT op k lb le h1
    obtain ⟨cap1, el1, lbd1, led1⟩ := d1
    simp only at c1 hr1 a1 b1
    subst c1 a1 b1
    obtain ⟨w2, e2, c2, hr2, a2, b2⟩ := ih hr1 _ _ h2
    exact ⟨w2, by simp [Ring.runT, e1, e2], c2, hr2, a2, b2⟩

/-! ## Copies -/

theorem Rep.pushAllT {xs : List α} : ∀ {r : Ring α} {l : List α} (_ : Rep r l) (_ : l.length + xs.length ≤ r.cap) (k : Nat),
    (xs.length ≤ k → ∃ r', r.pushAllT xs k = .ok (false, r') ∧ r'.cap = r.cap ∧ Rep r' (l ++ xs)) ∧
    (k < xs.length → ∃ r', r.pushAllT xs k = .ok (true, r') ∧ r'.cap = r.cap ∧ RepO r' ((l ++ xs.take k).map some ++ [none])) := by
  induction xs with
  | nil =>
    intro r l h hl k
    exact ⟨fun _ => ⟨r, rfl, rfl, by simpa using h⟩, fun hk => by simp at hk⟩
  | cons x xs ih =>
    intro r l h hl k
    simp only [List.length_cons] at hl ⊢
    by_cases hk : k = 0
    · subst hk
      refine ⟨fun hk => by omega, fun _ => ?_⟩
      obtain ⟨r', p, e, c, hr⟩ := h.allocateNext
      rw [if_pos (by omega)] at hr
      exact ⟨r', by simp [Ring.pushAllT, Ring.pushBackT, e], c, by simpa using hr⟩
    · obtain ⟨r1, e1, c1, h1⟩ := h.pushBack x
      rw [if_pos (by omega)] at h1
      obtain ⟨i1, i2⟩ := ih h1 (by simp; omega) (k - 1)
      have hp : ∀ z, r1.pushAllT xs (k - 1) = z → r.pushAllT (x :: xs) k = z := by
        intro z hz
        simp [Ring.pushAllT, pushBackT_succ _ _ hk, e1, hz]
      constructor
      · intro hle
        have hle' : xs.length ≤ k - 1 := by clear i1 i2; omega
        obtain ⟨r', e, c, hr⟩ := i1 hle'
        exact ⟨r', hp _ e, by rw [c, c1], by simpa using hr⟩
      · intro hlt
        have hlt' : k - 1 < xs.length := by clear i1 i2; omega
        obtain ⟨r', e, c, hr⟩ := i2 hlt'
        refine ⟨r', hp _ e, by rw [c, c1], ?_⟩
        obtain ⟨k', rfl⟩ : ∃ k', k = k' + 1 := ⟨k - 1, by clear i1 i2; omega⟩
        simpa using hr

theorem filterMap_congr' {β γ : Type} {f g : β → Option γ} {l : List β} (h : ∀ x ∈ l, f x = g x) : l.filterMap f = l.filterMap g := by
  induction l with
  | nil => rfl
  | cons x l ih => simp only [List.filterMap_cons, h x (by simp), ih fun y hy => h y (by simp [hy])]

theorem RepO.live {r : Ring α} {l : List α} (h : RepO r (l.map some ++ [none])) (hd : r.data = 0) : ∃ s, r.buf = some s ∧ Ring.live s r.cap = l := by
  obtain ⟨s, hb, hc, -, hs, hl, hrep⟩ := h
  refine ⟨s, hb, ?_⟩
  have hl' : l.length + 1 ≤ r.cap := by simpa using hl
  have hadr : ∀ i, i < r.cap → r.address i = i := by
    intro i hi; unfold Ring.address; dsimp only; split <;> omega
  have : Ring.live s r.cap = Ring.live (fun j => l[j]?) r.cap := by
    unfold Ring.live
    apply filterMap_congr'
    intro i hi
    simp only [List.mem_range] at hi
    have := hrep i hi
    rw [hadr i hi] at this
    rw [this]
    by_cases hi' : i < l.length
    · rw [List.getElem?_append_left (by simpa using hi')]; simp [List.getElem?_eq_getElem hi']
    · have hn : l[i]? = none := List.getElem?_eq_none (by omega)
      rw [List.getElem?_append_right (by simpa using hi')]
      simp only [hn]
      cases hz : i - (l.map some).length with
      | zero => simp
      | succ n => simp
  rw [this]
  exact live_eq (by omega) fun _ => rfl

/-- Pushing onto a ring that is not full does not move its beginning. -/
theorem pushAllT_data {xs : List α} : ∀ {r : Ring α} (_ : r.size + xs.length ≤ r.cap) (k : Nat) {t : Bool} {r' : Ring α}, r.pushAllT xs k = .ok (t, r') → r'.data = r.data := by
  induction xs with
  | nil =>
    intro r _ k t r' e
    simp only [Ring.pushAllT, Res.ok.injEq, Prod.mk.injEq] at e
    rw [e.2]
  | cons x xs ih =>
    intro r hl k t r' e
    simp only [List.length_cons] at hl
    have hnf : r.full = false := by simp [Ring.full]; omega
    simp only [Ring.pushAllT, Ring.pushBackT, Ring.allocateNext, hnf, Bool.false_eq_true, if_false, Res.ok_bind] at e
    by_cases hk : k = 0
    · simp only [hk, if_true, Res.ok_bind, Res.ok.injEq, Prod.mk.injEq] at e
      rw [← e.2]
    · simp only [hk, if_false, Ring.construct] at e
      cases hb : r.buf with
      | none => simp [hb] at e
      | some s =>
        simp only [hb] at e
        split at e
        · split at e
          · simp only [Res.ok_bind, Bool.false_eq_true, if_false] at e
            exact (ih (by simp only; omega) _ e).trans rfl
          · simp at e
        · simp at e

end Verif.Ring
