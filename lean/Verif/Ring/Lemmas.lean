import Verif.Ring.Spec

/-! # Helper lemmas for the ring: representation relation and its preservation -/

namespace Verif.Ring

variable {α : Type}

/-- The ring represents the list `l`: logical position `i` is in slot `address i`, all other slots are raw. -/
def Rep (r : Ring α) (l : List α) : Prop :=
  ∃ s, r.buf = some s ∧ 0 < r.cap ∧ r.data < r.cap ∧ r.size = l.length ∧ l.length ≤ r.cap ∧
    ∀ i, i < r.cap → s (r.address i) = l[i]?

theorem rep_make (c : Nat) (h : 0 < c) : Rep (make c : Ring α) [] := by
  refine ⟨fun _ => none, rfl, h, h, rfl, Nat.zero_le _, ?_⟩
  intro i _; simp

theorem address_lt {r : Ring α} {i : Nat} (hd : r.data < r.cap) (hi : i ≤ r.cap) : r.address i < r.cap := by
  unfold Ring.address; dsimp only; split <;> omega

theorem Rep.get {r : Ring α} {l : List α} (h : Rep r l) (i : Nat) (hi : i < l.length) : r.get i = .ok l[i] := by
  obtain ⟨s, hb, hc, hd, hs, hl, hrep⟩ := h
  have h1 : r.address i < r.cap := address_lt hd (by omega)
  have h2 := hrep i (by omega)
  simp only [List.getElem?_eq_getElem hi] at h2
  simp [Ring.get, Ring.deref, hb, h1, h2]

theorem Rep.pushBack {r : Ring α} {l : List α} (h : Rep r l) (x : α) :
    ∃ r', r.pushBack x = .ok r' ∧ r'.cap = r.cap ∧ Rep r' (if l.length < r.cap then l ++ [x] else l.drop 1 ++ [x]) := by
  obtain ⟨s, hb, hc, hd, hs, hl, hrep⟩ := h
  by_cases hf : l.length < r.cap
  · have hnf : r.full = false := by simp [Ring.full]; omega
    have ha : r.address r.size < r.cap := address_lt hd (by omega)
    have hsl : s (r.address r.size) = none := by
      rw [hrep _ (by omega)]; simp [hs]
    have ha' : r.address l.length < r.cap := hs ▸ ha
    have hsl' : s (r.address l.length) = none := hs ▸ hsl
    refine ⟨{ r with size := r.size + 1, buf := some (setSlot s (r.address r.size) (some x)) }, ?_, rfl, ?_⟩
    · simp [Ring.pushBack, Ring.allocateNext, hnf, Ring.construct, hb, ha', hsl', hs]
    · rw [if_pos hf]
      refine ⟨setSlot s (r.address r.size) (some x), rfl, hc, hd, by simp [hs], by simp; omega, ?_⟩
      intro i hi
      simp only at hi
      change setSlot s (r.address r.size) (some x) (r.address i) = _
      by_cases hie : i = l.length
      · subst hie
        simp [setSlot, hs]
      · have hne : r.address i ≠ r.address r.size := by
          unfold Ring.address; dsimp only; split <;> split <;> omega
        rw [setSlot, if_neg hne, hrep i hi]
        by_cases hlt : i < l.length
        · rw [List.getElem?_append_left hlt]
        · have : l.length < i := by omega
          rw [List.getElem?_eq_none (by omega), List.getElem?_eq_none (by simp; omega)]
  · have hlc : l.length = r.cap := by omega
    have hfull : r.full = true := by simp [Ring.full]; omega
    have haw : r.address r.size = r.data := by unfold Ring.address; dsimp only; split <;> omega
    have ha0 : r.address 0 = r.data := by unfold Ring.address; dsimp only; split <;> omega
    have hx0 : s r.data = some (l[0]'(by omega)) := by
      rw [← ha0, hrep 0 hc, List.getElem?_eq_getElem (by omega)]
    refine ⟨{ r with data := r.next r.data, buf := some (setSlot (setSlot s r.data none) r.data (some x)) }, ?_, rfl, ?_⟩
    · simp [Ring.pushBack, Ring.allocateNext, hfull, Ring.destroy, hb, hd, hx0, Ring.construct, haw, setSlot, Ring.next]
    · rw [if_neg hf]
      refine ⟨_, rfl, hc, ?_, by simp [hs]; omega, by simp; omega, ?_⟩
      · simp only [Ring.next]; split <;> omega
      · intro i hi
        simp only at hi
        have hadr : ({ r with data := r.next r.data, buf := some (setSlot (setSlot s r.data none) r.data (some x)) } : Ring α).address i
            = if i + 1 = r.cap then r.data else r.address (i + 1) := by
          unfold Ring.address Ring.next; dsimp only; split <;> split <;> split <;> (try split) <;> omega
        rw [hadr]
        by_cases hl1 : i + 1 = r.cap
        · rw [if_pos hl1]
          have : i = (l.drop 1).length := by simp; omega
          rw [this]; simp [setSlot]
        · rw [if_neg hl1]
          have hne : r.address (i + 1) ≠ r.data := by
            unfold Ring.address; dsimp only; split <;> omega
          rw [setSlot, if_neg hne, setSlot, if_neg hne, hrep _ (by omega),
            List.getElem?_append_left (by simp; omega)]
          simp

theorem Rep.pushFront {r : Ring α} {l : List α} (h : Rep r l) (x : α) :
    ∃ r', r.pushFront x = .ok r' ∧ r'.cap = r.cap ∧ Rep r' (x :: (if l.length < r.cap then l else l.dropLast)) := by
  obtain ⟨s, hb, hc, hd, hs, hl, hrep⟩ := h
  have hpl : r.prev r.data < r.cap := by unfold Ring.prev; split <;> omega
  have hpa : r.prev r.data = r.address (r.cap - 1) := by
    unfold Ring.prev Ring.address; dsimp only; split <;> split <;> omega
  by_cases hf : l.length < r.cap
  · have hnf : r.full = false := by simp [Ring.full]; omega
    have hsl : s (r.prev r.data) = none := by
      rw [hpa, hrep _ (by omega)]
      exact List.getElem?_eq_none (by omega)
    refine ⟨{ r with data := r.prev r.data, size := r.size + 1, buf := some (setSlot s (r.prev r.data) (some x)) }, ?_, rfl, ?_⟩
    · simp [Ring.pushFront, Ring.allocatePrev, hnf, Ring.construct, hb, hpl, hsl]
    · rw [if_pos hf]
      refine ⟨_, rfl, hc, hpl, by simp [hs], by simp; omega, ?_⟩
      intro i hi
      simp only at hi
      have hadr : ({ r with data := r.prev r.data, size := r.size + 1, buf := some (setSlot s (r.prev r.data) (some x)) } : Ring α).address i
          = if i = 0 then r.prev r.data else r.address (i - 1) := by
        unfold Ring.address Ring.prev; dsimp only; split <;> split <;> split <;> (try split) <;> omega
      rw [hadr]
      by_cases h0 : i = 0
      · subst h0; simp [setSlot]
      · rw [if_neg h0]
        have hne : r.address (i - 1) ≠ r.prev r.data := by
          rw [hpa]; unfold Ring.address; dsimp only; split <;> split <;> omega
        rw [setSlot, if_neg hne, hrep _ (by omega)]
        obtain ⟨j, rfl⟩ : ∃ j, i = j + 1 := ⟨i - 1, by omega⟩
        simp
  · have hlc : l.length = r.cap := by omega
    have hfull : r.full = true := by simp [Ring.full]; omega
    have hsl : s (r.prev r.data) = some (l[r.cap - 1]'(by omega)) := by
      rw [hpa, hrep _ (by omega), List.getElem?_eq_getElem (by omega)]
    refine ⟨{ r with data := r.prev r.data, buf := some (setSlot (setSlot s (r.prev r.data) none) (r.prev r.data) (some x)) }, ?_, rfl, ?_⟩
    · simp [Ring.pushFront, Ring.allocatePrev, hfull, Ring.destroy, Ring.construct, hb, hpl, hsl, setSlot]
    · rw [if_neg hf]
      refine ⟨_, rfl, hc, hpl, by simp [hs]; omega, by simp; omega, ?_⟩
      intro i hi
      simp only at hi
      have hadr : ({ r with data := r.prev r.data, buf := some (setSlot (setSlot s (r.prev r.data) none) (r.prev r.data) (some x)) } : Ring α).address i
          = if i = 0 then r.prev r.data else r.address (i - 1) := by
        unfold Ring.address Ring.prev; dsimp only; split <;> split <;> split <;> (try split) <;> omega
      rw [hadr]
      by_cases h0 : i = 0
      · subst h0; simp [setSlot]
      · rw [if_neg h0]
        have hne : r.address (i - 1) ≠ r.prev r.data := by
          rw [hpa]; unfold Ring.address; dsimp only; split <;> split <;> omega
        rw [setSlot, if_neg hne, setSlot, if_neg hne, hrep _ (by omega)]
        obtain ⟨j, rfl⟩ : ∃ j, i = j + 1 := ⟨i - 1, by omega⟩
        simp only [Nat.add_sub_cancel, List.getElem?_cons_succ, List.getElem?_dropLast]
        rw [if_pos (by omega)]

theorem Rep.popFront {r : Ring α} {l : List α} (h : Rep r l) (hne : l ≠ []) :
    ∃ r', r.popFront = .ok r' ∧ r'.cap = r.cap ∧ Rep r' (l.drop 1) := by
  obtain ⟨s, hb, hc, hd, hs, hl, hrep⟩ := h
  have hpos : 0 < l.length := List.length_pos_iff.2 hne
  have ha0 : r.address 0 = r.data := by unfold Ring.address; dsimp only; split <;> omega
  have hx0 : s r.data = some (l[0]'(by omega)) := by
    rw [← ha0, hrep 0 hc, List.getElem?_eq_getElem (by omega)]
  refine ⟨{ r with data := r.next r.data, size := r.size - 1, buf := some (setSlot s r.data none) }, ?_, rfl, ?_⟩
  · simp [Ring.popFront, Ring.destroy, hb, hd, hx0, Ring.next]
  · refine ⟨_, rfl, hc, ?_, by simp [hs], by simp; omega, ?_⟩
    · simp only [Ring.next]; split <;> omega
    · intro i hi
      simp only at hi
      have hadr : ({ r with data := r.next r.data, size := r.size - 1, buf := some (setSlot s r.data none) } : Ring α).address i
          = if i + 1 = r.cap then r.data else r.address (i + 1) := by
        unfold Ring.address Ring.next; dsimp only; split <;> split <;> split <;> (try split) <;> omega
      rw [hadr]
      by_cases hl1 : i + 1 = r.cap
      · rw [if_pos hl1]
        rw [List.getElem?_eq_none (by simp; omega)]; simp [setSlot]
      · rw [if_neg hl1]
        have hne : r.address (i + 1) ≠ r.data := by
          unfold Ring.address; dsimp only; split <;> omega
        rw [setSlot, if_neg hne, hrep _ (by omega)]
        simp

theorem Rep.popBack {r : Ring α} {l : List α} (h : Rep r l) (hne : l ≠ []) :
    ∃ r', r.popBack = .ok r' ∧ r'.cap = r.cap ∧ Rep r' l.dropLast := by
  obtain ⟨s, hb, hc, hd, hs, hl, hrep⟩ := h
  have hpos : 0 < l.length := List.length_pos_iff.2 hne
  have hlt : r.address (r.size - 1) < r.cap := address_lt hd (by omega)
  have hx0 : s (r.address (r.size - 1)) = some (l[l.length - 1]'(by omega)) := by
    rw [hrep _ (by omega), hs, List.getElem?_eq_getElem (by omega)]
  have hsz : r.size ≠ 0 := by omega
  refine ⟨{ r with size := r.size - 1, buf := some (setSlot s (r.address (r.size - 1)) none) }, ?_, rfl, ?_⟩
  · simp [Ring.popBack, Ring.last, hsz, Ring.destroy, hb, hlt, hx0]
  · refine ⟨_, rfl, hc, hd, by simp [hs], by simp; omega, ?_⟩
    intro i hi
    simp only at hi
    change setSlot s (r.address (r.size - 1)) none (r.address i) = _
    rw [List.getElem?_dropLast]
    by_cases hie : i = l.length - 1
    · subst hie; simp [setSlot, hs]
    · have hne : r.address i ≠ r.address (r.size - 1) := by
        unfold Ring.address; dsimp only; split <;> split <;> omega
      rw [setSlot, if_neg hne, hrep i hi]
      by_cases hlt : i < l.length - 1
      · rw [if_pos hlt]
      · rw [if_neg hlt, List.getElem?_eq_none (by omega)]

theorem Rep.popAll {r : Ring α} {l : List α} (h : Rep r l) :
    ∃ r', r.popAll l.length = .ok r' ∧ r'.cap = r.cap ∧ Rep r' [] := by
  induction l generalizing r with
  | nil => exact ⟨r, rfl, rfl, h⟩
  | cons x xs ih =>
    obtain ⟨r1, h1, hc1, hr1⟩ := h.popFront (by simp)
    obtain ⟨r2, h2, hc2, hr2⟩ := ih (r := r1) (by simpa using hr1)
    exact ⟨r2, by simp [Ring.popAll, h1, h2], by rw [hc2, hc1], hr2⟩

theorem Rep.clear {r : Ring α} {l : List α} (h : Rep r l) :
    ∃ r', r.clear = .ok r' ∧ r'.cap = r.cap ∧ Rep r' [] := by
  obtain ⟨r1, h1, hc1, s1, hb1, hcp1, hd1, hs1, hl1, hrep1⟩ := h.popAll
  obtain ⟨s, hb, hc, hd, hs, hl, hrep⟩ := h
  refine ⟨{ r1 with data := 0, size := 0 }, by simp [Ring.clear, hb, hs, h1], hc1, s1, hb1, hcp1, hcp1, rfl,
    by simp, ?_⟩
  intro i hi
  simp only at hi
  simp only [List.getElem?_nil]
  have : ({ r1 with data := 0, size := 0 } : Ring α).address i = i := by
    unfold Ring.address; dsimp only; split <;> omega
  rw [this]
  -- slot i is the slot of some logical position of r1
  by_cases hge : r1.data ≤ i
  · have := hrep1 (i - r1.data) (by omega)
    have ha : r1.address (i - r1.data) = i := by unfold Ring.address; dsimp only; split <;> omega
    simpa [ha] using this
  · have := hrep1 (i + r1.cap - r1.data) (by omega)
    have ha : r1.address (i + r1.cap - r1.data) = i := by unfold Ring.address; dsimp only; split <;> omega
    simpa [ha] using this

theorem Rep.free {r : Ring α} {l : List α} (h : Rep r l) : ∃ r', r.free = .ok r' ∧ r'.buf = none := by
  obtain ⟨r1, h1, _, s1, hb1, hc1, hd1, _, _, hrep1⟩ := h.clear
  obtain ⟨s, hb, _⟩ := h
  have hraw : ∀ p, p < r1.cap → s1 p = none := by
    intro p hp
    by_cases hge : r1.data ≤ p
    · have := hrep1 (p - r1.data) (by omega)
      have ha : r1.address (p - r1.data) = p := by unfold Ring.address; dsimp only; split <;> omega
      simpa [ha] using this
    · have := hrep1 (p + r1.cap - r1.data) (by omega)
      have ha : r1.address (p + r1.cap - r1.data) = p := by unfold Ring.address; dsimp only; split <;> omega
      simpa [ha] using this
  refine ⟨{ r1 with buf := none }, ?_, rfl⟩
  simp only [Ring.free, hb, h1, Res.ok_bind, Ring.dealloc, hb1]
  rw [if_pos]
  simp only [List.all_eq_true, List.mem_range, Option.isNone_iff_eq_none]
  exact hraw

theorem Rep.moveLoop {r : Ring α} {l : List α} (h : Rep r l) (start i n : Nat) (dst : Nat → Option α)
    (hn : start + i + n = l.length) (hdst : ∀ j, dst j = if j < i then l[start + j]? else none) :
    ∃ d, r.moveLoop start i dst n = .ok d ∧ ∀ j, d j = l[start + j]? := by
  induction n generalizing i dst with
  | zero =>
    refine ⟨dst, rfl, fun j => ?_⟩
    rw [hdst]; split
    · rfl
    · rw [List.getElem?_eq_none (by omega)]
  | succ n ih =>
    have hi : start + i < l.length := by omega
    have hget := h.get (start + i) hi
    obtain ⟨d, hd, hd'⟩ := ih (i + 1) (setSlot dst i (some l[start + i])) (by omega) (by
      intro j
      by_cases hj : j = i
      · subst hj; simp [setSlot, List.getElem?_eq_getElem hi]
      · rw [setSlot, if_neg hj, hdst]
        by_cases hlt : j < i
        · rw [if_pos hlt, if_pos (by omega)]
        · rw [if_neg hlt, if_neg (by omega)])
    exact ⟨d, by simp [Ring.moveLoop, hget, hd], hd'⟩

theorem Rep.reserve {r : Ring α} {l : List α} (h : Rep r l) (n : Nat) (hn : 0 < n) :
    ∃ r', r.reserve n = .ok r' ∧ r'.cap = n ∧ Rep r' (l.drop (l.length - n)) := by
  obtain ⟨r1, hfr, _⟩ := h.free
  have hsz : r.size = l.length := by obtain ⟨s, _, _, _, hs, _⟩ := h; exact hs
  obtain ⟨d, hd, hd'⟩ := h.moveLoop (l.length - min n l.length) 0 (min n l.length) (fun _ => none) (by omega)
    (by intro j; simp)
  obtain ⟨s, hb, hc, hdt, hs, hl, hrep⟩ := h
  refine ⟨⟨some d, n, 0, min n l.length⟩, by simp [Ring.reserve, hb, hsz, hd, hfr], rfl, d, rfl, hn, hn, ?_, ?_, ?_⟩
  · simp; omega
  · simp; omega
  · intro i hi
    simp only at hi
    have : (⟨some d, n, 0, min n l.length⟩ : Ring α).address i = i := by
      unfold Ring.address; dsimp only; split <;> omega
    rw [this, hd', List.getElem?_drop]
    congr 1; omega

theorem Rep.iterate {r : Ring α} {l : List α} (h : Rep r l) (n i : Nat) (hn : i + n = l.length) :
    r.iterate i n = .ok (l.drop i) := by
  induction n generalizing i with
  | zero => simp [Ring.iterate]; omega
  | succ n ih =>
    have hi : i < l.length := by omega
    simp [Ring.iterate, h.get i hi, ih (i + 1) (by omega)]

theorem Rep.iterateBack {r : Ring α} {l : List α} (h : Rep r l) (n : Nat) (hn : n ≤ l.length) :
    r.iterateBack n = .ok (l.take n).reverse := by
  induction n with
  | zero => simp [Ring.iterateBack]
  | succ n ih =>
    have hi : n < l.length := by omega
    rw [List.take_succ_eq_append_getElem hi]
    simp only [Ring.iterateBack, h.get n hi, ih (by omega), Res.ok_bind, List.reverse_append, List.reverse_cons,
      List.reverse_nil, List.nil_append, List.singleton_append]

theorem Rep.pushAll {r : Ring α} {l xs : List α} (h : Rep r l) (hl : l.length + xs.length ≤ r.cap) :
    ∃ r', r.pushAll xs = .ok r' ∧ r'.cap = r.cap ∧ Rep r' (l ++ xs) := by
  induction xs generalizing r l with
  | nil => exact ⟨r, rfl, rfl, by simpa using h⟩
  | cons x xs ih =>
    obtain ⟨r1, h1, hc1, hr1⟩ := h.pushBack x
    simp at hl
    rw [if_pos (by omega)] at hr1
    obtain ⟨r2, h2, hc2, hr2⟩ := ih hr1 (by simp; omega)
    exact ⟨r2, by simp [Ring.pushAll, h1, h2], by rw [hc2, hc1], by simpa using hr2⟩

theorem Rep.elems {r : Ring α} {l : List α} (h : Rep r l) : r.elems = .ok l := by
  have hsz : r.size = l.length := by obtain ⟨s, _, _, _, hs, _⟩ := h; exact hs
  simpa [Ring.elems, hsz] using h.iterate l.length 0 (by omega)

theorem Rep.copyOf {r : Ring α} {l : List α} (h : Rep r l) :
    ∃ r', r.copyOf = .ok r' ∧ r'.cap = r.cap ∧ Rep r' l := by
  have he := h.elems
  obtain ⟨s, hb, hc, hdt, hs, hl, hrep⟩ := h
  obtain ⟨r', h', hc', hr'⟩ := (rep_make (α := α) r.cap hc).pushAll (xs := l) (by simpa [make] using hl)
  exact ⟨r', by simp [Ring.copyOf, he, h'], by rw [hc']; rfl, by simpa using hr'⟩

theorem Rep.size_eq {r : Ring α} {l : List α} (h : Rep r l) : r.size = l.length := by
  obtain ⟨s, _, _, _, hs, _⟩ := h; exact hs

theorem Rep.eqLoop [DecidableEq α] {a b : Ring α} {l m : List α} (ha : Rep a l) (hb : Rep b m)
    (hlm : l.length = m.length) (n i : Nat) (hn : i + n = l.length) :
    Ring.eqLoop a b i n = .ok (decide (l.drop i = m.drop i)) := by
  induction n generalizing i with
  | zero =>
    simp only [Nat.add_zero] at hn
    have h1 : l.drop i = [] := List.drop_eq_nil_of_le (by omega)
    have h2 : m.drop i = [] := List.drop_eq_nil_of_le (by omega)
    simp [Ring.eqLoop, h1, h2]
  | succ n ih =>
    have hi : i < l.length := by omega
    have hi' : i < m.length := by omega
    have e1 := List.drop_eq_getElem_cons hi
    have e2 := List.drop_eq_getElem_cons hi'
    simp only [Ring.eqLoop, ha.get i hi, hb.get i hi', Res.ok_bind, ih (i + 1) (by omega)]
    by_cases hxy : l[i] = m[i]
    · rw [if_pos hxy]
      congr 1
      rw [decide_eq_decide, e1, e2, hxy]
      simp only [List.cons.injEq, true_and]
    · rw [if_neg hxy]
      congr 1
      rw [eq_comm, decide_eq_false_iff_not, e1, e2]
      simp only [List.cons.injEq, hxy, false_and, not_false_iff]

theorem Rep.beq [DecidableEq α] {a b : Ring α} {l m : List α} (ha : Rep a l) (hb : Rep b m) :
    Ring.beq a b = .ok (decide (l = m)) := by
  unfold Ring.beq
  rw [ha.size_eq, hb.size_eq]
  by_cases h : l.length = m.length
  · rw [if_pos h, ha.eqLoop hb h l.length 0 (by omega)]; simp
  · rw [if_neg h]
    have : l ≠ m := fun he => h (by rw [he])
    simp [this]

theorem Rep.shows {r : Ring α} {l : List α} (h : Rep r l) : Shows r r.cap l := by
  have he := h.elems
  have hget := h.get
  have hback := h.iterateBack l.length (Nat.le_refl _)
  have hs := h.size_eq
  refine ⟨rfl, hs, ?_, ?_, hget, ?_, ?_, he, ?_⟩
  · simp [Ring.empty, hs]
  · simp [Ring.full, hs]
  · intro hne
    have hpos : 0 < l.length := List.length_pos_iff.2 hne
    have := hget 0 hpos
    obtain ⟨s, hb, hc, hd, -, -⟩ := h
    have ha0 : r.address 0 = r.data := by unfold Ring.address; dsimp only; split <;> omega
    simpa [Ring.get, ha0, Ring.front, List.head_eq_getElem] using this
  · intro hne
    have hpos : 0 < l.length := List.length_pos_iff.2 hne
    have := hget (l.length - 1) (by omega)
    simpa [Ring.back, Ring.last, hs, hne, Ring.get, List.getLast_eq_getElem] using this
  · simpa [Ring.relems, hs] using hback

/-- One allowed call keeps the representation. -/
theorem Rep.step {r : Ring α} {l : List α} (h : Rep r l) (o : Op α) {c' : Nat} {l' : List α}
    (hs : dequeStep (r.cap, l) o = some (c', l')) : ∃ r', step r o = .ok r' ∧ r'.cap = c' ∧ Rep r' l' := by
  cases o with
  | pushBack x =>
    simp only [dequeStep, Option.some.injEq, Prod.mk.injEq] at hs
    obtain ⟨rfl, rfl⟩ := hs; exact h.pushBack x
  | pushFront x =>
    simp only [dequeStep, Option.some.injEq, Prod.mk.injEq] at hs
    obtain ⟨rfl, rfl⟩ := hs; exact h.pushFront x
  | popBack =>
    simp only [dequeStep] at hs
    split at hs
    · simp at hs
    · simp only [Option.some.injEq, Prod.mk.injEq] at hs
      obtain ⟨rfl, rfl⟩ := hs; exact h.popBack ‹_›
  | popFront =>
    simp only [dequeStep] at hs
    split at hs
    · simp at hs
    · simp only [Option.some.injEq, Prod.mk.injEq] at hs
      obtain ⟨rfl, rfl⟩ := hs; exact h.popFront ‹_›
  | clear =>
    simp only [dequeStep, Option.some.injEq, Prod.mk.injEq] at hs
    obtain ⟨rfl, rfl⟩ := hs; exact h.clear
  | reserve n =>
    simp only [dequeStep] at hs
    split at hs
    · simp at hs
    · simp only [Option.some.injEq, Prod.mk.injEq] at hs
      obtain ⟨rfl, rfl⟩ := hs; exact h.reserve n (by omega)

theorem Rep.run {r : Ring α} {l : List α} (h : Rep r l) (os : List (Op α)) {c' : Nat} {l' : List α}
    (hs : dequeRun (r.cap, l) os = some (c', l')) : ∃ r', run r os = .ok r' ∧ r'.cap = c' ∧ Rep r' l' := by
  induction os generalizing r l with
  | nil =>
    simp only [dequeRun, Option.some.injEq, Prod.mk.injEq] at hs
    obtain ⟨rfl, rfl⟩ := hs; exact ⟨r, rfl, rfl, h⟩
  | cons o os ih =>
    simp only [dequeRun, Option.bind_eq_some_iff] at hs
    obtain ⟨⟨c1, l1⟩, h1, h2⟩ := hs
    obtain ⟨r1, hr1, hc1, hrep1⟩ := h.step o h1
    obtain ⟨r2, hr2, hc2, hrep2⟩ := ih hrep1 (by rw [hc1]; exact h2)
    exact ⟨r2, by simp [Ring.run, hr1, hr2], hc2, hrep2⟩

end Verif.Ring
