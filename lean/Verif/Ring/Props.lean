import Verif.Ring.Lemmas

/-!
# Properties of `awl::ring`

`Ring.run (make cap) os = .ok r` describes the rings reachable through the public interface.  `Shows r c l` lists
everything a user can see of `r`; it does not mention the buffer.
-/

namespace Verif.Ring

variable {α : Type}

/-- **C01.**  Any history of calls that is allowed for a bounded deque runs without undefined behaviour and without
exception on a ring, and leaves a ring that shows exactly the deque's contents. -/
theorem c01_ring_is_bounded_deque (cap : Nat) (hcap : 0 < cap) (os : List (Op α)) (c : Nat) (l : List α)
    (h : dequeRun (cap, []) os = some (c, l)) :
    ∃ r, run (make cap) os = .ok r ∧ Shows r c l := by
  obtain ⟨r, hr, hc, hrep⟩ := (rep_make (α := α) cap hcap).run os (c' := c) (l' := l) h
  exact ⟨r, hr, hc ▸ hrep.shows⟩

/-- Non-vacuity: a history with wrap-around, overwriting on both ends and `reserve`. -/
example : dequeRun (2, ([] : List Nat))
    [.pushBack 1, .pushBack 2, .pushBack 3, .pushFront 9, .popBack, .reserve 5, .pushFront 7] = some (5, [7, 9]) := by
  decide

/-- The same history on the ring. -/
example : ∃ r, run (make 2) [.pushBack 1, .pushBack 2, .pushBack 3, .pushFront 9, .popBack, .reserve 5, .pushFront 7]
    = .ok r ∧ Shows r 5 [7, 9] := c01_ring_is_bounded_deque 2 (by decide) _ _ _ (by decide)

/-- **C01**, the other direction of the contract: the bounded deque never holds more than its capacity, so the user
never sees more. -/
theorem c01_ring_never_exceeds_capacity (cap : Nat) (hcap : 0 < cap) (os : List (Op α)) (r : Ring α) (c : Nat)
    (l : List α) (h : dequeRun (cap, []) os = some (c, l)) (hr : run (make cap) os = .ok r) :
    r.size ≤ r.capacity ∧ 0 < r.capacity := by
  obtain ⟨r', hr', hc, s, _, h1, _, h2, h3, _⟩ := (rep_make (α := α) cap hcap).run os (c' := c) (l' := l) h
  rw [hr] at hr'
  obtain rfl : r = r' := by simpa using hr'
  exact ⟨by unfold Ring.capacity; omega, h1⟩

/-- **C02.**  `reserve n` on any reachable ring: the capacity becomes `n` and the contents become the newest
`min n size` elements in the same order. -/
theorem c02_reserve_keeps_newest (cap : Nat) (hcap : 0 < cap) (os : List (Op α)) (r : Ring α) (c : Nat) (l : List α)
    (h : dequeRun (cap, []) os = some (c, l)) (hr : run (make cap) os = .ok r) (n : Nat) (hn : 0 < n) :
    ∃ r' old new, r.reserve n = .ok r' ∧ Shows r c (old ++ new) ∧ Shows r' n new ∧
      new.length = min n (old ++ new).length := by
  obtain ⟨r0, hr0, hc, hrep⟩ := (rep_make (α := α) cap hcap).run os (c' := c) (l' := l) h
  rw [hr] at hr0
  obtain rfl : r = r0 := by simpa using hr0
  obtain ⟨r', hr', hc', hrep'⟩ := hrep.reserve n hn
  refine ⟨r', l.take (l.length - n), l.drop (l.length - n), hr', ?_, hc' ▸ hrep'.shows, ?_⟩
  · rw [List.take_append_drop]; exact hc ▸ hrep.shows
  · rw [List.take_append_drop]; simp; omega

example : dequeRun (3, ([] : List Nat)) [.pushBack 1, .pushBack 2, .pushBack 3, .pushBack 4] = some (3, [2, 3, 4]) := by
  decide

/-- **C03** is false for the code: after three pushes to a ring of capacity three, `at(3)` does not throw; it returns
the first element.  (`check_index` tests `index > size()`.) -/
theorem c03_at_accepts_size_violated :
    ∃ (r : Ring Nat), run (make 3) [.pushBack 1, .pushBack 2, .pushBack 3] = .ok r ∧ r.size = 3 ∧ r.at_ 3 = .ok 1 := by
  refine ⟨_, rfl, rfl, ?_⟩
  decide

/-- With a ring that is not full, `at(size())` reads a slot that holds no object. -/
theorem c03_at_reads_raw_memory_violated :
    ∃ (r : Ring Nat), run (make 3) [.pushBack 1] = .ok r ∧ r.size = 1 ∧ r.at_ 1 = .ub := by
  refine ⟨_, rfl, rfl, ?_⟩
  decide

/-- **C03**, what holds: `at(i)` is element `i` for every valid index and throws for every `i > size()`.  Missing
from the full statement: `i = size()`, where the code does not throw. -/
theorem c03_at_partial (cap : Nat) (hcap : 0 < cap) (os : List (Op α)) (r : Ring α) (c : Nat) (l : List α)
    (h : dequeRun (cap, []) os = some (c, l)) (hr : run (make cap) os = .ok r) (i : Nat) :
    (∀ hi : i < l.length, r.at_ i = .ok l[i]) ∧ (l.length < i → r.at_ i = .throw .outOfRange) := by
  obtain ⟨r0, hr0, hc, hrep⟩ := (rep_make (α := α) cap hcap).run os (c' := c) (l' := l) h
  rw [hr] at hr0
  obtain rfl : r = r0 := by simpa using hr0
  have hs := hrep.size_eq
  constructor
  · intro hi
    rw [Ring.at_, if_neg (by omega)]; exact hrep.get i hi
  · intro hi
    rw [Ring.at_, if_pos (by omega)]

/-- **C03**, exact behaviour of the code at the boundary, for every reachable ring: `at(size())` gives the first
element when the ring is full and is undefined behaviour otherwise; it never throws. -/
theorem c03_at_size_behaviour (cap : Nat) (hcap : 0 < cap) (os : List (Op α)) (r : Ring α) (c : Nat) (l : List α)
    (h : dequeRun (cap, []) os = some (c, l)) (hr : run (make cap) os = .ok r) :
    r.at_ r.size = (if r.full then r.front else .ub) := by
  obtain ⟨r0, hr0, hc, s, hb, hcp, hd, hs, hl, hrep⟩ := (rep_make (α := α) cap hcap).run os (c' := c) (l' := l) h
  rw [hr] at hr0
  obtain rfl : r = r0 := by simpa using hr0
  rw [Ring.at_, if_neg (by omega)]
  by_cases hf : r.size = r.cap
  · have ha : r.address r.size = r.data := by unfold Ring.address; dsimp only; split <;> omega
    simp only [Ring.get, Ring.full, Ring.front, hf, BEq.rfl, if_true]
    simp only [← hf, ha]
  · have hlt := address_lt (r := r) (i := r.size) hd (by omega)
    have := hrep r.size (by omega)
    rw [List.getElem?_eq_none (by omega)] at this
    simp [Ring.get, Ring.deref, hb, hlt, this, Ring.full, hf]

/-- **C04**, copy construction and copy assignment to a different ring: the copy shows the same capacity and contents
as the source did, and an overwritten target's old storage has been released with all its elements destroyed (a leak or a
double destruction would be `ub`).  (The source is an input value, not changed by construction.) -/
theorem c04_copy (cap : Nat) (hcap : 0 < cap) (os : List (Op α)) (r : Ring α) (c : Nat) (l : List α)
    (h : dequeRun (cap, []) os = some (c, l)) (hr : run (make cap) os = .ok r)
    (cap' : Nat) (hcap' : 0 < cap') (os' : List (Op α)) (t : Ring α) (c' : Nat) (l' : List α)
    (h' : dequeRun (cap', []) os' = some (c', l')) (ht : run (make cap') os' = .ok t) :
    (∃ q, r.copyOf = .ok q ∧ Shows q c l) ∧ (∃ q old, copyAssign t r false = .ok (q, some old) ∧ Shows q c l ∧ old.buf = none) := by
  obtain ⟨r0, hr0, hc, hrep⟩ := (rep_make (α := α) cap hcap).run os (c' := c) (l' := l) h
  rw [hr] at hr0
  obtain rfl : r = r0 := by simpa using hr0
  obtain ⟨t0, ht0, hct, hrept⟩ := (rep_make (α := α) cap' hcap').run os' (c' := c') (l' := l') h'
  rw [ht] at ht0
  obtain rfl : t = t0 := by simpa using ht0
  obtain ⟨q, hq, hcq, hrepq⟩ := hrep.copyOf
  obtain ⟨t1, ht1, ht1b⟩ := hrept.free
  have hsh : Shows q c l := by
    have := hrepq.shows
    rwa [hcq, hc] at this
  exact ⟨⟨q, hq, hsh⟩, ⟨q, t1, by simp [copyAssign, ht1, hq], hsh, ht1b⟩⟩

/-- **C04**, equality: two reachable rings compare equal exactly when they show the same sequence. -/
theorem c04_equality [DecidableEq α] (cap : Nat) (hcap : 0 < cap) (os : List (Op α)) (r : Ring α) (c : Nat)
    (l : List α) (h : dequeRun (cap, []) os = some (c, l)) (hr : run (make cap) os = .ok r)
    (cap' : Nat) (hcap' : 0 < cap') (os' : List (Op α)) (t : Ring α) (c' : Nat) (l' : List α)
    (h' : dequeRun (cap', []) os' = some (c', l')) (ht : run (make cap') os' = .ok t) :
    r.beq t = .ok (decide (l = l')) := by
  obtain ⟨r0, hr0, hc, hrep⟩ := (rep_make (α := α) cap hcap).run os (c' := c) (l' := l) h
  rw [hr] at hr0
  obtain rfl : r = r0 := by simpa using hr0
  obtain ⟨t0, ht0, hct, hrept⟩ := (rep_make (α := α) cap' hcap').run os' (c' := c') (l' := l') h'
  rw [ht] at ht0
  obtain rfl : t = t0 := by simpa using ht0
  exact hrep.beq hrept

/-- Two rings with the same contents, different capacities and different placement of the data. -/
example : dequeRun (2, ([] : List Nat)) [.pushBack 5, .pushBack 1, .pushBack 2] = some (2, [1, 2]) ∧
    dequeRun (7, ([] : List Nat)) [.pushFront 2, .pushFront 1] = some (7, [1, 2]) := by decide

/-- **C11** for rings: assigning a ring to itself leaves it as it was (copy and move); moving from a different ring
gives the target the contents of the source, leaves the source without storage (so that the elements have one owner) and
releases the old storage of the target. -/
theorem c11_ring_assignment (cap : Nat) (hcap : 0 < cap) (os : List (Op α)) (r : Ring α) (c : Nat) (l : List α)
    (h : dequeRun (cap, []) os = some (c, l)) (hr : run (make cap) os = .ok r)
    (cap' : Nat) (hcap' : 0 < cap') (os' : List (Op α)) (t : Ring α) (c' : Nat) (l' : List α)
    (h' : dequeRun (cap', []) os' = some (c', l')) (ht : run (make cap') os' = .ok t) :
    (∃ q, copyAssign r r true = .ok (q, none) ∧ Shows q c l) ∧
    (∃ q q', moveAssign r r true = .ok (q, q', none) ∧ Shows q c l ∧ q' = q) ∧
    (∃ q q' old, moveAssign t r false = .ok (q, q', some old) ∧ Shows q c l ∧ q'.buf = none ∧ old.buf = none) := by
  obtain ⟨r0, hr0, hc, hrep⟩ := (rep_make (α := α) cap hcap).run os (c' := c) (l' := l) h
  rw [hr] at hr0
  obtain rfl : r = r0 := by simpa using hr0
  obtain ⟨t0, ht0, hct, hrept⟩ := (rep_make (α := α) cap' hcap').run os' (c' := c') (l' := l') h'
  rw [ht] at ht0
  obtain rfl : t = t0 := by simpa using ht0
  obtain ⟨t1, ht1, ht1b⟩ := hrept.free
  have hsh : Shows r c l := hc ▸ hrep.shows
  exact ⟨⟨r, rfl, hsh⟩, ⟨r, r, rfl, hsh, rfl⟩,
    ⟨r, { r with buf := none }, t1, by simp [moveAssign, ht1], hsh, rfl, ht1b⟩⟩

/-- **C69.**  After any history (calls and then the destructor), every element that was constructed in the buffer has been
destroyed exactly once: destroying twice, constructing over a live element and releasing the buffer with a live element
in it are all `ub` in the model, and the run is not `ub`. -/
theorem c69_elements_destroyed_once (cap : Nat) (hcap : 0 < cap) (os : List (Op α)) (c : Nat) (l : List α)
    (h : dequeRun (cap, []) os = some (c, l)) :
    ∃ r r', run (make cap) os = .ok r ∧ r.free = .ok r' ∧ r'.buf = none := by
  obtain ⟨r, hr, _, hrep⟩ := (rep_make (α := α) cap hcap).run os (c' := c) (l' := l) h
  obtain ⟨r', h1, h2⟩ := hrep.free
  exact ⟨r, r', hr, h1, h2⟩

example : dequeRun (2, ([] : List Nat)) [.pushBack 5, .pushFront 1, .pushBack 2, .popFront, .reserve 4, .pushBack 7]
    = some (4, [2, 7]) := by decide

/-- **C61** is false for the code: `r.push_back(r.front())` on a full ring destroys the first element before copying
it. -/
theorem c61_push_own_element_violated :
    ∃ (r : Ring Nat), run (make 2) [.pushBack 1, .pushBack 2] = .ok r ∧ r.front = .ok 1 ∧
      r.pushBackSelf (r.address 0) = .ub ∧ r.pushFrontSelf (r.address 1) = .ub := by
  exact ⟨_, rfl, rfl, rfl, rfl⟩

/-- **C61** is false for every full ring: pushing a reference to the first element at the back, or to the last one at the front, is undefined. -/
theorem c61_full_ring_violated (cap : Nat) (hcap : 0 < cap) (os : List (Op α)) (r : Ring α) (c : Nat)
    (l : List α) (h : dequeRun (cap, []) os = some (c, l)) (hr : run (make cap) os = .ok r) (hf : r.full = true) :
    r.pushBackSelf (r.address 0) = .ub ∧ r.pushFrontSelf (r.address (l.length - 1)) = .ub := by
  obtain ⟨r0, hr0, hc, s, hb, hcp, hd, hs, hl, hrep⟩ := (rep_make (α := α) cap hcap).run os (c' := c) (l' := l) h
  rw [hr] at hr0
  obtain rfl : r = r0 := by simpa using hr0
  have hsz : r.size = r.cap := by simpa [Ring.full] using hf
  have ha0 : r.address 0 = r.data := by unfold Ring.address; dsimp only; split <;> omega
  have hx0 : s r.data = some (l[0]'(by omega)) := by
    rw [← ha0, hrep 0 hcp, List.getElem?_eq_getElem (by omega)]
  have hpa : r.prev r.data = r.address (r.cap - 1) := by
    unfold Ring.prev Ring.address; dsimp only; split <;> split <;> omega
  have hpl : r.prev r.data < r.cap := by unfold Ring.prev; split <;> omega
  have hxl : s (r.prev r.data) = some (l[r.cap - 1]'(by omega)) := by
    rw [hpa, hrep _ (by omega), List.getElem?_eq_getElem (by omega)]
  have hla : r.address (l.length - 1) = r.prev r.data := by rw [hpa]; congr 1; omega
  constructor
  · rw [ha0]
    simp [Ring.pushBackSelf, Ring.allocateNext, hf, Ring.destroy, hb, hd, hx0, Ring.deref, setSlot]
  · rw [hla]
    simp [Ring.pushFrontSelf, Ring.allocatePrev, hf, Ring.destroy, hb, hpl, hxl, Ring.deref, setSlot]

example : ∃ r : Ring Nat, run (make 2) [.pushBack 1, .pushBack 2] = .ok r ∧ r.full = true := ⟨_, rfl, rfl⟩

/-- **C61**, what holds: pushing a reference to the ring's own element `i` is the same as pushing a copy of it made
beforehand, provided that the ring is not full or the element is not the one that is overwritten (the first one for
`push_back`, the last one for `push_front`).  Missing: exactly those two cases, which are undefined behaviour. -/
theorem c61_push_own_element_partial (cap : Nat) (hcap : 0 < cap) (os : List (Op α)) (r : Ring α) (c : Nat)
    (l : List α) (h : dequeRun (cap, []) os = some (c, l)) (hr : run (make cap) os = .ok r) (i : Nat)
    (hi : i < l.length) :
    ((r.full = false ∨ i ≠ 0) → r.pushBackSelf (r.address i) = r.pushBack l[i]) ∧
    ((r.full = false ∨ i + 1 ≠ l.length) → r.pushFrontSelf (r.address i) = r.pushFront l[i]) := by
  obtain ⟨r0, hr0, hc, s, hb, hcp, hd, hs, hl, hrep⟩ := (rep_make (α := α) cap hcap).run os (c' := c) (l' := l) h
  rw [hr] at hr0
  obtain rfl : r = r0 := by simpa using hr0
  have hlt : r.address i < r.cap := address_lt hd (by omega)
  have hsi : s (r.address i) = some l[i] := by rw [hrep i (by omega), List.getElem?_eq_getElem hi]
  have ha0 : r.address 0 = r.data := by unfold Ring.address; dsimp only; split <;> omega
  have hx0 : s r.data = some (l[0]'(by omega)) := by
    rw [← ha0, hrep 0 hcp, List.getElem?_eq_getElem (by omega)]
  have hpa : r.prev r.data = r.address (r.cap - 1) := by
    unfold Ring.prev Ring.address; dsimp only; split <;> split <;> omega
  have hpl : r.prev r.data < r.cap := by unfold Ring.prev; split <;> omega
  constructor
  · intro hor
    by_cases hf : r.full = true
    · have hi0 : i ≠ 0 := by rcases hor with h | h <;> simp_all
      have hne : r.address i ≠ r.data := by unfold Ring.address; dsimp only; split <;> omega
      simp [Ring.pushBackSelf, Ring.pushBack, Ring.allocateNext, hf, Ring.destroy, hb, hd, hx0, Ring.deref, hlt,
        setSlot, hne, hsi]
    · simp [Ring.pushBackSelf, Ring.pushBack, Ring.allocateNext, hf, Ring.deref, hb, hlt, hsi]
  · intro hor
    by_cases hf : r.full = true
    · have hi0 : i + 1 ≠ l.length := by rcases hor with h | h <;> simp_all
      have hsz : r.size = r.cap := by simpa [Ring.full] using hf
      have hxl : s (r.prev r.data) = some (l[r.cap - 1]'(by omega)) := by
        rw [hpa, hrep _ (by omega), List.getElem?_eq_getElem (by omega)]
      have hne : r.address i ≠ r.prev r.data := by
        rw [hpa]; unfold Ring.address; dsimp only; split <;> split <;> omega
      simp [Ring.pushFrontSelf, Ring.pushFront, Ring.allocatePrev, hf, Ring.destroy, hb, hpl, hxl, Ring.deref, hlt,
        setSlot, hne, hsi]
    · simp [Ring.pushFrontSelf, Ring.pushFront, Ring.allocatePrev, hf, Ring.deref, hb, hlt, hsi]

example : dequeRun (3, ([] : List Nat)) [.pushBack 1, .pushBack 2, .pushBack 3, .pushBack 4] = some (3, [2, 3, 4]) := by
  decide

/-- **C62** is false for the code: a moved-from ring still reports its old size and its elements cannot be read, so
e.g. comparing it or iterating over it is undefined behaviour. -/
theorem c62_moved_from_ring_violated :
    ∃ (r : Ring Nat), run (make 2) [.pushBack 1] = .ok r ∧ (moveCtor r).2.size = 1 ∧ (moveCtor r).2.elems = .ub := by
  refine ⟨_, rfl, rfl, ?_⟩
  decide

/-- **C62** is false for the code, for every history that leaves something in the ring: the moved-from ring still reports the old size, and reading an element, iterating in both directions,
pushing and popping are undefined.  `clear` is undefined too. -/
theorem c62_every_ring_violated (cap : Nat) (hcap : 0 < cap) (os : List (Op α)) (r : Ring α) (c : Nat) (l : List α)
    (h : dequeRun (cap, []) os = some (c, l)) (hr : run (make cap) os = .ok r) (hl : l ≠ []) :
    (moveCtor r).2.size = l.length ∧ (∀ i, (moveCtor r).2.get i = .ub) ∧ (moveCtor r).2.elems = .ub ∧ (moveCtor r).2.iterateBack (moveCtor r).2.size = .ub ∧
    ∀ x, ∀ o ∈ [Op.pushBack x, .pushFront x, .popFront, .popBack, .clear], run (moveCtor r).2 [o] = .ub := by
  obtain ⟨r0, hr0, hc, hrep⟩ := (rep_make (α := α) cap hcap).run os (c' := c) (l' := l) h
  rw [hr] at hr0
  obtain rfl : r = r0 := by simpa using hr0
  obtain ⟨s, hb, _, _, hs, _, _⟩ := hrep
  have hne : l.length ≠ 0 := fun h => hl (List.length_eq_zero_iff.1 h)
  obtain ⟨n, hn⟩ : ∃ n, l.length = n + 1 := ⟨l.length - 1, by omega⟩
  have hsz : (moveCtor r).2.size = n + 1 := by show r.size = n + 1; omega
  have hget : ∀ i, (moveCtor r).2.get i = .ub := fun i => rfl
  have hdes : ∀ p, (moveCtor r).2.destroy p = .ub := fun p => rfl
  have hrun : ∀ (q : Ring α) o, step q o = .ub → run q [o] = .ub := fun q o h => by simp [run, h]
  refine ⟨hs, hget, ?_, ?_, ?_⟩
  · rw [Ring.elems, hsz, Ring.iterate, hget]; rfl
  · rw [hsz, Ring.iterateBack, hget]; rfl
  · intro x o ho
    apply hrun
    simp only [List.mem_cons, List.not_mem_nil, or_false] at ho
    rcases ho with rfl | rfl | rfl | rfl | rfl
    · simp only [step, Ring.pushBack, Ring.allocateNext]
      split
      · rw [hdes]; rfl
      · rfl
    · simp only [step, Ring.pushFront, Ring.allocatePrev]
      split
      · rfl
      · rfl
    · simp only [step, Ring.popFront, hdes]; rfl
    · simp only [step, Ring.popBack, Ring.last, hsz]
      rfl
    · simp only [step, Ring.clear, hsz, Ring.popAll, Ring.popFront, hdes]
      rfl

/-- **C62**, what holds: after a move the target shows the source's contents, and the moved-from ring may be
destroyed, or made usable again with `reserve` or by assigning a ring to it. -/
theorem c62_moved_from_ring_partial (cap : Nat) (hcap : 0 < cap) (os : List (Op α)) (r : Ring α) (c : Nat)
    (l : List α) (h : dequeRun (cap, []) os = some (c, l)) (hr : run (make cap) os = .ok r) :
    Shows (moveCtor r).1 c l ∧ (moveCtor r).2.free = .ok (moveCtor r).2 ∧
    (∀ n, 0 < n → ∃ q, (moveCtor r).2.reserve n = .ok q ∧ Shows q n []) ∧
    (∃ q old, copyAssign (moveCtor r).2 r false = .ok (q, old) ∧ Shows q c l) := by
  obtain ⟨r0, hr0, hc, hrep⟩ := (rep_make (α := α) cap hcap).run os (c' := c) (l' := l) h
  rw [hr] at hr0
  obtain rfl : r = r0 := by simpa using hr0
  refine ⟨hc ▸ hrep.shows, rfl, ?_, ?_⟩
  · intro n hn
    exact ⟨make n, rfl, (rep_make n hn).shows⟩
  · obtain ⟨q, hq, hcq, hrepq⟩ := hrep.copyOf
    have hsh : Shows q c l := by
      have := hrepq.shows
      rwa [hcq, hc] at this
    exact ⟨q, some (moveCtor r).2, by simp [copyAssign, moveCtor, Ring.free, hq], hsh⟩

/-- **C62**, what holds for a move assignment: the target shows the source's contents, and the moved-from ring may be destroyed, given capacity, assigned to, or assigned back. -/
theorem c62_moved_from_assign_partial (cap : Nat) (hcap : 0 < cap) (os : List (Op α)) (r : Ring α) (c : Nat)
    (l : List α) (h : dequeRun (cap, []) os = some (c, l)) (hr : run (make cap) os = .ok r)
    (cap' : Nat) (hcap' : 0 < cap') (os' : List (Op α)) (t : Ring α) (c' : Nat) (l' : List α)
    (h' : dequeRun (cap', []) os' = some (c', l')) (ht : run (make cap') os' = .ok t) :
    ∃ q m old, moveAssign t r false = .ok (q, m, some old) ∧ Shows q c l ∧ old.buf = none ∧ m.free = .ok m ∧
      (∀ n, 0 < n → ∃ p, m.reserve n = .ok p ∧ Shows p n []) ∧
      (∃ p o, copyAssign m q false = .ok (p, o) ∧ Shows p c l) ∧
      (∃ p m' o, moveAssign m q false = .ok (p, m', o) ∧ Shows p c l) := by
  obtain ⟨r0, hr0, hc, hrep⟩ := (rep_make (α := α) cap hcap).run os (c' := c) (l' := l) h
  rw [hr] at hr0
  obtain rfl : r = r0 := by simpa using hr0
  obtain ⟨t0, ht0, hct, hrept⟩ := (rep_make (α := α) cap' hcap').run os' (c' := c') (l' := l') h'
  rw [ht] at ht0
  obtain rfl : t = t0 := by simpa using ht0
  obtain ⟨t1, ht1, ht1b⟩ := hrept.free
  have hsh : Shows r c l := hc ▸ hrep.shows
  refine ⟨r, { r with buf := none }, t1, by simp [moveAssign, ht1], hsh, ht1b, rfl, ?_, ?_, ?_⟩
  · intro n hn
    exact ⟨make n, rfl, (rep_make n hn).shows⟩
  · obtain ⟨q, hq, hcq, hrepq⟩ := hrep.copyOf
    have hsh : Shows q c l := by
      have := hrepq.shows
      rwa [hcq, hc] at this
    exact ⟨q, some { r with buf := none }, by simp [copyAssign, Ring.free, hq], hsh⟩
  · exact ⟨r, { r with buf := none }, some { r with buf := none }, by simp [moveAssign, Ring.free], hsh⟩

example : dequeRun (2, ([] : List Nat)) [.pushBack 5, .pushBack 6, .pushBack 7] = some (2, [6, 7]) ∧ dequeRun (3, ([] : List Nat)) [.pushFront 1] = some (3, [1]) := by decide

end Verif.Ring
