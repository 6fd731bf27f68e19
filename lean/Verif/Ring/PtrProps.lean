import Verif.Ring.Props

/-!
# C168: the pointers a ring forms

`address` (Awl/Ring.h:442-450) adds the position to `m_data` before it subtracts the capacity.  The language allows pointers into the buffer and one behind its end only; forming another
one is undefined, even if it is not used.  The theorems of C01-C04 take addresses as numbers, as all usual machines do; here is what the language says.
-/

namespace Verif.Ring

variable {α : Type}

/-- Awl/Ring.h:444, the offset of the pointer `m_data + pos` before it is adjusted. -/
def Ring.formed (r : Ring α) (pos : Nat) : Nat := r.data + pos

/-- The language allows the pointer. -/
def Ring.Allowed (r : Ring α) (pos : Nat) : Prop := r.formed pos ≤ r.cap

theorem destroy_fields {r r' : Ring α} {p : Nat} (h : r.destroy p = .ok r') : r'.cap = r.cap ∧ r'.data = r.data ∧ r'.size = r.size := by
  unfold Ring.destroy at h
  split at h
  · cases h
  · split at h
    · split at h
      · cases h; exact ⟨rfl, rfl, rfl⟩
      · cases h
    · cases h

theorem construct_fields {r r' : Ring α} {p : Nat} {x : α} (h : r.construct p x = .ok r') : r'.cap = r.cap ∧ r'.data = r.data ∧ r'.size = r.size := by
  unfold Ring.construct at h
  split at h
  · cases h
  · split at h
    · split at h
      · cases h; exact ⟨rfl, rfl, rfl⟩
      · cases h
    · cases h

theorem pushBack_fields {r r' : Ring α} {x : α} (h : r.pushBack x = .ok r') :
    r'.cap = r.cap ∧ (r.size = r.cap → r'.data = r.next r.data ∧ r'.size = r.size) ∧ (r.size ≠ r.cap → r'.data = r.data ∧ r'.size = r.size + 1) := by
  obtain ⟨⟨r1, p⟩, h1, h2⟩ := Res.bind_eq_ok.1 h
  obtain ⟨a, b, c⟩ := construct_fields h2
  rw [a, b, c]
  unfold Ring.allocateNext at h1
  by_cases hf : r.size = r.cap
  · have : r.full = true := by simpa [Ring.full] using hf
    simp only [this, if_true] at h1
    obtain ⟨r2, h3, h4⟩ := Res.bind_eq_ok.1 h1
    obtain ⟨d, e, f⟩ := destroy_fields h3
    cases h4
    refine ⟨d, fun _ => ⟨?_, f⟩, fun h => (h hf).elim⟩
    simp only [Ring.next, d, e]
  · have : r.full = false := by simpa [Ring.full] using hf
    simp only [this] at h1
    cases h1
    exact ⟨rfl, fun h => (hf h).elim, fun _ => ⟨rfl, rfl⟩⟩

theorem popFront_fields {r r' : Ring α} (h : r.popFront = .ok r') : r'.cap = r.cap ∧ r'.data = r.next r.data ∧ r'.size = r.size - 1 := by
  obtain ⟨r1, h1, h2⟩ := Res.bind_eq_ok.1 h
  obtain ⟨a, b, c⟩ := destroy_fields h1
  cases h2
  exact ⟨a, by simp only [Ring.next, a, b], by rw [c]⟩

theorem popBack_fields {r r' : Ring α} (h : r.popBack = .ok r') : r'.cap = r.cap ∧ r'.data = r.data ∧ r'.size = r.size - 1 := by
  unfold Ring.popBack at h
  split at h
  · cases h
  · obtain ⟨r1, h1, h2⟩ := Res.bind_eq_ok.1 h
    obtain ⟨a, b, c⟩ := destroy_fields h1
    cases h2
    exact ⟨a, b, by rw [c]⟩

theorem popAll_cap {n : Nat} : ∀ {r r' : Ring α}, r.popAll n = .ok r' → r'.cap = r.cap := by
  induction n with
  | zero => intro r r' h; cases h; rfl
  | succ n ih =>
    intro r r' h
    obtain ⟨r1, h1, h2⟩ := Res.bind_eq_ok.1 h
    rw [ih h2, (popFront_fields h1).1]

theorem clear_fields {r r' : Ring α} (h : r.clear = .ok r') : r'.cap = r.cap ∧ r'.data = 0 ∧ r'.size = 0 := by
  unfold Ring.clear at h
  split at h
  · cases h
  · obtain ⟨r1, h1, h2⟩ := Res.bind_eq_ok.1 h
    cases h2
    exact ⟨(popAll_cap h1 : r1.cap = r.cap), rfl, rfl⟩

/-- The calls `push_back` in a history. -/
def backs : List (Op α) → Nat
  | [] => 0
  | .pushBack _ :: os => backs os + 1
  | _ :: os => backs os

/-- No `push_front` and no `reserve`. -/
def Plain : Op α → Prop
  | .pushFront _ => False
  | .reserve _ => False
  | _ => True

theorem plain_inv (os : List (Op α)) : ∀ (r : Ring α) (l : List α) (k c : Nat) (l' : List α), Rep r l → r.data + r.size ≤ k → k + backs os ≤ r.cap →
    (∀ o ∈ os, Plain o) → dequeRun (r.cap, l) os = some (c, l') →
    ∃ r', run r os = .ok r' ∧ r'.data + r'.size ≤ k + backs os ∧ r'.cap = r.cap := by
  induction os with
  | nil => intro r l k c l' _ h1 _ _ _; exact ⟨r, rfl, h1, rfl⟩
  | cons o os ih =>
    intro r l k c l' hr h1 h2 hp h
    simp only [dequeRun, Option.bind_eq_some_iff] at h
    obtain ⟨⟨c1, l1⟩, h3, h4⟩ := h
    obtain ⟨r1, h5, rfl, h6⟩ := hr.step o h3
    have hp' : ∀ o ∈ os, Plain o := fun o ho => hp o (List.mem_cons_of_mem _ ho)
    have fin : ∀ k', r1.data + r1.size ≤ k' → k' + backs os = k + backs (o :: os) → r1.cap = r.cap →
        ∃ r', run r (o :: os) = .ok r' ∧ r'.data + r'.size ≤ k + backs (o :: os) ∧ r'.cap = r.cap := by
      intro k' a b e
      obtain ⟨r', i1, i2, i3⟩ := ih r1 l1 k' _ l' h6 a (by omega) hp' h4
      exact ⟨r', by simp only [run, h5, Res.ok_bind, i1], by omega, by omega⟩
    cases o with
    | pushBack x =>
      obtain ⟨a, b, d⟩ := pushBack_fields h5
      simp only [backs] at h2
      obtain ⟨e, f⟩ := d (by omega)
      exact fin (k + 1) (by omega) (by simp only [backs]; omega) a
    | pushFront x => exact (hp _ (List.mem_cons_self ..)).elim
    | reserve n => exact (hp _ (List.mem_cons_self ..)).elim
    | popBack =>
      obtain ⟨a, b, d⟩ := popBack_fields h5
      exact fin k (by omega) rfl a
    | popFront =>
      obtain ⟨a, b, d⟩ := popFront_fields h5
      have hs : r.size ≠ 0 := by
        rw [hr.size_eq]
        intro h0
        rw [List.length_eq_zero_iff] at h0
        simp [dequeStep, h0] at h3
      refine fin k ?_ rfl a
      rw [b, d]; unfold Ring.next; split <;> omega
    | clear =>
      obtain ⟨a, b, d⟩ := clear_fields h5
      exact fin k (by omega) rfl a

/-- **C168**, what holds: a ring to which no more elements are added than it has room for, at its end only, forms no pointer that is not allowed, for all its elements and for the next
one.  Missing: a ring used as a ring, see `c168_wrapped_violated`. -/
theorem c168_not_wrapped_partial (cap : Nat) (hcap : 0 < cap) (os : List (Op α)) (hp : ∀ o ∈ os, Plain o) (hb : backs os ≤ cap) (c : Nat) (l : List α)
    (h : dequeRun (cap, []) os = some (c, l)) : ∃ r, run (make cap) os = .ok r ∧ ∀ pos, pos ≤ r.size → r.Allowed pos := by
  obtain ⟨r, h1, h2, h3⟩ := plain_inv os (make cap) [] 0 c l (rep_make cap hcap) (by simp [make]) (by simpa [make] using hb) hp h
  refine ⟨r, h1, fun pos hpos => ?_⟩
  simp only [make] at h3
  unfold Ring.Allowed Ring.formed
  omega

example : ∃ l : List Nat, dequeRun (3, []) [.pushBack 1, .pushBack 2, .popFront, .clear, .pushBack 3] = some (3, l) ∧
    backs [Op.pushBack 1, .pushBack 2, .popFront, .clear, .pushBack 3] = 3 := ⟨_, rfl, rfl⟩

theorem succ_mod {m cap : Nat} (h : 2 ≤ cap) : (m + 1) % cap = if m % cap + 1 = cap then 0 else m % cap + 1 := by
  have h1 : m % cap < cap := Nat.mod_lt _ (by omega)
  rw [Nat.add_mod, Nat.mod_eq_of_lt (show 1 < cap by omega)]
  split
  · next h => rw [h, Nat.mod_self]
  · exact Nat.mod_eq_of_lt (by omega)

theorem pushes (cap : Nat) (hcap : 2 ≤ cap) (xs : List α) : ∀ (r : Ring α) (l : List α) (k : Nat), Rep r l → r.cap = cap → r.size = min k cap →
    r.data = (k - cap) % cap →
    ∃ r', run r (xs.map .pushBack) = .ok r' ∧ r'.cap = cap ∧ r'.size = min (k + xs.length) cap ∧ r'.data = (k + xs.length - cap) % cap := by
  induction xs with
  | nil => intro r l k _ h1 h2 h3; exact ⟨r, rfl, h1, h2, h3⟩
  | cons x xs ih =>
    intro r l k hr h1 h2 h3
    obtain ⟨r1, h5, h6, h7⟩ := hr.step (.pushBack x) (c' := r.cap) (l' := if l.length < r.cap then l ++ [x] else l.drop 1 ++ [x]) rfl
    obtain ⟨a, b, d⟩ := pushBack_fields h5
    have hk : r1.size = min (k + 1) cap ∧ r1.data = (k + 1 - cap) % cap := by
      by_cases hf : r.size = r.cap
      · obtain ⟨e, f⟩ := b hf
        refine ⟨by omega, ?_⟩
        rw [e, show k + 1 - cap = (k - cap) + 1 by omega, succ_mod hcap, ← h3, Ring.next, h1]
      · obtain ⟨e, f⟩ := d hf
        refine ⟨by omega, ?_⟩
        rw [e, h3, show k - cap = 0 by omega, show k + 1 - cap = 0 by omega]
    obtain ⟨r', i1, i2, i3, i4⟩ := ih r1 _ (k + 1) h7 (by omega) hk.1 hk.2
    have hl : k + 1 + xs.length = k + (x :: xs).length := by simp; omega
    exact ⟨r', by simp only [List.map_cons, run, h5, Res.ok_bind, i1], i2, by rw [i3, hl], by rw [i4, hl]⟩

/-- **C168 is violated** by a ring that is used as a ring: whatever its capacity is (two or more) and whatever is pushed, when more than its capacity was pushed, and the number of
elements pushed is no multiple of it, the next `push_back` forms a pointer beyond the one behind the end of the buffer; so does every access to the last element, from the second
element beyond that multiple on. -/
theorem c168_wrapped_violated (cap : Nat) (hcap : 2 ≤ cap) (xs : List α) (hx : cap < xs.length) (hm : xs.length % cap ≠ 0) :
    ∃ r, run (make cap) (xs.map .pushBack) = .ok r ∧ ¬ r.Allowed r.size ∧ (2 ≤ xs.length % cap → ¬ r.Allowed (r.size - 1)) := by
  obtain ⟨r, h1, h2, h3, h4⟩ := pushes cap hcap xs (make cap) [] 0 (rep_make cap (by omega)) rfl (by simp [make]) (by simp [make])
  have hd : r.data = xs.length % cap := by
    rw [h4, show 0 + xs.length - cap = xs.length - cap by omega]
    exact (Nat.mod_eq_sub_mod (by omega)).symm
  refine ⟨r, h1, ?_, fun h => ?_⟩
  · unfold Ring.Allowed Ring.formed; omega
  · unfold Ring.Allowed Ring.formed; omega

example : (2 : Nat) ≤ 3 ∧ 3 < [1, 2, 3, 4, 5].length ∧ [1, 2, 3, 4, 5].length % 3 = 2 := by decide

end Verif.Ring
