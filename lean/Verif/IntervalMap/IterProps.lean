import Verif.IntervalMap.IterModel
import Verif.IntervalMap.Props

/-! # Iteration over interval maps (C130) -/

namespace Verif.IntervalMap

variable {V : Type}

theorem visit_succ (K : KeyType) (n : Nat) (it : Iter V) : visit K (n + 1) it =
    if it.rest.isEmpty ∧ it.offset = 0 then .ok ([], it)
    else (it.deref K >>= fun x => it.next K >>= fun it => visit K n it >>= fun r => .ok (x :: r.1, r.2)) := rfl

theorem visit_add (K : KeyType) (n k : Nat) (it : Iter V) {l : List (Int × V)} {it' : Iter V} (h : visit K n it = .ok (l, it'))
    (hl : l.length = n) : visit K (n + k) it = (visit K k it' >>= fun r => .ok (l ++ r.1, r.2)) := by
  induction n generalizing it l with
  | zero =>
    simp only [visit, Res.ok.injEq, Prod.mk.injEq] at h
    obtain ⟨rfl, rfl⟩ := h
    rw [Nat.zero_add]
    cases visit K k it <;> rfl
  | succ n ih =>
    rw [Nat.add_right_comm]
    rw [visit_succ] at h ⊢
    split at h
    · simp only [Res.ok.injEq, Prod.mk.injEq] at h
      obtain ⟨rfl, rfl⟩ := h
      cases hl
    · rename_i hc
      rw [if_neg hc]
      rw [Res.bind_eq_ok] at h
      obtain ⟨x, hx, h⟩ := h
      rw [Res.bind_eq_ok] at h
      obtain ⟨i1, hi, h⟩ := h
      rw [Res.bind_eq_ok] at h
      obtain ⟨⟨l1, i2⟩, hv, h⟩ := h
      simp only [Res.ok.injEq, Prod.mk.injEq] at h
      obtain ⟨rfl, rfl⟩ := h
      rw [hx, Res.ok_bind, hi, Res.ok_bind, ih i1 hv (by simpa using hl)]
      cases visit K k i2 <;> rfl

/-- The keys `a, a + 1, …` with a value. -/
def runFrom (a : Int) (v : V) : Nat → List (Int × V)
  | 0 => []
  | n + 1 => (a, v) :: runFrom (a + 1) v n

theorem runFrom_length (a : Int) (v : V) (n : Nat) : (runFrom a v n).length = n := by
  induction n generalizing a with
  | zero => rfl
  | succ n ih => simp [runFrom, ih]

theorem mem_runFrom {a : Int} {v : V} {n : Nat} {k : Int} {w : V} :
    (k, w) ∈ runFrom a v n ↔ a ≤ k ∧ k < a + n ∧ w = v := by
  induction n generalizing a with
  | zero => simp [runFrom]; omega
  | succ n ih =>
    simp only [runFrom, List.mem_cons, Prod.mk.injEq, ih]
    constructor
    · rintro (⟨rfl, rfl⟩ | ⟨h1, h2, h3⟩)
      · exact ⟨by omega, by omega, rfl⟩
      · exact ⟨by omega, by push_cast; omega, h3⟩
    · rintro ⟨h1, h2, h3⟩
      by_cases hk : k = a
      · exact .inl ⟨hk, h3⟩
      · exact .inr ⟨by omega, by push_cast at h2; omega, h3⟩

theorem runFrom_sorted (a : Int) (v : V) (n : Nat) : (runFrom a v n).Pairwise (fun x y => x.1 < y.1) := by
  induction n generalizing a with
  | zero => exact .nil
  | succ n ih =>
    refine .cons ?_ (ih _)
    rintro ⟨k, w⟩ h
    have := mem_runFrom.1 h
    simp only []; omega

theorem toKey_in {K : KeyType} {x : Int} (h1 : K.lo ≤ x) (h2 : x ≤ K.hi) : toKey K x = .ok x := by
  unfold toKey; exact if_pos ⟨h1, h2⟩

/-- Inside an interval, as long as the end is not reached: `n` turns. -/
theorem visit_inside {K : KeyType} (e : Entry V) (m : Map V) (hlo : K.lo ≤ e.left) (hhi : e.right ≤ K.hi)
    (len : Int) (hlen : toKey K (e.right - e.left) = .ok len) (n : Nat) (o : Int) (ho : 0 ≤ o)
    (hn : e.left + o + n ≤ e.right) (ht : o + n ≤ K.hi) (hne : ∀ j, o ≤ j → j < o + n → j ≠ len) :
    visit K n ⟨e :: m, o⟩ = .ok (runFrom (e.left + o) e.value n, ⟨e :: m, o + n⟩) := by
  induction n generalizing o with
  | zero => simp [visit, runFrom]
  | succ n ih =>
    unfold visit
    rw [if_neg (by simp)]
    have hd : Iter.deref K (⟨e :: m, o⟩ : Iter V) = .ok (e.left + o, e.value) := by
      simp only [Iter.deref, toKey_in (K := K) (x := e.left + o) (by omega) (by push_cast at hn; omega)]
    have hx : Iter.next K (⟨e :: m, o⟩ : Iter V) = .ok ⟨e :: m, o + 1⟩ := by
      have h1 : o ≠ len := hne o (by omega) (by push_cast; omega)
      have h2 : o < K.hi := by push_cast at ht; omega
      simp only [Iter.next, hlen, if_neg h1, nextKey, if_pos h2]
    rw [hd, Res.ok_bind, hx, Res.ok_bind, ih (o + 1) (by omega) (by push_cast at hn; omega) (by push_cast at ht; omega)
      (fun j h1 h2 => hne j (by omega) (by push_cast; omega)), Res.ok_bind]
    simp only [runFrom, Int.add_assoc]
    have : (1 : Int) + n = ((n + 1 : Nat) : Int) := by push_cast; omega
    rw [this]

/-- A whole interval that is not too long. -/
theorem visit_interval {K : KeyType} (e : Entry V) (m : Map V) (hlo : K.lo ≤ e.left) (hne : e.left ≤ e.right)
    (hhi : e.right ≤ K.hi) (h0 : K.lo ≤ 0) (hshort : e.right - e.left ≤ K.hi) :
    visit K ((e.right - e.left).toNat + 1) ⟨e :: m, 0⟩ =
      .ok (runFrom e.left e.value ((e.right - e.left).toNat + 1), ⟨m, 0⟩) := by
  have hlen : toKey K (e.right - e.left) = .ok (e.right - e.left) := toKey_in (by omega) hshort
  have hN : ((e.right - e.left).toNat : Int) = e.right - e.left := Int.toNat_of_nonneg (by omega)
  generalize hNe : (e.right - e.left).toNat = N at hN
  have h1 := visit_inside e m hlo hhi _ hlen N 0 (by omega) (by omega) (by omega) (fun j h1 h2 => by omega)
  rw [visit_add K N 1 _ h1 (runFrom_length _ _ _)]
  have h2 : visit K 1 (⟨e :: m, 0 + (N : Int)⟩ : Iter V) = .ok ([(e.right, e.value)], ⟨m, 0⟩) := by
    unfold visit
    rw [if_neg (by simp)]
    have hd : Iter.deref K (⟨e :: m, 0 + (N : Int)⟩ : Iter V) = .ok (e.right, e.value) := by
      have : e.left + (0 + (N : Int)) = e.right := by omega
      simp only [Iter.deref, this, toKey_in (K := K) (x := e.right) (by omega) hhi]
    have hx : Iter.next K (⟨e :: m, 0 + (N : Int)⟩ : Iter V) = .ok ⟨m, 0⟩ := by
      have : 0 + (N : Int) = e.right - e.left := by omega
      simp only [Iter.next, hlen, if_pos this]
    rw [hd, Res.ok_bind, hx, Res.ok_bind]
    rfl
  rw [h2, Res.ok_bind]
  have h3 : ∀ (n : Nat) (a : Int), runFrom a e.value (n + 1) = runFrom a e.value n ++ [(a + n, e.value)] := by
    intro n
    induction n with
    | zero => intro a; simp [runFrom]
    | succ n ih =>
      intro a
      rw [runFrom, ih (a + 1), runFrom, List.cons_append]
      have : a + 1 + (n : Int) = a + ((n + 1 : Nat) : Int) := by push_cast; omega
      rw [this]
  rw [h3 N e.left, hN]
  have h4 : e.left + (e.right - e.left) = e.right := by omega
  simp only [h4, Int.add_zero]

/-- All intervals. -/
theorem visit_all {K : KeyType} (h0 : K.lo ≤ 0) (m : Map V) (h : Inv K m) (hs : ∀ e ∈ m, e.right - e.left ≤ K.hi) :
    ∃ l, visit K l.length (Iter.begin m) = .ok (l, Iter.end) ∧ l.Pairwise (fun x y => x.1 < y.1) ∧
      ∀ k v, (k, v) ∈ l ↔ Cov m k v := by
  induction m with
  | nil => exact ⟨[], rfl, .nil, fun k v => by simp [Cov]⟩
  | cons e m ih =>
    have hsub : Inv K m := ⟨(List.pairwise_cons.1 h.sorted).2, fun x hx => h.ne x (List.mem_cons_of_mem _ hx),
      fun x hx y hy => h.disj x (List.mem_cons_of_mem _ hx) y (List.mem_cons_of_mem _ hy),
      fun x hx => h.lo x (List.mem_cons_of_mem _ hx), fun x hx => h.hi x (List.mem_cons_of_mem _ hx),
      fun hC x hx y hy => h.canon hC x (List.mem_cons_of_mem _ hx) y (List.mem_cons_of_mem _ hy)⟩
    obtain ⟨l, h1, h2, h3⟩ := ih hsub (fun x hx => hs x (List.mem_cons_of_mem _ hx))
    have he := h.ne e List.mem_cons_self
    have h4 := visit_interval e m (h.lo e List.mem_cons_self) he (h.hi e List.mem_cons_self) h0 (hs e List.mem_cons_self)
    refine ⟨runFrom e.left e.value ((e.right - e.left).toNat + 1) ++ l, ?_, ?_, ?_⟩
    · rw [List.length_append, runFrom_length]
      refine (visit_add K _ l.length _ h4 (runFrom_length _ _ _)).trans ?_
      have h1' : visit K l.length ⟨m, 0⟩ = .ok (l, Iter.end) := h1
      rw [h1']
      rfl
    · refine List.pairwise_append.2 ⟨runFrom_sorted _ _ _, h2, ?_⟩
      rintro ⟨k, w⟩ hk ⟨k', w'⟩ hk'
      obtain ⟨x, hx, h5, h6, _⟩ := (h3 k' w').1 hk'
      have h7 := mem_runFrom.1 hk
      have h8 := (List.pairwise_cons.1 h.sorted).1 x hx
      have h9 := h.disj e List.mem_cons_self x (List.mem_cons_of_mem _ hx) h8
      push_cast at h7
      simp only []; omega
    · intro k v
      rw [List.mem_append, h3, mem_runFrom]
      constructor
      · rintro (⟨h5, h6, rfl⟩ | ⟨x, hx, h5⟩)
        · exact ⟨e, List.mem_cons_self, h5, by push_cast at h6; omega, rfl⟩
        · exact ⟨x, List.mem_cons_of_mem _ hx, h5⟩
      · rintro ⟨x, hx, h5, h6, rfl⟩
        rcases List.mem_cons.1 hx with rfl | hx
        · exact .inl ⟨h5, by push_cast; omega, rfl⟩
        · exact .inr ⟨x, hx, h5, h6, rfl⟩

/-- What iteration over the map is expected to do: `l.length` turns of the loop reach `end()`; the keys visited are in increasing order, and they are the keys of the map with
their values. -/
def Iterates (K : KeyType) (m : Map V) : Prop :=
  ∃ l, visit K l.length (Iter.begin m) = .ok (l, Iter.end) ∧ l.Pairwise (fun x y => x.1 < y.1) ∧
    ∀ k v, (k, v) ∈ l ↔ at' m k = .ok v

theorem iterates {K : KeyType} (h0 : K.lo ≤ 0) {m : Map V} (h : Inv K m) (hs : ∀ e ∈ m, e.right - e.left ≤ K.hi) :
    Iterates K m := by
  obtain ⟨l, h1, h2, h3⟩ := visit_all h0 m h hs
  exact ⟨l, h1, h2, fun k v => (h3 k v).trans (at_iff h k v).symm⟩

variable [DecidableEq V]

/-- C130 for unsigned keys: after every history of calls, iteration visits each key of the map once, in increasing order, with the value that `at` gives. -/
theorem c130_unsigned (K : KeyType) (hK : K.lo = 0) (h : List (Int × Int × V)) (hr : InRange K h) (m : Map V)
    (hrun : run K [] h = .ok m) : Iterates K m := by
  have hm := inv_run h (inv_nil K) hr hrun
  refine iterates (by omega) hm ?_
  intro e he
  have := hm.lo e he; have := hm.hi e he
  omega

example : run byte [] sample = .ok [⟨14, 5, 1⟩, ⟨30, 15, 2⟩, ⟨99, 31, 3⟩, ⟨109, 100, 4⟩, ⟨255, 110, 3⟩] := by decide +kernel

example : visit byte 7 (Iter.begin [⟨5, 3, 1⟩, ⟨9, 8, 2⟩]) = .ok ([(3, 1), (4, 1), (5, 1), (8, 2), (9, 2)], Iter.end) := by
  decide +kernel

/-- C130 for all keys: as long as no more than `hi + 1` neighbouring keys have the same value, where `hi` is the greatest key. -/
theorem c130_iteration_partial (K : KeyType) (h0 : K.lo ≤ 0) (h : List (Int × Int × V)) (hr : InRange K h) (m : Map V)
    (hrun : run K [] h = .ok m)
    (hs : ∀ a b v, a ≤ b → (∀ k, a ≤ k → k ≤ b → at' m k = .ok v) → b - a ≤ K.hi) : Iterates K m := by
  have hm := inv_run h (inv_nil K) hr hrun
  refine iterates h0 hm ?_
  intro e he
  exact hs e.left e.right e.value (hm.ne e he) (fun k h1 h2 => (at_iff hm k e.value).2 ⟨e, he, h1, h2, rfl⟩)

/-- `signed char`. -/
def schar : KeyType := ⟨-128, 127, true⟩

/-- `int`. -/
def int32 : KeyType := ⟨-2147483648, 2147483647, false⟩

example : ∃ m, run int32 [] [(-5, 7, 1), (3, 10, 2)] = .ok m ∧
    visit int32 16 (Iter.begin m) = .ok ([(-5, 1), (-4, 1), (-3, 1), (-2, 1), (-1, 1), (0, 1), (1, 1), (2, 1), (3, 2), (4, 2), (5, 2), (6, 2), (7, 2), (8, 2), (9, 2),
      (10, 2)], Iter.end) := ⟨[⟨2, -5, 1⟩, ⟨10, 3, 2⟩], by decide +kernel, by decide +kernel⟩

omit [DecidableEq V] in
theorem visit_throw {K : KeyType} {it : Iter V} {n : Nat} {l : List (Int × V)} {it' : Iter V} (h : visit K n it = .ok (l, it'))
    (hl : l.length = n) {x : Int × V} (hd : it'.deref K = .ok x) (r : Res (Iter V)) (hn : it'.next K = r)
    (hne : it'.rest ≠ []) (hr : ∀ i, r ≠ .ok i) (k : Nat) (hk : n < k) : visit K k it = (r >>= fun _ => .ok ([], it)) := by
  obtain ⟨j, rfl⟩ : ∃ j, k = n + (j + 1) := ⟨k - n - 1, by omega⟩
  rw [visit_add K n (j + 1) it h hl]
  have : visit K (j + 1) it' = (r >>= fun _ => .ok ([], it)) := by
    unfold visit
    rw [if_neg (by intro h; exact hne (List.isEmpty_iff.1 h.1)), hd, Res.ok_bind, hn]
    cases r with
    | ok i => exact absurd rfl (hr i)
    | throw e => rfl
    | ub => rfl
  rw [this]
  cases r with
  | ok i => exact absurd rfl (hr i)
  | throw e => rfl
  | ub => rfl

theorem run_one {K : KeyType} {a b : Int} (v : V) (hab : a ≤ b) : run K [] [(a, b, v)] = .ok [⟨b, a, v⟩] := by
  have : assign K [] a b v = .ok [⟨b, a, v⟩] := by
    simp [assign, hab, cutA, lower, cutB, insertMerge, emplace, insertSorted, mergeLeft, mergeRight, prev, next]
  simp only [run, this]

/-- C130 is violated by signed keys narrower than `int`: if more than `hi + 1` neighbouring keys have the same value, iteration does not come to an end, it throws after the first
`hi + 1` keys; the last key, which the map contains, is not among them. -/
theorem c130_narrow_violated (K : KeyType) (hw : K.wraps = true) (hK : K.lo = -K.hi - 1) (a b : Int) (v : V) (ha : K.lo ≤ a)
    (hb : b ≤ K.hi) (hl : K.hi < b - a) (hhi : 0 ≤ K.hi) :
    ∃ m l it, run K [] [(a, b, v)] = .ok m ∧ at' m b = .ok v ∧ visit K K.hi.toNat (Iter.begin m) = .ok (l, it) ∧
      it.deref K = .ok (a + K.hi, v) ∧ it.next K = .throw .runtime ∧ a + K.hi < b ∧ (∀ k w, (k, w) ∈ l → k < b) ∧
      ∀ n : Nat, K.hi < n → visit K n (Iter.begin m) = .throw .runtime := by
  have hN : (K.hi.toNat : Int) = K.hi := Int.toNat_of_nonneg hhi
  have hlen : toKey K (b - a) = .ok (b - a - (2 * K.hi + 2)) := by
    unfold toKey
    rw [if_neg (by omega), if_pos hw]
    have h2 : (b - a - K.lo) % (K.hi - K.lo + 1) = b - a - K.lo - (K.hi - K.lo + 1) := by
      rw [← Int.sub_emod_right, Int.emod_eq_of_lt (by omega) (by omega)]
    rw [h2]
    congr 1; omega
  have h1 := visit_inside (K := K) (⟨b, a, v⟩ : Entry V) [] ha hb _ hlen K.hi.toNat 0 (by omega) (by simp only []; omega) (by omega)
    (fun j h1 h2 => by omega)
  have hd : Iter.deref K (⟨[⟨b, a, v⟩], 0 + (K.hi.toNat : Int)⟩ : Iter V) = .ok (a + K.hi, v) := by
    have : a + (0 + (K.hi.toNat : Int)) = a + K.hi := by omega
    simp only [Iter.deref, this, toKey_in (K := K) (x := a + K.hi) (by omega) (by omega)]
  have hn : Iter.next K (⟨[⟨b, a, v⟩], 0 + (K.hi.toNat : Int)⟩ : Iter V) = .throw .runtime := by
    have h2 : 0 + (K.hi.toNat : Int) ≠ b - a - (2 * K.hi + 2) := by omega
    have h3 : ¬ 0 + (K.hi.toNat : Int) < K.hi := by omega
    simp only [Iter.next, hlen, if_neg h2, nextKey, if_neg h3, if_pos hw]
  have hm := inv_run [(a, b, v)] (inv_nil K) (fun x hx => by cases List.mem_singleton.1 hx; exact ⟨ha, hb⟩)
    (run_one (K := K) v (show a ≤ b by omega))
  refine ⟨[⟨b, a, v⟩], _, _, run_one v (by omega), ?_, h1, hd, hn, by omega, ?_, ?_⟩
  · exact (at_iff hm b v).2 ⟨_, List.mem_cons_self, by simp only []; omega, Int.le_refl _, rfl⟩
  · intro k w hk
    have := (mem_runFrom.1 hk).2.1
    simp only [] at this
    omega
  · intro n hnn
    exact visit_throw h1 (runFrom_length _ _ _) hd _ hn (by simp) (by simp) n (by omega)

example : schar.lo = -schar.hi - 1 ∧ schar.hi < (100 : Int) - (-100) := by decide

/-- C130 is violated by `int` and wider signed keys: if more than `hi + 1` neighbouring keys have the same value, the first step of the iteration is undefined (the difference of the
ends of the interval overflows). -/
theorem c130_wide_violated (K : KeyType) (hw : K.wraps = false) (a b : Int) (v : V) (ha : K.lo ≤ a)
    (hb : b ≤ K.hi) (hl : K.hi < b - a) (hhi : 0 ≤ K.hi) :
    ∃ m, run K [] [(a, b, v)] = .ok m ∧ (∀ k, a ≤ k → k ≤ b → at' m k = .ok v) ∧
      ∀ n : Nat, 0 < n → visit K n (Iter.begin m) = .ub := by
  have hm := inv_run [(a, b, v)] (inv_nil K) (fun x hx => by cases List.mem_singleton.1 hx; exact ⟨ha, hb⟩)
    (run_one (K := K) v (show a ≤ b by omega))
  have hd : Iter.deref K (⟨[⟨b, a, v⟩], 0⟩ : Iter V) = .ok (a, v) := by
    simp only [Iter.deref, Int.add_zero, toKey_in (K := K) (x := a) ha (by omega)]
  have hn : Iter.next K (⟨[⟨b, a, v⟩], 0⟩ : Iter V) = .ub := by
    have : toKey K (b - a) = .ub := by
      unfold toKey
      rw [if_neg (by omega), if_neg (by simp [hw])]
    simp only [Iter.next, this]
  refine ⟨[⟨b, a, v⟩], run_one v (by omega), ?_, ?_⟩
  · intro k h1 h2
    exact (at_iff hm k v).2 ⟨_, List.mem_cons_self, h1, h2, rfl⟩
  · intro n h
    exact visit_throw (n := 0) (l := []) (it := Iter.begin [⟨b, a, v⟩]) rfl rfl hd _ hn (by simp [Iter.begin]) (by simp) n h

example : int32.lo ≤ -2000000000 ∧ (2000000000 : Int) ≤ int32.hi ∧ int32.hi < 2000000000 - (-2000000000) := by decide

/-- C130 is violated by the iteration from the back: already the last element of a map throws. -/
theorem c130_reverse_violated (K : KeyType) (a b : Int) (v : V) (hab : a ≤ b) :
    ∃ m, run K [] [(a, b, v)] = .ok m ∧ m ≠ [] ∧ rfirst K m = .throw .runtime := ⟨_, run_one v hab, by simp, rfl⟩

end Verif.IntervalMap
