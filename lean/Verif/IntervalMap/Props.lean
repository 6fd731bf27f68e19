import Verif.IntervalMap.Lemmas

/-! # Interval maps (C51) -/

namespace Verif.IntervalMap

variable {V : Type} [DecidableEq V]

/-- The map holds the function. -/
def Holds (m : Map V) (f : Int → Option V) : Prop :=
  ∀ k, contains m k = (f k).isSome ∧
    at' m k = match f k with
      | some v => .ok v
      | none => .throw .outOfRange

omit [DecidableEq V] in
theorem holds_of_cov {K : KeyType} {m : Map V} (h : Inv K m) {f : Int → Option V} (hf : ∀ k v, Cov m k v ↔ f k = some v) :
    Holds m f := by
  intro k
  cases hk : f k with
  | none =>
    have hn : ∀ v, ¬ Cov m k v := fun v hv => by rw [hf, hk] at hv; cases hv
    have := (at_throw h k).2 hn
    refine ⟨?_, this⟩
    cases hc : contains m k with
    | false => rfl
    | true =>
      obtain ⟨v, hv⟩ := (contains_iff m k).1 hc
      rw [this] at hv; cases hv
  | some v =>
    have := (at_iff h k v).2 ((hf k v).2 hk)
    exact ⟨(contains_iff m k).2 ⟨v, this⟩, this⟩

omit [DecidableEq V] in
theorem cov_of_holds {K : KeyType} {m : Map V} (h : Inv K m) {f : Int → Option V} (hf : Holds m f) (k : Int) (v : V) :
    Cov m k v ↔ f k = some v := by
  rw [← at_iff h, (hf k).2]
  cases f k with
  | none => simp
  | some w => simp

/-- All calls of a history have arguments of the key type. -/
def InRange (K : KeyType) (h : List (Int × Int × V)) : Prop := ∀ x ∈ h, K.lo ≤ x.1 ∧ x.2.1 ≤ K.hi

/-- What the map holds. -/
def look (m : Map V) (k : Int) : Option V :=
  match at' m k with
  | .ok v => some v
  | _ => none

omit [DecidableEq V] in
theorem look_iff {C : Prop} {K : KeyType} {m : Map V} (h : InvC C K m) (k : Int) (v : V) : Cov m k v ↔ look m k = some v := by
  rw [← at_iff h, look]
  cases at' m k with
  | ok w => simp
  | throw e => simp
  | ub => simp

omit [DecidableEq V] in
theorem none_iff {m : Map V} {f : Int → Option V} (hf : ∀ k v, Cov m k v ↔ f k = some v) (k : Int) :
    (∀ w, ¬ Cov m k w) ↔ f k = none := by
  constructor
  · intro hj
    cases hfj : f k with
    | none => rfl
    | some w => exact absurd ((hf k w).2 hfj) (hj w)
  · intro h w hw
    rw [hf, h] at hw; cases hw

omit [DecidableEq V] in
theorem gap_iff {m : Map V} {f : Int → Option V} (hf : ∀ k v, Cov m k v ↔ f k = some v) (a b : Int) (v : V) (k : Int) :
    GapKey m a b v k ↔ InGap f a b v k := by
  simp only [GapKey, InGap, none_iff hf]
  simp only [hf]

omit [DecidableEq V] in
/-- `TopOk` in terms of the intervals. -/
theorem top_iff {K : KeyType} {m : Map V} (h : Inv K m) {f : Int → Option V} (hf : ∀ k v, Cov m k v ↔ f k = some v)
    (a b : Int) : TopOk K.hi f a b ↔ (b = K.hi → ∀ e ∈ m, e.right = K.hi → e.left < a) := by
  constructor
  · intro ht hb e he her
    rcases ht hb with h1 | ⟨w, h1⟩
    · have hc := (hf K.hi e.value).1 ⟨e, he, by have := h.ne e he; omega, by omega, rfl⟩
      rw [h1] at hc; cases hc
    · cases Int.decLt e.left a with
      | isTrue hlt => exact hlt
      | isFalse hlt =>
        have hne := h.ne e he
        obtain ⟨e', he', hl', hr', hv'⟩ := (hf (e.left - 1) w).2 (h1 _ (by omega) (by omega))
        have h2 := (hf e.left w).2 (h1 _ (by omega) (by omega))
        have h3 := cov_unique h h2 ⟨e, he, by omega, by omega, rfl⟩
        have h4 := h.hi e' he'
        have h5 : e'.right < e.left := by
          rcases Int.lt_or_eq_of_le h4 with h6 | h6
          · exact h.disj e' he' e he (by omega)
          · rw [sorted_eq h.sorted he' he (by omega)] at hl'; omega
        exact absurd (hv'.trans h3) (h.canon trivial e' he' e he (by omega))
  · intro ht hb
    cases hk : f K.hi with
    | none => exact .inl rfl
    | some w =>
      right
      obtain ⟨e, he, hl, hr, hv⟩ := (hf K.hi w).2 hk
      have h1 := h.hi e he
      have h2 := ht hb e he (by omega)
      exact ⟨w, fun j hj1 hj2 => (hf j w).1 ⟨e, he, by omega, by omega, hv⟩⟩

theorem run_ok {K : KeyType} (h : List (Int × Int × V)) {m : Map V} (hm : Inv K m) {f : Int → Option V}
    (hf : ∀ k v, Cov m k v ↔ f k = some v) (hr : InRange K h) (hg : NoGaps f h) (ht : TopsOk K.hi f h) :
    ∃ m', run K m h = .ok m' ∧ Inv K m' ∧ ∀ k v, Cov m' k v ↔ putAll f h k = some v := by
  induction h generalizing m f with
  | nil => exact ⟨m, rfl, hm, hf⟩
  | cons x h ih =>
    obtain ⟨a, b, v⟩ := x
    have hr1 := hr (a, b, v) List.mem_cons_self
    simp only [] at hr1
    have hr2 : InRange K h := fun y hy => hr y (List.mem_cons_of_mem _ hy)
    by_cases hab : a ≤ b
    · obtain ⟨m1, h1, h2, h3⟩ := assign_spec hm hr1.1 hab hr1.2 ((top_iff hm hf a b).1 (ht.1 hab)) v
      have hgap : ∀ k, ¬ GapKey m a b v k := by
        intro k hk
        rw [gap_iff hf] at hk
        obtain ⟨_, hk'⟩ := hk
        obtain ⟨hl, hrt⟩ := hg.1 hab
        rcases hk' with ⟨hka, p, hpk, hpv, he⟩ | ⟨hkb, p, hpk, hpv, he⟩
        · have := hl p (by omega) hpv he; omega
        · have := hrt p (by omega) hpv he; omega
      have hf1 : ∀ k w, Cov m1 k w ↔ put f a b v k = some w := by
        intro k w
        rw [h3, put]
        by_cases hin : a ≤ k ∧ k ≤ b
        · rw [if_pos hin]
          constructor
          · rintro (⟨_, rfl⟩ | ⟨h4, _⟩ | ⟨_, h4⟩)
            · rfl
            · exact absurd hin h4
            · exact absurd h4 (hgap k)
          · intro h4; exact .inl ⟨hin, (Option.some.inj h4).symm⟩
        · rw [if_neg hin, ← hf]
          constructor
          · rintro (⟨h4, _⟩ | ⟨_, h4⟩ | ⟨_, h4⟩)
            · exact absurd h4 hin
            · exact h4
            · exact absurd h4 (hgap k)
          · intro h4; exact .inr (.inl ⟨hin, h4⟩)
      obtain ⟨m', h4, h5, h6⟩ := ih h2 hf1 hr2 hg.2 ht.2
      refine ⟨m', ?_, h5, h6⟩
      simp only [run, h1, h4]
    · have hput : put f a b v = f := by
        funext k
        rw [put, if_neg (by omega)]
      obtain ⟨m', h4, h5, h6⟩ := ih hm (f := f) hf hr2 (by have := hg.2; rwa [hput] at this) (by have := ht.2; rwa [hput] at this)
      refine ⟨m', ?_, h5, ?_⟩
      · simp only [run, assign, hab, if_false, h4]
      · intro k w
        rw [h6, putAll, hput]

/-- C51, partial: after every history of calls the map holds the function that the calls describe: it contains a key exactly
when the key was in some interval, and `at` gives the value of the latest of these intervals.  What is missing: histories in
which an interval is assigned a value that its neighbour has, with a gap between them; and histories that assign the greatest
key over an interval that begins at `a` or behind it.  See below. -/
theorem c51_function_partial (K : KeyType) (h : List (Int × Int × V)) (hr : InRange K h)
    (hg : NoGaps (fun _ => none) h) (ht : TopsOk K.hi (fun _ => none) h) :
    ∃ m, run K [] h = .ok m ∧ Holds m (putAll (fun _ => none) h) := by
  obtain ⟨m, h1, h2, h3⟩ := run_ok h (inv_nil K) (f := fun _ => none)
    (fun k v => by simp [Cov]) hr hg ht
  exact ⟨m, h1, holds_of_cov h2 h3⟩

def byte : KeyType := ⟨0, 255, true⟩

def sample : List (Int × Int × Nat) := [(10, 20, 1), (15, 30, 2), (5, 9, 1), (31, 255, 3), (100, 255, 4), (110, 255, 3)]

theorem sample_gaps : NoGaps (fun _ => none) sample := by
  simp only [sample, NoGaps, NoGap, and_true]
  refine ⟨?_, ?_, ?_, ?_, ?_, ?_⟩ <;> intro _ <;> refine ⟨?_, ?_⟩ <;> intro p hp hv he
  · simp at hv
  · simp at hv
  · simp [put] at hv
  · simp [put] at hv
  · simp only [put] at hv; (repeat' split at hv) <;> simp at hv
    omega
  · have h1 := he 10
    simp only [put] at h1 hv
    split at hv
    · simp at hv
    · split at hv
      · by_cases hp' : p = 10
        · omega
        · have := h1 (by omega) (by omega); simp at this
      · simp at hv
  · simp only [put] at hv; (repeat' split at hv) <;> simp at hv
  · simp only [put] at hv; (repeat' split at hv) <;> simp at hv
  · simp only [put] at hv; (repeat' split at hv) <;> simp at hv
  · simp only [put] at hv; (repeat' split at hv) <;> simp at hv
  · have h1 := he 109
    simp only [put] at h1 hv
    by_cases hp' : p < 109
    · have := h1 (by omega) (by omega); simp at this
    · omega
  · simp only [put] at hv; (repeat' split at hv) <;> simp at hv
    omega

theorem sample_tops : TopsOk byte.hi (fun _ => none) sample := by
  simp only [sample, TopsOk, TopOk, byte, and_true]
  refine ⟨?_, ?_, ?_, ?_, ?_, ?_⟩ <;> intro _ hb
  · omega
  · omega
  · omega
  · left; simp [put]
  · right
    refine ⟨3, ?_⟩
    intro j h1 h2
    simp only [put]; rw [if_pos (by omega)]
  · right
    refine ⟨4, ?_⟩
    intro j h1 h2
    simp only [put]; rw [if_pos (by omega)]

example : InRange byte sample := by simp [InRange, sample, byte]
example : run byte [] sample = .ok [⟨14, 5, 1⟩, ⟨30, 15, 2⟩, ⟨99, 31, 3⟩, ⟨109, 100, 4⟩, ⟨255, 110, 3⟩] := by decide +kernel

/-- C51, partial: no gaps matter if every call has a value of its own. -/
theorem c51_distinct_values_partial (K : KeyType) (h : List (Int × Int × V)) (hr : InRange K h)
    (hd : (h.map (fun x => x.2.2)).Nodup) (ht : TopsOk K.hi (fun _ => none) h) :
    ∃ m, run K [] h = .ok m ∧ Holds m (putAll (fun _ => none) h) := by
  refine c51_function_partial K h hr ?_ ht
  have key : ∀ (h : List (Int × Int × V)) (f : Int → Option V), (h.map (fun x => x.2.2)).Nodup →
      (∀ x ∈ h, ∀ k, f k ≠ some x.2.2) → NoGaps f h := by
    intro h
    induction h with
    | nil => intro _ _ _; trivial
    | cons x h ih =>
      obtain ⟨a, b, v⟩ := x
      intro f hd hf
      simp only [List.map_cons, List.nodup_cons] at hd
      refine ⟨fun _ => ⟨?_, ?_⟩, ih _ hd.2 ?_⟩
      · intro p _ hp; exact absurd hp (hf (a, b, v) List.mem_cons_self p)
      · intro p _ hp; exact absurd hp (hf (a, b, v) List.mem_cons_self p)
      · intro y hy k
        rw [put]
        split
        · intro he
          have he := Option.some.inj he
          exact hd.1 (List.mem_map.2 ⟨y, hy, he.symm⟩)
        · exact hf y (List.mem_cons_of_mem _ hy) k
  exact key h _ hd (fun x _ k => by simp)

def sample2 : List (Int × Int × Nat) := [(10, 20, 1), (15, 30, 2), (17, 18, 3), (5, 9, 4), (40, 50, 5), (12, 45, 6)]

example : (sample2.map (fun x => x.2.2)).Nodup := by decide
example : TopsOk byte.hi (fun _ => none) sample2 := by simp [sample2, TopsOk, TopOk, byte]
example : run byte [] sample2 = .ok [⟨9, 5, 4⟩, ⟨11, 10, 1⟩, ⟨45, 12, 6⟩, ⟨50, 46, 5⟩] := by decide +kernel

/-- Every map that a history leaves is valid. -/
theorem inv_run {K : KeyType} (h : List (Int × Int × V)) {m m' : Map V} (hm : Inv K m) (hr : InRange K h)
    (hrun : run K m h = .ok m') : Inv K m' := by
  induction h generalizing m with
  | nil => cases hrun; exact hm
  | cons x h ih =>
    obtain ⟨a, b, v⟩ := x
    have hr1 := hr (a, b, v) List.mem_cons_self
    simp only [] at hr1
    have hr2 : InRange K h := fun y hy => hr y (List.mem_cons_of_mem _ hy)
    by_cases hab : a ≤ b
    · by_cases ht : b = K.hi → ∀ e ∈ m, e.right = K.hi → e.left < a
      · obtain ⟨m1, h1, h2, _⟩ := assign_spec hm hr1.1 hab hr1.2 ht v
        simp only [run, h1] at hrun
        exact ih h2 hr2 hrun
      · have ht' : ∃ e ∈ m, b = K.hi ∧ e.right = K.hi ∧ a ≤ e.left := by
          refine Classical.byContradiction fun hc => ht ?_
          intro hb e he her
          cases Int.decLt e.left a with
          | isTrue h1 => exact h1
          | isFalse h1 => exact absurd ⟨e, he, hb, her, by omega⟩ hc
        obtain ⟨e, he, rfl, her, hel⟩ := ht'
        have := assign_top hm hab he her hel v
        cases hw : K.wraps with
        | true =>
          obtain ⟨m1, h1⟩ := this.1 hw
          simp only [run, h1] at hrun; cases hrun
        | false => simp only [run, this.2 hw] at hrun; cases hrun
    · simp only [run, assign, hab, if_false] at hrun
      exact ih hm hr2 hrun

/-- C51: exactly what a call does, in every map that can arise.  If `TopOk`, the call succeeds, the keys `a … b` get the
value, the keys in a gap towards a neighbour with the same value get it too, and all other keys are as before.  Otherwise the
call throws (or is undefined, for `int` and wider signed keys). -/
theorem c51_step (K : KeyType) (h : List (Int × Int × V)) (hr : InRange K h) (m : Map V) (hrun : run K [] h = .ok m)
    (a b : Int) (v : V) (ha : K.lo ≤ a) (hab : a ≤ b) (hb : b ≤ K.hi) :
    (TopOk K.hi (look m) a b → ∃ m', assign K m a b v = .ok m' ∧ ∀ k w, look m' k = some w ↔
      ((a ≤ k ∧ k ≤ b) ∧ w = v) ∨ (¬ (a ≤ k ∧ k ≤ b) ∧ look m k = some w) ∨ (w = v ∧ InGap (look m) a b v k)) ∧
    (¬ TopOk K.hi (look m) a b → (K.wraps = true → ∃ m', assign K m a b v = .throw m' .runtime) ∧
      (K.wraps = false → assign K m a b v = .ub)) := by
  have hm := inv_run h (inv_nil K) hr hrun
  have hf := look_iff hm
  rw [top_iff hm hf a b]
  constructor
  · intro ht
    obtain ⟨m', h1, h2, h3⟩ := assign_spec hm ha hab hb ht v
    refine ⟨m', h1, ?_⟩
    intro k w
    rw [← look_iff h2, h3, gap_iff hf, hf]
  · intro ht
    have ht' : ∃ e ∈ m, b = K.hi ∧ e.right = K.hi ∧ a ≤ e.left := by
      refine Classical.byContradiction fun hc => ht ?_
      intro hb e he her
      cases Int.decLt e.left a with
      | isTrue h1 => exact h1
      | isFalse h1 => exact absurd ⟨e, he, hb, her, by omega⟩ hc
    obtain ⟨e, he, rfl, her, hel⟩ := ht'
    exact assign_top hm hab he her hel v

example : ∃ m, run byte [] [(1, 2, 7), (5, 6, 7), (10, 255, 8)] = .ok m ∧ look m 3 = some 7 ∧ look m 8 = none := ⟨_, rfl, rfl, rfl⟩

/-- C51 is violated: two intervals with the same value and a gap between them become one, the keys in the gap, that were
never assigned, are in the map. -/
theorem c51_gap_violated (K : KeyType) (a b c d : Int) (v : V) (ha : K.lo ≤ a) (hab : a ≤ b) (hbc : b + 1 < c) (hcd : c ≤ d)
    (hd : d < K.hi) : ∃ m, run K [] [(a, b, v), (c, d, v)] = .ok m ∧
      (∀ k, b < k → k < c → putAll (fun _ => none) [(a, b, v), (c, d, v)] k = none ∧ contains m k = true ∧ at' m k = .ok v) := by
  obtain ⟨m1, h1, h2, h3⟩ := assign_spec (inv_nil K) ha hab (by omega) (fun h => by omega) v
  have h3' : ∀ k w, Cov m1 k w ↔ (a ≤ k ∧ k ≤ b) ∧ w = v := by
    intro k w
    rw [h3]
    constructor
    · rintro (h4 | ⟨_, h4⟩ | ⟨_, _, h4⟩)
      · exact h4
      · simp [Cov] at h4
      · simp [Cov] at h4
    · exact .inl
  obtain ⟨m2, h4, h5, h6⟩ := assign_spec h2 (a := c) (b := d) (by omega) hcd (by omega) (fun h => by omega) v
  refine ⟨m2, by simp only [run, h1, h4], ?_⟩
  intro k hk1 hk2
  have hat : at' m2 k = .ok v := by
    rw [at_iff h5, h6]
    refine .inr (.inr ⟨rfl, ?_, .inl ⟨hk2, b, hk1, (h3' b v).2 ⟨by omega, rfl⟩, ?_⟩⟩)
    · intro w hw; have := (h3' k w).1 hw; omega
    · intro j hj1 hj2 w hw; have := (h3' j w).1 hw; omega
  refine ⟨?_, (contains_iff m2 k).2 ⟨v, hat⟩, hat⟩
  simp only [putAll, put]
  rw [if_neg (by omega), if_neg (by omega)]

/-- C51 is violated: assigning the greatest key throws (or is undefined), if it is in the map with an interval that begins
at `a` or behind it; for example when the same call is made twice. -/
theorem c51_top_violated (K : KeyType) (a c : Int) (v w : V) (ha : K.lo ≤ a) (hca : c ≤ a) (hab : a ≤ K.hi) :
    (K.wraps = true → ∃ m, run K [] [(a, K.hi, v), (c, K.hi, w)] = .throw m .runtime) ∧
    (K.wraps = false → run K [] [(a, K.hi, v), (c, K.hi, w)] = .ub) := by
  have h1 : assign K [] a K.hi v = .ok [⟨K.hi, a, v⟩] := by
    simp [assign, hab, cutA, lower, cutB, insertMerge, emplace, insertSorted, mergeLeft, mergeRight, prev, next]
  have hi1 : Inv K [(⟨K.hi, a, v⟩ : Entry V)] := by
    refine ⟨List.pairwise_singleton _ _, ?_, ?_, ?_, ?_, fun _ => ?_⟩ <;> intro e he <;> cases List.mem_singleton.1 he
    · exact hab
    · intro e' he'; cases List.mem_singleton.1 he'; intro h; simp at h
    · exact ha
    · exact Int.le_refl _
    · intro e' he'; cases List.mem_singleton.1 he'; intro h; simp only [] at h; omega
  have := assign_top hi1 (a := c) (by omega) List.mem_cons_self rfl hca w
  constructor
  · intro hw
    obtain ⟨m, hm⟩ := this.1 hw
    exact ⟨m, by simp only [run, h1, hm]⟩
  · intro hw
    simp only [run, h1, this.2 hw]

/-- C51 is violated: the call that throws has removed keys from the map. -/
theorem c51_throw_removes_violated : ∃ m m', run byte [] [(0, 5, 1), (6, 255, 2)] = .ok m ∧ look m 4 = some 1 ∧
    assign byte m 3 255 9 = .throw m' .runtime ∧ look m' 4 = none := ⟨_, _, rfl, rfl, rfl, rfl⟩

end Verif.IntervalMap
