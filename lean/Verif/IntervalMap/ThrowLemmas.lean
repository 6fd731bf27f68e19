import Verif.IntervalMap.Props
import Verif.IntervalMap.ThrowModel
import Verif.IntervalMap.ThrowSpec

/-! # Lemmas -/

namespace Verif.IntervalMap

variable {V : Type}

theorem guarded_cases (F : Faults) (p : Point) (m : Map V) (k : Out V) :
    (F p = none ∧ guarded F p m k = k) ∨ ∃ x, F p = some x ∧ guarded F p m k = .throw m x := by
  unfold guarded
  cases F p with
  | none => exact .inl ⟨rfl, rfl⟩
  | some x => exact .inr ⟨x, rfl, rfl⟩

/-! ## Where the calls end -/

theorem mergeX_cases [DecidableEq V] (F : Faults) (m : Map V) (a b : Int) (v : V) :
    mergeX F m a b v = .ok (mergeRight (mergeLeft m a b v).1 (mergeLeft m a b v).2 b v) ∨
    (∃ x, F .eqLeft = some x ∧ mergeX F m a b v = .throw m x) ∨
    (∃ x, F .eqRight = some x ∧ mergeX F m a b v = .throw (mergeLeft m a b v).1 x) := by
  have hR : ∀ (m' : Map V) (l : Int), mergeRightX F m' l b v = .ok (mergeRight m' l b v) ∨
      ∃ x, F .eqRight = some x ∧ mergeRightX F m' l b v = .throw m' x := by
    intro m' l
    unfold mergeRightX mergeRight
    cases next m' b with
    | none => exact .inl rfl
    | some n =>
      show guarded F .eqRight m' _ = .ok (if _ then _ else _) ∨ _
      rcases guarded_cases F .eqRight m' (if n.value = v then .ok (erase (setLeft m' n.right l) b) else .ok m') with
        ⟨_, h⟩ | h
      · left; rw [h]; split <;> rfl
      · exact .inr h
  unfold mergeX mergeLeft
  cases prev m b with
  | none =>
    rcases hR m a with h | h
    · exact .inl h
    · exact .inr (.inr h)
  | some p =>
    simp only []
    rcases guarded_cases F .eqLeft m
      (if p.value = v then mergeRightX F (erase (setLeft m b p.left) p.right) p.left b v else mergeRightX F m a b v) with
      ⟨_, h⟩ | h
    · rw [h]
      split
      · rcases hR (erase (setLeft m b p.left) p.right) p.left with h | h
        · exact .inl h
        · exact .inr (.inr h)
      · rcases hR m a with h | h
        · exact .inl h
        · exact .inr (.inr h)
    · exact .inr (.inl h)

theorem insertMergeX_cases [DecidableEq V] (F : Faults) (m : Map V) (a b : Int) (v : V) :
    insertMergeX F m a b v = insertMerge m a b v ∨
    (∃ x, (F .copy = some x ∨ F .node = some x) ∧ insertMergeX F m a b v = .throw m x) ∨
    ∃ m1, emplace m ⟨b, a, v⟩ = some m1 ∧
      ((∃ x, F .eqLeft = some x ∧ insertMergeX F m a b v = .throw m1 x) ∨
       (∃ x, F .eqRight = some x ∧ insertMergeX F m a b v = .throw (mergeLeft m1 a b v).1 x)) := by
  unfold insertMergeX insertMerge guarded
  cases hc : F .copy with
  | some x => exact .inr (.inl ⟨x, .inl rfl, rfl⟩)
  | none =>
    cases hn : F .node with
    | some x => exact .inr (.inl ⟨x, .inr rfl, rfl⟩)
    | none =>
      cases emplace m ⟨b, a, v⟩ with
      | none => exact .inl rfl
      | some m1 =>
        rcases mergeX_cases F m1 a b v with h | h | h
        · exact .inl h
        · exact .inr (.inr ⟨m1, rfl, .inl h⟩)
        · exact .inr (.inr ⟨m1, rfl, .inr h⟩)

theorem cutAX_cases (K : KeyType) (F : Faults) (m : Map V) (a b : Int) (k : Map V → Option (Entry V) → Out V) :
    cutAX K F m a b k = cutA K m a b k ∨
    ∃ e, lower m a = some e ∧ e.left < a ∧
      ((∃ x, F .head = some x ∧ cutAX K F m a b k = .throw (erase m e.right) x) ∨
       ∃ r m2, previousKey K a = .ok r ∧ emplace (erase m e.right) ⟨r, e.left, e.value⟩ = some m2 ∧ b < e.right ∧
        ∃ x, (F .tailCopy = some x ∨ F .tailNode = some x) ∧ cutAX K F m a b k = .throw m2 x) := by
  unfold cutAX cutA
  cases lower m a with
  | none => exact .inl rfl
  | some e =>
    simp only []
    by_cases hl : e.left < a
    · simp only [hl, if_true]
      cases hp : previousKey K a with
      | throw x => exact .inl rfl
      | ub => exact .inl rfl
      | ok r =>
        simp only []
        unfold guarded
        cases hh : F .head with
        | some x => exact .inr ⟨e, rfl, hl, .inl ⟨x, rfl, rfl⟩⟩
        | none =>
          simp only []
          cases he : emplace (erase m e.right) ⟨r, e.left, e.value⟩ with
          | none => exact .inl rfl
          | some m2 =>
            simp only []
            by_cases hb : b < e.right
            · simp only [hb, if_true]
              cases hn : nextKey K b with
              | throw x => exact .inl rfl
              | ub => exact .inl rfl
              | ok l =>
                simp only []
                cases hc : F .tailCopy with
                | some x => exact .inr ⟨e, rfl, hl, .inr ⟨r, m2, rfl, he, hb, x, .inl rfl, rfl⟩⟩
                | none =>
                  cases ht : F .tailNode with
                  | some x => exact .inr ⟨e, rfl, hl, .inr ⟨r, m2, rfl, he, hb, x, .inr rfl, rfl⟩⟩
                  | none => exact .inl rfl
            · simp only [hb, if_false]
              exact .inl trivial
    · simp only [hl, if_false]
      exact .inl trivial

/-! ## What they leave -/

/-- A map with some of the intervals. -/
theorem inv_sub {C : Prop} {K : KeyType} {m m' : Map V} (h : InvC C K m) (hs : Sorted m') (hsub : ∀ x ∈ m', x ∈ m) :
    InvC C K m' :=
  ⟨hs, fun x hx => h.ne x (hsub x hx), fun x hx y hy => h.disj x (hsub x hx) y (hsub y hy),
    fun x hx => h.lo x (hsub x hx), fun x hx => h.hi x (hsub x hx),
    fun hC x hx y hy => h.canon hC x (hsub x hx) y (hsub y hy)⟩

theorem InvC.weak {C : Prop} {K : KeyType} {m : Map V} (h : InvC C K m) : InvC False K m :=
  ⟨h.sorted, h.ne, h.disj, h.lo, h.hi, fun hC => hC.elim⟩

/-- `look` when some keys are taken out. -/
theorem look_out {K : KeyType} {m m' : Map V} (h : InvC False K m) (h' : InvC False K m') {D : Int → Prop}
    (hc : ∀ k w, Cov m' k w ↔ (Cov m k w ∧ ¬ D k)) (k : Int) :
    (¬ D k → look m' k = look m k) ∧ (D k → look m' k = none) := by
  constructor
  · intro hd
    cases hk : look m k with
    | some w => rw [← look_iff h', hc, look_iff h]; exact ⟨hk, hd⟩
    | none =>
      cases hk' : look m' k with
      | none => rfl
      | some w => rw [← look_iff h', hc, look_iff h, hk] at hk'; exact absurd hk'.1 (by simp)
  · intro hd
    cases hk' : look m' k with
    | none => rfl
    | some w => rw [← look_iff h', hc] at hk'; exact absurd hd hk'.2

theorem lost_of_out {K : KeyType} {m m' : Map V} (h : InvC False K m) (h' : InvC False K m') {a b : Int} {D : Int → Prop}
    (hc : ∀ k w, Cov m' k w ↔ (Cov m k w ∧ ¬ D k))
    (hD : ∀ k, D k → (a ≤ k ∧ k ≤ b) ∨ Together (look m) a k) : Lost (look m) a b (look m') := by
  intro k
  have := look_out h h' hc k
  by_cases hd : D k
  · exact .inr ⟨this.2 hd, hD k hd⟩
  · exact .inl (this.1 hd)

/-- The keys of an interval are together. -/
theorem together_of_mem {K : KeyType} {m : Map V} (h : InvC False K m) {e : Entry V} (he : e ∈ m) {a k : Int}
    (ha : e.left ≤ a ∧ a ≤ e.right) (hk : e.left ≤ k ∧ k ≤ e.right) : Together (look m) a k := by
  have h1 : ∀ j, e.left ≤ j → j ≤ e.right → look m j = some e.value := fun j h1 h2 =>
    (look_iff h j e.value).1 ⟨e, he, h1, h2, rfl⟩
  refine ⟨by rw [h1 a ha.1 ha.2]; simp, ?_⟩
  intro j hj
  rw [h1 a ha.1 ha.2, h1 j (by omega) (by omega)]

/-- The interval of `a` is taken out. -/
theorem erase_lost {K : KeyType} {m : Map V} (h : InvC False K m) {e : Entry V} (he : e ∈ m) {a : Int}
    (ha : e.left ≤ a ∧ a ≤ e.right) (b : Int) :
    InvC False K (erase m e.right) ∧ Lost (look m) a b (look (erase m e.right)) := by
  have hi := inv_sub h (sorted_erase h.sorted e.right) (fun x hx => (mem_erase.1 hx).1)
  refine ⟨hi, lost_of_out h hi (D := fun k => e.left ≤ k ∧ k ≤ e.right) ?_ (fun k hk => .inr (together_of_mem h he ha hk))⟩
  intro k w
  constructor
  · rintro ⟨x, hx, h1, h2, h3⟩
    obtain ⟨hx1, hx2⟩ := mem_erase.1 hx
    refine ⟨⟨x, hx1, h1, h2, h3⟩, ?_⟩
    intro hk
    rcases Int.lt_trichotomy x.right e.right with h4 | h4 | h4
    · have := h.disj x hx1 e he h4; omega
    · exact hx2 h4
    · have := h.disj e he x hx1 h4; omega
  · rintro ⟨⟨x, hx, h1, h2, h3⟩, hk⟩
    refine ⟨x, mem_erase.2 ⟨hx, ?_⟩, h1, h2, h3⟩
    intro hc
    have := sorted_eq h.sorted hx he hc
    subst this; omega

/-- The interval of `a` ends before `a`. -/
theorem trim_lost {K : KeyType} {m m2 : Map V} (h : InvC False K m) {e : Entry V} (he : e ∈ m) {a : Int}
    (ha : e.left < a ∧ a ≤ e.right) (b : Int) (hs2 : Sorted m2)
    (hmem2 : ∀ x, x ∈ m2 ↔ x = ⟨a - 1, e.left, e.value⟩ ∨ (x ∈ m ∧ x.right ≠ e.right)) :
    InvC False K m2 ∧ Lost (look m) a b (look m2) := by
  have hside : ∀ x ∈ m, x.right ≠ e.right → x.right < e.left ∨ e.right < x.left := by
    intro x hx hne
    rcases Int.lt_trichotomy x.right e.right with h4 | h4 | h4
    · exact .inl (h.disj x hx e he h4)
    · exact absurd h4 hne
    · exact .inr (h.disj e he x hx h4)
  have hi : InvC False K m2 := by
    refine ⟨hs2, ?_, ?_, ?_, ?_, fun hC => hC.elim⟩
    · intro x hx
      rcases (hmem2 x).1 hx with rfl | ⟨hx1, _⟩
      · show e.left ≤ a - 1; omega
      · exact h.ne x hx1
    · intro x hx y hy hxy
      rcases (hmem2 x).1 hx with rfl | ⟨hx1, hx2⟩ <;> rcases (hmem2 y).1 hy with rfl | ⟨hy1, hy2⟩ <;>
        try simp only [] at hxy ⊢
      · omega
      · have := hside y hy1 hy2
        have := h.ne y hy1; omega
      · exact h.disj x hx1 e he (by omega)
      · exact h.disj x hx1 y hy1 hxy
    · intro x hx
      rcases (hmem2 x).1 hx with rfl | ⟨hx1, _⟩
      · exact h.lo e he
      · exact h.lo x hx1
    · intro x hx
      rcases (hmem2 x).1 hx with rfl | ⟨hx1, _⟩
      · have := h.hi e he; show a - 1 ≤ K.hi; omega
      · exact h.hi x hx1
  refine ⟨hi, lost_of_out h hi (D := fun k => a ≤ k ∧ k ≤ e.right) ?_
    (fun k hk => .inr (together_of_mem h he (by omega) (by omega)))⟩
  intro k w
  constructor
  · rintro ⟨x, hx, h1, h2, h3⟩
    rcases (hmem2 x).1 hx with rfl | ⟨hx1, hx2⟩
    · simp only [] at h1 h2
      exact ⟨⟨e, he, h1, by omega, h3⟩, by omega⟩
    · have := hside x hx1 hx2
      exact ⟨⟨x, hx1, h1, h2, h3⟩, by omega⟩
  · rintro ⟨⟨x, hx, h1, h2, h3⟩, hk⟩
    by_cases hc : x.right = e.right
    · have := sorted_eq h.sorted hx he hc
      subst this
      exact ⟨⟨a - 1, x.left, x.value⟩, (hmem2 _).2 (.inl rfl), h1, by show k ≤ a - 1; omega, h3⟩
    · exact ⟨x, (hmem2 x).2 (.inr ⟨hx, hc⟩), h1, h2, h3⟩

/-- The node of the interval that ends before `a`. -/
theorem trim_emplace {K : KeyType} {m m2 : Map V} (h : InvC False K m) {e : Entry V} (he : e ∈ m) {a : Int}
    (ha : e.left < a ∧ a ≤ e.right) (hm2 : emplace (erase m e.right) ⟨a - 1, e.left, e.value⟩ = some m2) :
    Sorted m2 ∧ ∀ x, x ∈ m2 ↔ x = ⟨a - 1, e.left, e.value⟩ ∨ (x ∈ m ∧ x.right ≠ e.right) := by
  obtain ⟨m', hm', hs, hmem⟩ := emplace_some (sorted_erase h.sorted e.right) (x := ⟨a - 1, e.left, e.value⟩) (by
    intro x hx hxr
    have hx := mem_erase.1 hx
    simp only [] at hxr
    have := h.disj x hx.1 e he (by omega); omega)
  rw [hm2] at hm'
  cases hm'
  refine ⟨hs, fun x => ?_⟩
  rw [hmem, mem_erase]

/-- The key before `a`. -/
theorem previousKey_ok {K : KeyType} {m : Map V} (h : InvC False K m) {e : Entry V} (he : e ∈ m) {a : Int} (ha : e.left < a) :
    previousKey K a = .ok (a - 1) := by
  have := h.lo e he
  simp only [previousKey]; rw [if_pos (by omega)]

/-- The call fails if the greatest key is in an interval that does not begin before `a`; what it leaves. -/
theorem cut_top {K : KeyType} {m : Map V} (h : InvC False K m) {a : Int} (ha : a ≤ K.hi)
    {e : Entry V} (he : e ∈ m) (her : e.right = K.hi) (hel : a ≤ e.left) (k : Map V → Out V) :
    ∃ m', (cutA K m a K.hi fun m rb => cutB K m K.hi rb k) = (if K.wraps then .throw m' .runtime else .ub) ∧
      InvC False K m' ∧ Lost (look m) a K.hi (look m') := by
  unfold cutA
  cases hl : lower m a with
  | none =>
    rw [lower_none] at hl
    have := hl e he
    have := h.ne e he; omega
  | some e0 =>
    obtain ⟨h1, h2, h3⟩ := (lower_some h.sorted).1 hl
    show ∃ m', (if e0.left < a then _ else _) = _ ∧ _
    by_cases hlt : e0.left < a
    · rw [if_pos hlt]
      simp only [previousKey_ok h h1 hlt]
      have hne : e0.right < e.right := by
        have h4 := h3 e he (by have := h.ne e he; omega)
        rcases Int.lt_or_eq_of_le h4 with h5 | h5
        · exact h5
        · rw [sorted_eq h.sorted h1 he h5] at hlt; omega
      have hs1 := sorted_erase h.sorted e0.right
      obtain ⟨m2, hm2, _, _⟩ := emplace_some hs1 (x := ⟨a - 1, e0.left, e0.value⟩) (by
        intro x hx hxr
        have hx := mem_erase.1 hx
        simp only [] at hxr
        have := h.disj x hx.1 e0 h1 (by omega); omega)
      obtain ⟨hs2, hmem2⟩ := trim_emplace h h1 ⟨hlt, h2⟩ hm2
      simp only [hm2]
      rw [if_neg (show ¬ K.hi < e0.right by omega)]
      have he2 : e ∈ m2 := (hmem2 e).2 (.inr ⟨he, by omega⟩)
      obtain ⟨hi2, hl2⟩ := trim_lost h h1 ⟨hlt, h2⟩ K.hi hs2 hmem2
      cases hn : next m2 (a - 1) with
      | none =>
        rw [next_none] at hn
        have := hn e he2
        have := h.ne e he; omega
      | some rb => exact ⟨m2, cutB_top hi2 he2 her k, hi2, hl2⟩
    · rw [if_neg hlt]
      exact ⟨m, cutB_top h he her _, h, fun k => .inl rfl⟩

/-- Everything is in place but the merging is not complete. -/
theorem done_of_mem {K : KeyType} {m m1 m' : Map V} (h : InvC False K m) {a b L : Int} {v : V} (ha : K.lo ≤ a) (hab : a ≤ b)
    (hb : b ≤ K.hi) (hc : CutOk False K m a b m1) (hs : Sorted m') (hL : L = a ∨
      ∃ p ∈ m1, p.right < a ∧ (∀ x ∈ m1, x.right < a → x.right ≤ p.right) ∧ p.value = v ∧ L = p.left)
    (hmem : ∀ x, x ∈ m' ↔ x = ⟨b, L, v⟩ ∨ (x ∈ m1 ∧ (x.right < L ∨ b < x.left))) :
    InvC False K m' ∧ Done (look m) a b v (look m') := by
  obtain ⟨hi1, hout, hcov⟩ := hc
  have hLa : L ≤ a ∧ K.lo ≤ L := by
    rcases hL with rfl | ⟨p, hp1, hp2, _, _, rfl⟩
    · exact ⟨Int.le_refl _, ha⟩
    · have := hi1.ne p hp1
      exact ⟨by omega, hi1.lo p hp1⟩
  have hi : InvC False K m' := by
    refine ⟨hs, ?_, ?_, ?_, ?_, fun hC => hC.elim⟩
    · intro x hx
      rcases (hmem x).1 hx with rfl | ⟨hx1, _⟩
      · show L ≤ b; omega
      · exact hi1.ne x hx1
    · intro x hx y hy hxy
      rcases (hmem x).1 hx with rfl | ⟨hx1, hx2⟩ <;> rcases (hmem y).1 hy with rfl | ⟨hy1, hy2⟩ <;>
        try simp only [] at hxy ⊢
      · omega
      · have := hi1.ne y hy1; omega
      · have := hi1.ne x hx1; omega
      · exact hi1.disj x hx1 y hy1 hxy
    · intro x hx
      rcases (hmem x).1 hx with rfl | ⟨hx1, _⟩
      · exact hLa.2
      · exact hi1.lo x hx1
    · intro x hx
      rcases (hmem x).1 hx with rfl | ⟨hx1, _⟩
      · exact hb
      · exact hi1.hi x hx1
  refine ⟨hi, ?_⟩
  -- the gap on the left
  have hgap : ∀ k, L ≤ k → k < a → (∀ w, ¬ Cov m k w) → InGap (look m) a b v k := by
    intro k h1 h2 hno
    rcases hL with rfl | ⟨p, hp1, hp2, hp3, hpv, rfl⟩
    · omega
    · have hpk : p.right < k := by
        by_cases hc : k ≤ p.right
        · exact absurd ((hcov k p.value).1 ⟨p, hp1, h1, hc, rfl⟩).1 (hno _)
        · omega
      have hpn := hi1.ne p hp1
      refine ⟨(none_iff (look_iff h) k).1 hno, .inl ⟨h2, p.right, hpk, ?_, ?_⟩⟩
      · rw [← look_iff h]
        exact ((hcov p.right v).1 ⟨p, hp1, hpn, Int.le_refl _, hpv⟩).1
      · intro j hj1 hj2
        rw [← none_iff (look_iff h)]
        intro w hw
        obtain ⟨y, hy, hyl, hyr, _⟩ := (hcov j w).2 ⟨hw, by omega⟩
        have h3 := hout y hy
        have h4 := hp3 y hy (by omega)
        omega
  intro k
  by_cases hin : a ≤ k ∧ k ≤ b
  · left
    rw [put, if_pos hin, ← look_iff hi]
    exact ⟨⟨b, L, v⟩, (hmem _).2 (.inl rfl), by show L ≤ k; omega, hin.2, rfl⟩
  · rw [put, if_neg hin]
    cases hk : look m k with
    | some w =>
      left
      rw [← look_iff h] at hk
      obtain ⟨y, hy, hyl, hyr, rfl⟩ := (hcov k w).2 ⟨hk, hin⟩
      rw [← look_iff hi]
      by_cases hd : y.right < L ∨ b < y.left
      · exact ⟨y, (hmem y).2 (.inr ⟨hy, hd⟩), hyl, hyr, rfl⟩
      · have h3 := hout y hy
        rcases hL with rfl | ⟨p, hp1, hp2, hp3, hpv, rfl⟩
        · omega
        · have h5 := hp3 y hy (by omega)
          rcases Int.lt_or_eq_of_le h5 with h6 | h6
          · have := hi1.disj y hy p hp1 h6; omega
          · have := sorted_eq hi1.sorted hy hp1 h6
            subst this
            exact ⟨⟨b, y.left, v⟩, (hmem _).2 (.inl rfl), hyl, by show k ≤ b; omega, hpv.symm⟩
    | none =>
      have hno := (none_iff (look_iff h) k).2 hk
      cases hk' : look m' k with
      | none => exact .inl rfl
      | some w =>
        right
        rw [← look_iff hi] at hk'
        obtain ⟨x, hx, hl, hr, rfl⟩ := hk'
        rcases (hmem x).1 hx with rfl | ⟨hx1, _⟩
        · simp only [] at hl hr
          exact ⟨hgap k hl (by omega) hno, rfl⟩
        · exact absurd ((hcov k x.value).1 ⟨x, hx1, hl, hr, rfl⟩).1 (hno _)

/-- Nothing but the keys `a … b` is lost. -/
theorem cut_lost {K : KeyType} {m m1 : Map V} (h : InvC False K m) {a b : Int} (hc : CutOk False K m a b m1) :
    InvC False K m1 ∧ Lost (look m) a b (look m1) :=
  ⟨hc.1, lost_of_out h hc.1 hc.2.2 (fun _ hk => .inl hk)⟩

/-! ## One call -/

/-- What a call that returns has done. -/
def Returned (f : Int → Option V) (a b : Int) (v : V) (f' : Int → Option V) : Prop :=
  ∀ k w, f' k = some w ↔
    ((a ≤ k ∧ k ≤ b) ∧ w = v) ∨ (¬ (a ≤ k ∧ k ≤ b) ∧ f k = some w) ∨ (w = v ∧ InGap f a b v k)

theorem assignX_spec [DecidableEq V] {K : KeyType} {m : Map V} (h : InvC False K m) (F : Faults) {a b : Int} (ha : K.lo ≤ a)
    (hab : a ≤ b) (hb : b ≤ K.hi) (v : V) :
    (∀ m', assignX K F m a b v = .ok m' → InvC False K m' ∧ Returned (look m) a b v (look m')) ∧
    (∀ m' x, assignX K F m a b v = .throw m' x → InvC False K m' ∧
      ((Lost (look m) a b (look m') ∧ ((x = .runtime ∧ b = K.hi ∧ look m b ≠ none) ∨
          F .head = some x ∨ F .tailCopy = some x ∨ F .tailNode = some x ∨ F .copy = some x ∨ F .node = some x)) ∨
       (Done (look m) a b v (look m') ∧ (F .eqLeft = some x ∨ F .eqRight = some x)))) ∧
    (assignX K F m a b v = .ub → K.wraps = false ∧ b = K.hi ∧ look m b ≠ none) := by
  have hX : assignX K F m a b v = cutAX K F m a b fun m rb => cutB K m b rb fun m => insertMergeX F m a b v := by
    unfold assignX; rw [if_pos hab]
  rw [hX]
  rcases cutAX_cases K F m a b (fun m rb => cutB K m b rb fun m => insertMergeX F m a b v) with
    hA | ⟨e, he, hlt, ⟨x, hx, hA⟩ | ⟨r, m2, hr, hm2, hbr, x, hx, hA⟩⟩
  · rw [hA]
    by_cases ht : b = K.hi → ∀ e ∈ m, e.right = K.hi → e.left < a
    · obtain ⟨m1, h1, hc⟩ := cut_spec h ha hab hb ht (fun m => insertMergeX F m a b v)
      rw [h1]
      rcases insertMergeX_cases F m1 a b v with h2 | ⟨x, hx, h2⟩ | ⟨m2, hm2, h2⟩
      · obtain ⟨m', h3, h4, h5⟩ := merge_spec ha hab hb hc v
        rw [h2, h3]
        refine ⟨?_, nofun, nofun⟩
        intro m'' he
        cases he
        refine ⟨h4, ?_⟩
        intro k w
        rw [← look_iff h4, h5, gap_iff (look_iff h), look_iff h]
      · rw [h2]
        refine ⟨nofun, ?_, nofun⟩
        intro m' x' he
        cases he
        obtain ⟨h3, h4⟩ := cut_lost h hc
        refine ⟨h3, .inl ⟨h4, ?_⟩⟩
        rcases hx with hx | hx <;> simp [hx]
      · have hside : ∀ x ∈ m1, x.right ≠ b := by
          intro x hx
          have h3 := hc.2.1 x hx
          have h4 := hc.1.ne x hx
          omega
        obtain ⟨m2', hm2', hs2, hmem2⟩ := emplace_some hc.1.sorted (x := ⟨b, a, v⟩) hside
        rw [hm2] at hm2'
        cases hm2'
        rcases h2 with ⟨x, hx, h2⟩ | ⟨x, hx, h2⟩
        · rw [h2]
          refine ⟨nofun, ?_, nofun⟩
          intro m' x' he
          cases he
          obtain ⟨h3, h4⟩ := done_of_mem h ha hab hb hc hs2 (.inl rfl) (v := v) (by
            intro x
            rw [hmem2]
            constructor
            · rintro (h3 | h3)
              · exact .inl h3
              · exact .inr ⟨h3, hc.2.1 x h3⟩
            · rintro (h3 | ⟨h3, _⟩)
              · exact .inl h3
              · exact .inr h3)
          exact ⟨h3, .inr ⟨h4, .inl hx⟩⟩
        · obtain ⟨m3, L, h3, hs3, hL, _, _, hmem3⟩ := mergeLeft_spec hc.1 hab hc.2.1 v hs2 hmem2
          rw [h2, h3]
          refine ⟨nofun, ?_, nofun⟩
          intro m' x' he
          cases he
          obtain ⟨h4, h5⟩ := done_of_mem h ha hab hb hc hs3 (v := v) (L := L) (by
            rcases hL with ⟨hL, _⟩ | hL
            · exact .inl hL
            · exact .inr hL) hmem3
          exact ⟨h4, .inr ⟨h5, .inr hx⟩⟩
    · have ht' : ∃ e ∈ m, b = K.hi ∧ e.right = K.hi ∧ a ≤ e.left := by
        refine Classical.byContradiction fun hc => ht ?_
        intro hb e he her
        cases Int.decLt e.left a with
        | isTrue h1 => exact h1
        | isFalse h1 => exact absurd ⟨e, he, hb, her, by omega⟩ hc
      obtain ⟨e, he, rfl, her, hel⟩ := ht'
      obtain ⟨m1, h1, h2, h3⟩ := cut_top h hab he her hel (fun m => insertMergeX F m a K.hi v)
      have hne : look m K.hi ≠ none := by
        rw [(look_iff h K.hi e.value).1 ⟨e, he, by have := h.ne e he; omega, by omega, rfl⟩]
        simp
      rw [h1]
      cases K.wraps with
      | true =>
        refine ⟨nofun, ?_, nofun⟩
        intro m' x' he
        cases he
        exact ⟨h2, .inl ⟨h3, .inl ⟨rfl, rfl, hne⟩⟩⟩
      | false => exact ⟨nofun, nofun, fun _ => ⟨rfl, rfl, hne⟩⟩
  · rw [hA]
    refine ⟨nofun, ?_, nofun⟩
    intro m' x' hE
    cases hE
    obtain ⟨h1, h2, _⟩ := (lower_some h.sorted).1 he
    obtain ⟨h3, h4⟩ := erase_lost h h1 (a := a) (by omega) b
    exact ⟨h3, .inl ⟨h4, by simp [hx]⟩⟩
  · rw [hA]
    refine ⟨nofun, ?_, nofun⟩
    intro m' x' hE
    cases hE
    obtain ⟨h1, h2, _⟩ := (lower_some h.sorted).1 he
    rw [previousKey_ok h h1 hlt] at hr
    cases hr
    obtain ⟨hs2, hmem2⟩ := trim_emplace h h1 ⟨hlt, h2⟩ hm2
    obtain ⟨h3, h4⟩ := trim_lost h h1 ⟨hlt, h2⟩ b hs2 hmem2
    refine ⟨h3, .inl ⟨h4, ?_⟩⟩
    rcases hx with hx | hx <;> simp [hx]

end Verif.IntervalMap
