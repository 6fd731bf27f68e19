import Verif.IntervalMap.Props
import Verif.IntervalMap.ThrowSpec
import Verif.IntervalMap.RefModel

/-! # Assigning a value of the map itself (C151) -/

namespace Verif.IntervalMap

variable {V : Type} [DecidableEq V]

/-- The value of `k` outlives the call that assigns `a … b`: no key of `[a, b]` has the value together with `k`; or the
keys that have it together with `k` begin in `[a, b]` and end behind it. -/
def Outlives (f : Int → Option V) (a b k : Int) : Prop :=
  (∀ j, a ≤ j → j ≤ b → ¬ Together f k j) ∨ ((∀ j, Together f k j → a ≤ j) ∧ ∃ j, b < j ∧ Together f k j)

omit [DecidableEq V] in
/-- In a map without exceptions, the keys of an interval are those that have the value together. -/
theorem together_iff {K : KeyType} {m : Map V} (h : Inv K m) {e : Entry V} (he : e ∈ m) {k : Int}
    (hk : e.left ≤ k ∧ k ≤ e.right) (j : Int) : Together (look m) k j ↔ e.left ≤ j ∧ j ≤ e.right := by
  have hin : ∀ j, e.left ≤ j → j ≤ e.right → look m j = some e.value := fun j h1 h2 =>
    (look_iff h j e.value).1 ⟨e, he, h1, h2, rfl⟩
  have hkv := hin k hk.1 hk.2
  constructor
  · rintro ⟨_, hall⟩
    rw [hkv] at hall
    refine ⟨?_, ?_⟩
    · cases Int.decLe e.left j with
      | isTrue h1 => exact h1
      | isFalse h1 =>
        have := hall (e.left - 1) (by omega)
        obtain ⟨x, hx, h2, h3, h4⟩ := (look_iff h _ _).2 this
        have hlt : x.right < e.right := by
          rcases Int.lt_trichotomy x.right e.right with h6 | h6 | h6
          · exact h6
          · rw [sorted_eq h.sorted hx he h6] at h2; omega
          · have := h.disj e he x hx h6; omega
        have h5 := h.disj x hx e he hlt
        exact absurd h4 (h.canon trivial x hx e he (by omega))
    · cases Int.decLe j e.right with
      | isTrue h1 => exact h1
      | isFalse h1 =>
        have := hall (e.right + 1) (by omega)
        obtain ⟨x, hx, h2, h3, h4⟩ := (look_iff h _ _).2 this
        have h5 := h.disj e he x hx (by omega)
        exact absurd h4.symm (h.canon trivial e he x hx (by omega))
  · rintro ⟨h1, h2⟩
    refine ⟨by rw [hkv]; simp, ?_⟩
    intro i hi
    rw [hkv]
    exact hin i (by omega) (by omega)

omit [DecidableEq V] in
theorem nodeOf_spec {K : KeyType} {m : Map V} (h : Inv K m) {k : Int} {w : V} (hk : look m k = some w) :
    ∃ e ∈ m, e.left ≤ k ∧ k ≤ e.right ∧ e.value = w ∧ nodeOf m k = some e.right := by
  obtain ⟨e, he, h1, h2, h3⟩ := (look_iff h k w).2 hk
  refine ⟨e, he, h1, h2, h3, ?_⟩
  have hl : lower m k = some e := by
    rw [lower_some h.sorted]
    refine ⟨he, h2, ?_⟩
    intro x hx hxk
    by_cases hc : e.right ≤ x.right
    · exact hc
    · have := h.disj x hx e he (by omega); omega
  simp only [nodeOf, hl, h1, if_true]

omit [DecidableEq V] in
theorem erasedA_iff {K : KeyType} {m : Map V} (h : Inv K m) {e : Entry V} (he : e ∈ m) (a : Int) :
    erasedA m a e.right = true ↔ e.left < a ∧ a ≤ e.right := by
  unfold erasedA
  constructor
  · intro hE
    cases hl : lower m a with
    | none => simp [hl] at hE
    | some x =>
      simp only [hl, decide_eq_true_eq] at hE
      obtain ⟨h1, h2, _⟩ := (lower_some h.sorted).1 hl
      have := sorted_eq h.sorted h1 he hE.2
      subst this
      exact ⟨hE.1, h2⟩
  · rintro ⟨h1, h2⟩
    have hl : lower m a = some e := by
      rw [lower_some h.sorted]
      refine ⟨he, h2, ?_⟩
      intro x hx hxk
      by_cases hc : e.right ≤ x.right
      · exact hc
      · have := h.disj x hx e he (by omega); omega
    simp [hl, h1]

omit [DecidableEq V] in
theorem find_right {m : Map V} (h : Sorted m) {x : Entry V} (hx : x ∈ m) :
    m.find? (fun e => decide (e.right = x.right)) = some x := by
  cases hf : m.find? (fun e => decide (e.right = x.right)) with
  | none => rw [List.find?_eq_none] at hf; exact absurd (decide_eq_true rfl) (hf x hx)
  | some y =>
    have h1 := List.find?_some hf
    have h2 := List.mem_of_find?_eq_some hf
    simp only [decide_eq_true_eq] at h1
    rw [sorted_eq h h2 hx h1]

omit [DecidableEq V] in
/-- When the reference can be read. -/
theorem readRef_spec {K : KeyType} {m m2 : Map V} (h : Inv K m) {a b : Int} (hab : a ≤ b) (hs : Sorted m2)
    (hm : CutMem m a b m2) {e : Entry V} (he : e ∈ m) {k : Int} (hk : e.left ≤ k ∧ k ≤ e.right) :
    (Outlives (look m) a b k → readRef m m2 a e.right = some e.value) ∧
    (¬ Outlives (look m) a b k → readRef m m2 a e.right = none) := by
  have hT := together_iff h he hk
  have hne := h.ne e he
  have hO : Outlives (look m) a b k ↔ (e.right < a ∨ b < e.left) ∨ (a ≤ e.left ∧ b < e.right) := by
    simp only [Outlives, hT]
    constructor
    · rintro (h1 | ⟨h1, j, h2, h3, h4⟩)
      · left
        by_cases hc : e.right < a
        · exact .inl hc
        · by_cases hc' : b < e.left
          · exact .inr hc'
          · rcases Int.le_total e.left a with h2 | h2
            · exact absurd ⟨h2, by omega⟩ (h1 a (by omega) hab)
            · exact absurd ⟨by omega, hne⟩ (h1 e.left h2 (by omega))
      · exact .inr ⟨h1 e.left ⟨by omega, hne⟩, by omega⟩
    · rintro (h1 | ⟨h1, h2⟩)
      · left; intro j hj1 hj2 hj3; omega
      · exact .inr ⟨fun j hj => by omega, e.right, h2, hne, Int.le_refl _⟩
  have hE := erasedA_iff h he a
  rw [hO]
  constructor
  · intro hO
    have hne' : ¬ erasedA m a e.right = true := by rw [hE]; omega
    unfold readRef
    rw [if_neg hne']
    by_cases hc : e.right < a ∨ b < e.left
    · rw [find_right hs ((hm e).2 (.inl ⟨he, hc⟩))]; rfl
    · have : (⟨e.right, b + 1, e.value⟩ : Entry V) ∈ m2 := (hm _).2 (.inr (.inr ⟨e, he, by omega, by omega, rfl⟩))
      have := find_right hs this
      simp only [] at this
      rw [this]; rfl
  · intro hO
    unfold readRef
    split
    · rfl
    · rename_i hnE
      rw [hE] at hnE
      have : m2.find? (fun x => decide (x.right = e.right)) = none := by
        rw [List.find?_eq_none]
        intro x hx
        simp only [decide_eq_true_eq]
        intro hxr
        rcases (hm x).1 hx with ⟨h1, h2⟩ | ⟨e', h1, h2, h3, rfl⟩ | ⟨e', h1, h2, h3, rfl⟩
        · have := sorted_eq h.sorted h1 he hxr
          subst this; omega
        · simp only [] at hxr; omega
        · simp only [] at hxr; omega
      rw [this]; rfl

/-- C151, partial: a value of the map itself can be assigned, with the effect of assigning a copy of it, if the interval it is in outlives the call:
if it has no keys in `[a, b]`, or begins there and ends behind it.  What is missing: all other intervals, see below. -/
theorem c151_own_value_partial (K : KeyType) (h : List (Int × Int × V)) (hr : InRange K h) (m : Map V)
    (hrun : run K [] h = .ok m) (a b k : Int) (w : V) (ha : K.lo ≤ a) (hab : a ≤ b) (hb : b ≤ K.hi)
    (ht : TopOk K.hi (look m) a b) (hk : look m k = some w) (ho : Outlives (look m) a b k) :
    assignRef K m a b k = assign K m a b w := by
  have hm := inv_run h (inv_nil K) hr hrun
  rw [top_iff hm (look_iff hm) a b] at ht
  obtain ⟨e, he, h1, h2, rfl, h3⟩ := nodeOf_spec hm hk
  -- both cuts leave the same map
  have hsame : ∀ k' : Map V → Out V, ∃ m2, Sorted m2 ∧ CutMem m a b m2 ∧
      (cutA K m a b fun m1 rb => cutB K m1 b rb k') = k' m2 := fun k' => by
    obtain ⟨m2, h4, h5, h6⟩ := cut_mem hm ha hab hb ht k'
    exact ⟨m2, h5, h6, h4⟩
  obtain ⟨m2, hs2, hm2, h4⟩ := hsame (fun m2 => insertRef m m2 a b e.right)
  obtain ⟨m3, hs3, hm3, h5⟩ := hsame (fun m => insertMerge m a b e.value)
  have heq : m2 = m3 := by
    refine List.Perm.eq_of_pairwise (le := fun x y : Entry V => x.right < y.right) ?_ hs2 hs3 ?_
    · intro x y _ _ h6 h7; omega
    · refine (List.perm_ext_iff_of_nodup ?_ ?_).2 (fun x => by rw [hm2 x, hm3 x])
      · exact hs2.imp (fun h6 h7 => by rw [h7] at h6; omega)
      · exact hs3.imp (fun h6 h7 => by rw [h7] at h6; omega)
  simp only [assignRef, h3, assign, if_pos hab]
  rw [h4, h5]
  simp only [insertRef, (readRef_spec hm hab hs2 hm2 he ⟨h1, h2⟩).1 ho]; rw [heq]

/-- C151 is violated: in every other case the call reads a value that it has destroyed. -/
theorem c151_own_value_violated (K : KeyType) (h : List (Int × Int × V)) (hr : InRange K h) (m : Map V)
    (hrun : run K [] h = .ok m) (a b k : Int) (w : V) (ha : K.lo ≤ a) (hab : a ≤ b) (hb : b ≤ K.hi)
    (ht : TopOk K.hi (look m) a b) (hk : look m k = some w) (ho : ¬ Outlives (look m) a b k) :
    assignRef K m a b k = .ub := by
  have hm := inv_run h (inv_nil K) hr hrun
  rw [top_iff hm (look_iff hm) a b] at ht
  obtain ⟨e, he, h1, h2, rfl, h3⟩ := nodeOf_spec hm hk
  obtain ⟨m2, h4, hs2, hm2⟩ := cut_mem hm ha hab hb ht (fun m2 => insertRef m m2 a b e.right)
  simp only [assignRef, h3, if_pos hab]
  rw [h4]
  simp only [insertRef, (readRef_spec hm hab hs2 hm2 he ⟨h1, h2⟩).2 ho]

/-- C151: `at` of a key without a value throws, the map stays as it is. -/
theorem c151_no_value (K : KeyType) (h : List (Int × Int × V)) (hr : InRange K h) (m : Map V) (hrun : run K [] h = .ok m)
    (a b k : Int) (hk : look m k = none) : assignRef K m a b k = .throw m .outOfRange := by
  have hm := inv_run h (inv_nil K) hr hrun
  have : nodeOf m k = none := by
    unfold nodeOf
    cases hl : lower m k with
    | none => rfl
    | some e =>
      obtain ⟨h1, h2, _⟩ := (lower_some hm.sorted).1 hl
      by_cases hle : e.left ≤ k
      · rw [(look_iff hm k e.value).1 ⟨e, h1, hle, h2, rfl⟩] at hk; cases hk
      · simp [hle]
  simp only [assignRef, this]

def own : List (Int × Int × Nat) := [(10, 19, 1), (30, 39, 2), (50, 59, 3)]

example : InRange byte own := by simp [InRange, own, byte]
example : run byte [] own = .ok [⟨19, 10, 1⟩, ⟨39, 30, 2⟩, ⟨59, 50, 3⟩] := by decide +kernel
-- from elsewhere, from an interval that begins in `[a, b]`
example : assignRef byte [⟨19, 10, 1⟩, ⟨39, 30, 2⟩, ⟨59, 50, 3⟩] 35 55 12 = .ok [⟨19, 10, 1⟩, ⟨34, 30, 2⟩, ⟨55, 35, 1⟩, ⟨59, 56, 3⟩] := by
  decide +kernel
example : assignRef byte [⟨19, 10, 1⟩, ⟨39, 30, 2⟩, ⟨59, 50, 3⟩] 25 35 39 = .ok [⟨19, 10, 1⟩, ⟨39, 25, 2⟩, ⟨59, 50, 3⟩] := by
  decide +kernel
-- from an interval that ends in `[a, b]`
example : assignRef byte [⟨19, 10, 1⟩, ⟨39, 30, 2⟩, ⟨59, 50, 3⟩] 35 45 30 = .ub := by decide +kernel
example : assignRef byte [⟨19, 10, 1⟩, ⟨39, 30, 2⟩, ⟨59, 50, 3⟩] 33 35 30 = .ub := by decide +kernel

end Verif.IntervalMap
