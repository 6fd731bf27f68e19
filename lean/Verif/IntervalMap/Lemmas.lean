import Verif.IntervalMap.Model
import Verif.IntervalMap.Spec

/-! # Lemmas -/

namespace Verif.IntervalMap

variable {V : Type}

def Sorted (m : Map V) : Prop := m.Pairwise (fun x y => x.right < y.right)

/-- The intervals are in order, not empty, disjoint, and of the key type; if `C`, intervals that touch have different
values. -/
structure InvC (C : Prop) (K : KeyType) (m : Map V) : Prop where
  sorted : Sorted m
  ne : ∀ e ∈ m, e.left ≤ e.right
  disj : ∀ e ∈ m, ∀ e' ∈ m, e.right < e'.right → e.right < e'.left
  lo : ∀ e ∈ m, K.lo ≤ e.left
  hi : ∀ e ∈ m, e.right ≤ K.hi
  /-- intervals that touch have different values -/
  canon : C → ∀ e ∈ m, ∀ e' ∈ m, e.right + 1 = e'.left → e.value ≠ e'.value

/-- The invariant of maps that are not left by an exception. -/
abbrev Inv (K : KeyType) (m : Map V) : Prop := InvC True K m

/-- The key lies in an interval with the value. -/
def Cov (m : Map V) (k : Int) (v : V) : Prop := ∃ e ∈ m, e.left ≤ k ∧ k ≤ e.right ∧ e.value = v

theorem sorted_eq {m : Map V} (h : Sorted m) {e e' : Entry V} (he : e ∈ m) (he' : e' ∈ m) (hr : e.right = e'.right) :
    e = e' := by
  induction m with
  | nil => cases he
  | cons x m ih =>
    have h := List.pairwise_cons.1 h
    rcases List.mem_cons.1 he with rfl | he1 <;> rcases List.mem_cons.1 he' with rfl | he2
    · rfl
    · have := h.1 _ he2; omega
    · have := h.1 _ he1; omega
    · exact ih h.2 he1 he2

theorem find_spec {m : Map V} (h : Sorted m) (P : Int → Prop) [DecidablePred P] (e : Entry V) :
    m.find? (fun e => decide (P e.right)) = some e ↔ e ∈ m ∧ P e.right ∧ ∀ e' ∈ m, P e'.right → e.right ≤ e'.right := by
  induction m with
  | nil => simp
  | cons x m ih =>
    have h' := List.pairwise_cons.1 h
    rw [List.find?_cons]
    by_cases hx : P x.right
    · simp only [hx, decide_true, Option.some.injEq]
      constructor
      · rintro rfl
        refine ⟨List.mem_cons_self, hx, ?_⟩
        intro e' he' _
        rcases List.mem_cons.1 he' with rfl | he1
        · exact Int.le_refl _
        · exact Int.le_of_lt (h'.1 _ he1)
      · rintro ⟨h1, h2, h3⟩
        rcases List.mem_cons.1 h1 with rfl | h4
        · rfl
        · have := h3 x List.mem_cons_self hx
          have := h'.1 _ h4; omega
    · simp only [hx, decide_false, ih h'.2]
      constructor
      · rintro ⟨h1, h2, h3⟩
        refine ⟨List.mem_cons_of_mem _ h1, h2, ?_⟩
        intro e' he' hp
        rcases List.mem_cons.1 he' with rfl | he1
        · exact absurd hp hx
        · exact h3 _ he1 hp
      · rintro ⟨h1, h2, h3⟩
        rcases List.mem_cons.1 h1 with rfl | h4
        · exact absurd h2 hx
        · exact ⟨h4, h2, fun e' he' hp => h3 e' (List.mem_cons_of_mem _ he') hp⟩

theorem find_none {m : Map V} (P : Int → Prop) [DecidablePred P] :
    m.find? (fun e => decide (P e.right)) = none ↔ ∀ e ∈ m, ¬ P e.right := by
  simp

theorem lower_some {m : Map V} (h : Sorted m) {k : Int} {e : Entry V} :
    lower m k = some e ↔ e ∈ m ∧ k ≤ e.right ∧ ∀ e' ∈ m, k ≤ e'.right → e.right ≤ e'.right :=
  find_spec h (fun r => k ≤ r) e

theorem lower_none {m : Map V} {k : Int} : lower m k = none ↔ ∀ e ∈ m, e.right < k := by
  unfold lower
  rw [find_none (fun r => k ≤ r)]
  constructor <;> intro h e he <;> have := h e he <;> omega

theorem next_some {m : Map V} (h : Sorted m) {k : Int} {e : Entry V} :
    next m k = some e ↔ e ∈ m ∧ k < e.right ∧ ∀ e' ∈ m, k < e'.right → e.right ≤ e'.right :=
  find_spec h (fun r => k < r) e

theorem next_none {m : Map V} {k : Int} : next m k = none ↔ ∀ e ∈ m, e.right ≤ k := by
  unfold next
  rw [find_none (fun r => k < r)]
  constructor <;> intro h e he <;> have := h e he <;> omega

theorem prev_none {m : Map V} {k : Int} : prev m k = none ↔ ∀ e ∈ m, k ≤ e.right := by
  unfold prev
  simp

/-- Only what is needed of `std::prev`: the last node before `k`. -/
theorem prev_some {m : Map V} (h : Sorted m) {k : Int} {e : Entry V} (hp : prev m k = some e) :
    e ∈ m ∧ e.right < k ∧ ∀ e' ∈ m, e'.right < k → e'.right ≤ e.right := by
  unfold prev at hp
  have h' : m.reverse.Pairwise (fun x y => y.right < x.right) := List.pairwise_reverse.2 h
  have hm : ∀ x, x ∈ m ↔ x ∈ m.reverse := fun x => List.mem_reverse.symm
  simp only [hm]
  obtain ⟨l, hl⟩ : ∃ l, l = m.reverse := ⟨_, rfl⟩
  rw [← hl] at hp h' ⊢
  clear hm hl h
  induction l with
  | nil => cases hp
  | cons x l ih =>
    have h1 := List.pairwise_cons.1 h'
    rw [List.find?_cons] at hp
    by_cases hx : x.right < k
    · simp only [hx, decide_true, Option.some.injEq] at hp
      subst hp
      refine ⟨List.mem_cons_self, hx, ?_⟩
      intro e' he' _
      rcases List.mem_cons.1 he' with rfl | he1
      · exact Int.le_refl _
      · exact Int.le_of_lt (h1.1 _ he1)
    · simp only [hx, decide_false] at hp
      obtain ⟨h2, h3, h4⟩ := ih h1.2 hp
      refine ⟨List.mem_cons_of_mem _ h2, h3, ?_⟩
      intro e' he' hk
      rcases List.mem_cons.1 he' with rfl | he1
      · exact absurd hk hx
      · exact h4 _ he1 hk

theorem mem_erase {m : Map V} {k : Int} {e : Entry V} : e ∈ erase m k ↔ e ∈ m ∧ e.right ≠ k := by
  simp [erase]

theorem sorted_erase {m : Map V} (h : Sorted m) (k : Int) : Sorted (erase m k) := List.Pairwise.filter _ h

theorem mem_insertSorted {m : Map V} {x e : Entry V} : e ∈ insertSorted x m ↔ e = x ∨ e ∈ m := by
  induction m with
  | nil => simp [insertSorted]
  | cons y m ih =>
    simp only [insertSorted]
    split
    · simp
    · simp only [List.mem_cons, ih]
      constructor
      · rintro (h | h | h)
        · exact .inr (.inl h)
        · exact .inl h
        · exact .inr (.inr h)
      · rintro (h | h | h)
        · exact .inr (.inl h)
        · exact .inl h
        · exact .inr (.inr h)

theorem sorted_insertSorted {m : Map V} (h : Sorted m) {x : Entry V} (hx : ∀ e ∈ m, e.right ≠ x.right) :
    Sorted (insertSorted x m) := by
  induction m with
  | nil => exact List.pairwise_singleton _ _
  | cons y m ih =>
    have h' := List.pairwise_cons.1 h
    simp only [insertSorted]
    split
    · rename_i hlt
      refine List.pairwise_cons.2 ⟨?_, h⟩
      intro e he
      rcases List.mem_cons.1 he with rfl | he1
      · exact hlt
      · have := h'.1 _ he1; omega
    · rename_i hlt
      refine List.pairwise_cons.2 ⟨?_, ih h'.2 (fun e he => hx e (List.mem_cons_of_mem _ he))⟩
      intro e he
      rcases mem_insertSorted.1 he with rfl | he1
      · have := hx y List.mem_cons_self; omega
      · exact h'.1 _ he1

theorem emplace_some {m : Map V} (h : Sorted m) {x : Entry V} (hx : ∀ e ∈ m, e.right ≠ x.right) :
    ∃ m', emplace m x = some m' ∧ Sorted m' ∧ ∀ e, e ∈ m' ↔ e = x ∨ e ∈ m := by
  refine ⟨insertSorted x m, ?_, sorted_insertSorted h hx, fun e => mem_insertSorted⟩
  unfold emplace
  rw [if_neg]
  simp only [List.any_eq_true, decide_eq_true_eq, not_exists, not_and]
  exact hx

theorem mem_setLeft {m : Map V} {k l : Int} {e : Entry V} :
    e ∈ setLeft m k l ↔ (e ∈ m ∧ e.right ≠ k) ∨ (∃ e' ∈ m, e'.right = k ∧ e = { e' with left := l }) := by
  simp only [setLeft, List.mem_map]
  constructor
  · rintro ⟨x, hx, rfl⟩
    by_cases hk : x.right = k
    · rw [if_pos hk]; exact .inr ⟨x, hx, hk, rfl⟩
    · rw [if_neg hk]; exact .inl ⟨hx, hk⟩
  · rintro (⟨h1, h2⟩ | ⟨x, hx, hk, rfl⟩)
    · exact ⟨e, h1, by rw [if_neg h2]⟩
    · exact ⟨x, hx, by rw [if_pos hk]⟩

theorem sorted_setLeft {m : Map V} (h : Sorted m) (k l : Int) : Sorted (setLeft m k l) := by
  unfold setLeft Sorted
  rw [List.pairwise_map]
  refine List.Pairwise.imp ?_ h
  intro x y hxy
  have hr : ∀ e : Entry V, (if e.right = k then { e with left := l } else e).right = e.right := by
    intro e; split <;> rfl
  rw [hr, hr]; exact hxy

theorem inv_nil (K : KeyType) : Inv K ([] : Map V) :=
  ⟨List.Pairwise.nil, by simp, by simp, by simp, by simp, by simp⟩

/-- Look-up finds the interval of the key. -/
theorem at_iff {C : Prop} {K : KeyType} {m : Map V} (h : InvC C K m) (k : Int) (v : V) : at' m k = .ok v ↔ Cov m k v := by
  unfold at'
  cases hl : lower m k with
  | none =>
    rw [lower_none] at hl
    simp only [reduceCtorEq, false_iff]
    rintro ⟨e, he, _, h2, _⟩
    have := hl e he; omega
  | some e =>
    rw [lower_some h.sorted] at hl
    obtain ⟨h1, h2, h3⟩ := hl
    have huniq : ∀ e' ∈ m, e'.left ≤ k → k ≤ e'.right → e' = e := by
      intro e' he' hl hr
      have hle := h3 e' he' hr
      rcases Int.lt_or_eq_of_le hle with hlt | heq
      · have := h.disj e h1 e' he' hlt; omega
      · exact sorted_eq h.sorted he' h1 heq.symm
    show (if e.left ≤ k then Res.ok e.value else .throw .outOfRange) = .ok v ↔ _
    split
    · rename_i hle
      simp only [Res.ok.injEq]
      constructor
      · rintro rfl; exact ⟨e, h1, hle, h2, rfl⟩
      · rintro ⟨e', he', h4, h5, rfl⟩; rw [huniq e' he' h4 h5]
    · rename_i hle
      simp only [reduceCtorEq, false_iff]
      rintro ⟨e', he', h4, h5, _⟩
      rw [huniq e' he' h4 h5] at h4; omega

theorem at_throw {C : Prop} {K : KeyType} {m : Map V} (h : InvC C K m) (k : Int) :
    at' m k = .throw .outOfRange ↔ ∀ v, ¬ Cov m k v := by
  constructor
  · intro ht v hc
    rw [← at_iff h] at hc
    rw [ht] at hc; cases hc
  · intro hn
    cases hr : at' m k with
    | ok v => exact absurd ((at_iff h k v).1 hr) (hn v)
    | throw e =>
      unfold at' at hr
      split at hr
      · split at hr
        · cases hr
        · cases hr; rfl
      · cases hr; rfl
    | ub =>
      unfold at' at hr
      split at hr
      · split at hr <;> cases hr
      · cases hr

theorem contains_iff (m : Map V) (k : Int) : contains m k = true ↔ ∃ v, at' m k = .ok v := by
  unfold contains at'
  cases lower m k with
  | none => simp
  | some e =>
    show decide (e.left ≤ k) = true ↔ ∃ v, (if e.left ≤ k then Res.ok e.value else .throw .outOfRange) = .ok v
    by_cases he : e.left ≤ k <;> simp [he]

/-- What the first two parts of `assign` leave: everything but the keys `a … b`. -/
def CutOk (C : Prop) (K : KeyType) (m : Map V) (a b : Int) (m' : Map V) : Prop :=
  InvC C K m' ∧ (∀ e ∈ m', e.right < a ∨ b < e.left) ∧ ∀ k v, Cov m' k v ↔ (Cov m k v ∧ ¬ (a ≤ k ∧ k ≤ b))

/-- The nodes of the map when the keys `a … b` are cut out. -/
def CutMem (m : Map V) (a b : Int) (m' : Map V) : Prop :=
  ∀ x, x ∈ m' ↔ (x ∈ m ∧ (x.right < a ∨ b < x.left)) ∨
    (∃ e ∈ m, e.left < a ∧ a ≤ e.right ∧ x = ⟨a - 1, e.left, e.value⟩) ∨
    (∃ e ∈ m, e.left ≤ b ∧ b < e.right ∧ x = ⟨e.right, b + 1, e.value⟩)

theorem cutOk_of_mem {C : Prop} {K : KeyType} {m m' : Map V} (h : InvC C K m) {a b : Int} (ha : K.lo ≤ a) (hab : a ≤ b) (hb : b ≤ K.hi)
    (hs : Sorted m') (hm : CutMem m a b m') : CutOk C K m a b m' := by
  refine ⟨⟨hs, ?_, ?_, ?_, ?_, ?_⟩, ?_, ?_⟩
  · intro x hx
    rcases (hm x).1 hx with ⟨h1, _⟩ | ⟨e, h1, h2, h3, rfl⟩ | ⟨e, h1, h2, h3, rfl⟩
    · exact h.ne x h1
    · show e.left ≤ a - 1; omega
    · show b + 1 ≤ e.right; omega
  · intro x hx y hy hlt
    rcases (hm x).1 hx with ⟨h1, _⟩ | ⟨e, h1, h2, h3, rfl⟩ | ⟨e, h1, h2, h3, rfl⟩ <;>
    rcases (hm y).1 hy with ⟨h1', _⟩ | ⟨e', h1', h2', h3', rfl⟩ | ⟨e', h1', h2', h3', rfl⟩ <;> try simp only [] at hlt ⊢
    · exact h.disj x h1 y h1' hlt
    · exact h.disj x h1 e' h1' (by omega)
    · have := h.disj x h1 e' h1' (by omega); omega
    · by_cases hc : e.right < y.right
      · have := h.disj e h1 y h1' hc; omega
      · have hc' : y.right ≠ e.right := by
          intro hc'
          have := sorted_eq h.sorted h1' h1 hc'
          subst this; omega
        have := h.disj y h1' e h1 (by omega); omega
    · omega
    · omega
    · exact h.disj e h1 y h1' hlt
    · omega
    · have := h.disj e h1 e' h1' hlt; omega
  · intro x hx
    rcases (hm x).1 hx with ⟨h1, _⟩ | ⟨e, h1, h2, h3, rfl⟩ | ⟨e, h1, h2, h3, rfl⟩
    · exact h.lo x h1
    · exact h.lo e h1
    · show K.lo ≤ b + 1; omega
  · intro x hx
    rcases (hm x).1 hx with ⟨h1, _⟩ | ⟨e, h1, h2, h3, rfl⟩ | ⟨e, h1, h2, h3, rfl⟩
    · exact h.hi x h1
    · show a - 1 ≤ K.hi; omega
    · exact h.hi e h1
  · intro hC x hx y hy hxy
    have hx0 : ∃ e ∈ m, x.value = e.value ∧ (x.right = e.right ∨ x.right = a - 1) := by
      rcases (hm x).1 hx with ⟨h1, _⟩ | ⟨e, h1, h2, h3, rfl⟩ | ⟨e, h1, h2, h3, rfl⟩
      · exact ⟨x, h1, rfl, .inl rfl⟩
      · exact ⟨e, h1, rfl, .inr rfl⟩
      · exact ⟨e, h1, rfl, .inl rfl⟩
    have hy0 : ∃ e ∈ m, y.value = e.value ∧ (y.left = e.left ∨ y.left = b + 1) := by
      rcases (hm y).1 hy with ⟨h1, _⟩ | ⟨e, h1, h2, h3, rfl⟩ | ⟨e, h1, h2, h3, rfl⟩
      · exact ⟨y, h1, rfl, .inl rfl⟩
      · exact ⟨e, h1, rfl, .inl rfl⟩
      · exact ⟨e, h1, rfl, .inr rfl⟩
    have hxo : x.right < a ∨ b < x.left := by
      rcases (hm x).1 hx with ⟨_, h1⟩ | ⟨e, h1, h2, h3, rfl⟩ | ⟨e, h1, h2, h3, rfl⟩
      · exact h1
      · left; show a - 1 < a; omega
      · right; show b < b + 1; omega
    have hyo : y.right < a ∨ b < y.left := by
      rcases (hm y).1 hy with ⟨_, h1⟩ | ⟨e, h1, h2, h3, rfl⟩ | ⟨e, h1, h2, h3, rfl⟩
      · exact h1
      · left; show a - 1 < a; omega
      · right; show b < b + 1; omega
    have hxn : x.left ≤ x.right := by
      rcases (hm x).1 hx with ⟨h1, _⟩ | ⟨e, h1, h2, h3, rfl⟩ | ⟨e, h1, h2, h3, rfl⟩
      · exact h.ne x h1
      · show e.left ≤ a - 1; omega
      · show b + 1 ≤ e.right; omega
    have hyn : y.left ≤ y.right := by
      rcases (hm y).1 hy with ⟨h1, _⟩ | ⟨e, h1, h2, h3, rfl⟩ | ⟨e, h1, h2, h3, rfl⟩
      · exact h.ne y h1
      · show e.left ≤ a - 1; omega
      · show b + 1 ≤ e.right; omega
    obtain ⟨e, he, hev, her⟩ := hx0
    obtain ⟨e', he', hev', her'⟩ := hy0
    rw [hev, hev']
    exact h.canon hC e he e' he' (by omega)
  · intro x hx
    rcases (hm x).1 hx with ⟨_, h1⟩ | ⟨e, h1, h2, h3, rfl⟩ | ⟨e, h1, h2, h3, rfl⟩
    · exact h1
    · left; show a - 1 < a; omega
    · right; show b < b + 1; omega
  · intro k v
    constructor
    · rintro ⟨x, hx, hl, hr, rfl⟩
      rcases (hm x).1 hx with ⟨h1, h2⟩ | ⟨e, h1, h2, h3, rfl⟩ | ⟨e, h1, h2, h3, rfl⟩
      · exact ⟨⟨x, h1, hl, hr, rfl⟩, by omega⟩
      · simp only [] at hl hr
        exact ⟨⟨e, h1, hl, by omega, rfl⟩, by omega⟩
      · simp only [] at hl hr
        exact ⟨⟨e, h1, by omega, hr, rfl⟩, by omega⟩
    · rintro ⟨⟨e, he, hl, hr, rfl⟩, hk⟩
      by_cases hka : k < a
      · by_cases hea : e.right < a
        · exact ⟨e, (hm e).2 (.inl ⟨he, .inl hea⟩), hl, hr, rfl⟩
        · exact ⟨⟨a - 1, e.left, e.value⟩, (hm _).2 (.inr (.inl ⟨e, he, by omega, by omega, rfl⟩)), hl,
            by show k ≤ a - 1; omega, rfl⟩
      · by_cases heb : b < e.left
        · exact ⟨e, (hm e).2 (.inl ⟨he, .inr heb⟩), hl, hr, rfl⟩
        · exact ⟨⟨e.right, b + 1, e.value⟩, (hm _).2 (.inr (.inr ⟨e, he, by omega, by omega, rfl⟩)),
            by show b + 1 ≤ k; omega, hr, rfl⟩

/-- The second part, when no interval lies across `a`. -/
theorem cutB_spec {C : Prop} {K : KeyType} {m : Map V} (h : InvC C K m) {a b : Int} (hab : a ≤ b) (hb : b ≤ K.hi)
    (htop : b = K.hi → ∀ v, ¬ Cov m K.hi v) (hcross : ∀ e ∈ m, e.right < a ∨ a ≤ e.left) (k : Map V → Out V) :
    ∃ m', cutB K m b (lower m a) k = k m' ∧ Sorted m' ∧ CutMem m a b m' := by
  -- `none`: nothing at or behind `a`
  cases hrb : lower m a with
  | none =>
    rw [lower_none] at hrb
    refine ⟨m, rfl, h.sorted, ?_⟩
    intro x
    constructor
    · intro hx; exact .inl ⟨hx, .inl (hrb x hx)⟩
    · rintro (⟨h1, _⟩ | ⟨e, h1, h2, h3, rfl⟩ | ⟨e, h1, h2, h3, rfl⟩)
      · exact h1
      · have := hrb e h1; omega
      · have := hrb e h1; omega
  | some rb =>
    rw [lower_some h.sorted] at hrb
    obtain ⟨hr1, hr2, hr3⟩ := hrb
    -- what comes before `remove_begin`
    have hbefore : ∀ x ∈ m, x.right < rb.right ↔ x.right < a := by
      intro x hx
      constructor
      · intro hx'
        by_cases hxa : x.right < a
        · exact hxa
        · have := hr3 x hx (by omega); omega
      · intro; omega
    simp only [cutB]
    cases hlb : lower m b with
    | none =>
      rw [lower_none] at hlb
      refine ⟨m.filter (fun e => decide (e.right < rb.right)), rfl, List.Pairwise.filter _ h.sorted, ?_⟩
      intro x
      rw [List.mem_filter, decide_eq_true_eq]
      constructor
      · rintro ⟨h1, h2⟩; exact .inl ⟨h1, .inl ((hbefore x h1).1 h2)⟩
      · rintro (⟨h1, h2⟩ | ⟨e, h1, h2, h3, rfl⟩ | ⟨e, h1, h2, h3, rfl⟩)
        · have h4 := hlb x h1
          have h5 := h.ne x h1
          refine ⟨h1, (hbefore x h1).2 ?_⟩
          omega
        · have := hcross e h1; omega
        · have := hlb e h1; omega
    | some e =>
      rw [lower_some h.sorted] at hlb
      obtain ⟨he1, he2, he3⟩ := hlb
      have hre : ¬ e.right < rb.right := by
        have := hr3 e he1 (by omega); omega
      -- nodes from `e` on
      have hafter : ∀ x ∈ m, e.right < x.right → b < x.left := by
        intro x hx hx'
        have := h.disj e he1 x hx hx'; omega
      have hmid : ∀ x ∈ m, ¬ x.right < a → x.right < e.right → ¬ (x.right < a ∨ b < x.left) := by
        intro x hx hxa hxe
        have h1 : ¬ b ≤ x.right := fun hc => by have := he3 x hx hc; omega
        have := h.ne x hx; omega
      show ∃ m', (if e.left ≤ b then _ else _) = k m' ∧ _
      by_cases hle : e.left ≤ b
      · rw [if_pos hle]
        have hlt : b < K.hi := by
          rcases Int.lt_or_eq_of_le hb with hlt | heq
          · exact hlt
          · have h4 := h.hi e he1
            exact absurd ⟨e, he1, by omega, by omega, rfl⟩ (htop heq e.value)
        simp only [nextKey, hlt, if_true]
        by_cases hne : b + 1 ≤ e.right
        · rw [if_pos hne]
          refine ⟨(setLeft m e.right (b + 1)).filter (fun x => decide (x.right < rb.right ∨ e.right ≤ x.right)), ?_,
            List.Pairwise.filter _ (sorted_setLeft h.sorted _ _), ?_⟩
          · simp only [eraseRange]; rw [if_neg hre]
          · intro x
            rw [List.mem_filter, decide_eq_true_eq, mem_setLeft]
            constructor
            · rintro ⟨⟨h1, h2⟩ | ⟨e', h1, h2, rfl⟩, h3⟩
              · refine .inl ⟨h1, ?_⟩
                rcases h3 with h3 | h3
                · exact .inl ((hbefore x h1).1 h3)
                · exact .inr (hafter x h1 (by omega))
              · have := sorted_eq h.sorted h1 he1 h2
                subst this
                exact .inr (.inr ⟨e', he1, hle, by omega, rfl⟩)
            · rintro (⟨h1, h2⟩ | ⟨e', h1, h2, h3, rfl⟩ | ⟨e', h1, h2, h3, rfl⟩)
              · have hxe : x.right ≠ e.right := by
                  intro hxe
                  have := sorted_eq h.sorted h1 he1 hxe
                  subst this; omega
                refine ⟨.inl ⟨h1, hxe⟩, ?_⟩
                by_cases hxa : x.right < a
                · exact .inl ((hbefore x h1).2 hxa)
                · right
                  have := hmid x h1 hxa
                  by_cases hx' : x.right < e.right
                  · exact absurd h2 (this hx')
                  · omega
              · have := hcross e' h1; omega
              · have : e'.right = e.right := by
                  have h4 := he3 e' h1 (by omega)
                  rcases Int.lt_or_eq_of_le h4 with h5 | h5
                  · have := hafter e' h1 h5; omega
                  · exact h5.symm
                have := sorted_eq h.sorted h1 he1 this
                subst this
                exact ⟨.inr ⟨e', he1, rfl, rfl⟩, .inr (Int.le_refl _)⟩
        · rw [if_neg hne]
          have heb : e.right = b := by omega
          -- everything from `remove_begin` to `e`
          have hx : ∃ m', eraseRange m rb.right (next m e.right) = some m' ∧ Sorted m' ∧
              ∀ x, x ∈ m' ↔ x ∈ m ∧ (x.right < rb.right ∨ e.right < x.right) := by
            cases hn : next m e.right with
            | none =>
              rw [next_none] at hn
              refine ⟨_, rfl, List.Pairwise.filter _ h.sorted, ?_⟩
              intro x
              rw [List.mem_filter, decide_eq_true_eq]
              constructor
              · rintro ⟨h1, h2⟩; exact ⟨h1, .inl h2⟩
              · rintro ⟨h1, h2⟩
                have := hn x h1
                exact ⟨h1, by omega⟩
            | some n =>
              rw [next_some h.sorted] at hn
              obtain ⟨hn1, hn2, hn3⟩ := hn
              refine ⟨m.filter (fun x => decide (x.right < rb.right ∨ n.right ≤ x.right)), ?_, List.Pairwise.filter _ h.sorted, ?_⟩
              · simp only [eraseRange]; rw [if_neg (by omega)]
              · intro x
                rw [List.mem_filter, decide_eq_true_eq]
                constructor
                · rintro ⟨h1, h2⟩; exact ⟨h1, by omega⟩
                · rintro ⟨h1, h2⟩
                  refine ⟨h1, ?_⟩
                  rcases h2 with h2 | h2
                  · exact .inl h2
                  · exact .inr (hn3 x h1 h2)
          obtain ⟨m', hx1, hx2, hx3⟩ := hx
          refine ⟨m', by rw [hx1], hx2, ?_⟩
          intro x
          rw [hx3]
          constructor
          · rintro ⟨h1, h2⟩
            refine .inl ⟨h1, ?_⟩
            rcases h2 with h2 | h2
            · exact .inl ((hbefore x h1).1 h2)
            · exact .inr (hafter x h1 h2)
          · rintro (⟨h1, h2⟩ | ⟨e', h1, h2, h3, rfl⟩ | ⟨e', h1, h2, h3, rfl⟩)
            · refine ⟨h1, ?_⟩
              have := hbefore x h1
              have := h.ne x h1
              omega
            · have := hcross e' h1; omega
            · have := hafter e' h1 (by omega); omega
      · rw [if_neg hle]
        refine ⟨m.filter (fun x => decide (x.right < rb.right ∨ e.right ≤ x.right)), ?_, List.Pairwise.filter _ h.sorted, ?_⟩
        · simp only [eraseRange]; rw [if_neg hre]
        · intro x
          rw [List.mem_filter, decide_eq_true_eq]
          constructor
          · rintro ⟨h1, h2⟩
            refine .inl ⟨h1, ?_⟩
            rcases h2 with h2 | h2
            · exact .inl ((hbefore x h1).1 h2)
            · right
              rcases Int.lt_or_eq_of_le h2 with h3 | h3
              · exact hafter x h1 h3
              · have := sorted_eq h.sorted h1 he1 h3.symm
                subst this; omega
          · rintro (⟨h1, h2⟩ | ⟨e', h1, h2, h3, rfl⟩ | ⟨e', h1, h2, h3, rfl⟩)
            · refine ⟨h1, ?_⟩
              by_cases hxa : x.right < a
              · exact .inl ((hbefore x h1).2 hxa)
              · right
                by_cases hx' : x.right < e.right
                · exact absurd h2 (hmid x h1 hxa hx')
                · omega
            · have := hcross e' h1; omega
            · have h4 := he3 e' h1 (by omega)
              rcases Int.lt_or_eq_of_le h4 with h5 | h5
              · have := hafter e' h1 h5; omega
              · have := sorted_eq h.sorted h1 he1 h5.symm
                subst this; omega

/-- The first two parts. -/
theorem cut_mem {C : Prop} {K : KeyType} {m : Map V} (h : InvC C K m) {a b : Int} (ha : K.lo ≤ a) (hab : a ≤ b) (hb : b ≤ K.hi)
    (htop : b = K.hi → ∀ e ∈ m, e.right = K.hi → e.left < a) (k : Map V → Out V) :
    ∃ m', (cutA K m a b fun m rb => cutB K m b rb k) = k m' ∧ Sorted m' ∧ CutMem m a b m' := by
  have hB := fun hcross => cutB_spec h hab hb (fun hbh v => by
    rintro ⟨x, hx, h1, h2, _⟩
    have h3 := h.hi x hx
    have h4 := htop hbh x hx (by omega)
    have := hcross x hx
    omega) hcross
  unfold cutA
  cases hl : lower m a with
  | none =>
    have hn := lower_none.1 hl
    have := hB (fun e he => .inl (hn e he)) k
    rw [hl] at this
    exact this
  | some e =>
    obtain ⟨he1, he2, he3⟩ := (lower_some h.sorted).1 hl
    -- the other intervals are on one side of `e`
    have hother : ∀ x ∈ m, x.right ≠ e.right → x.right < a ∨ e.right < x.left := by
      intro x hx hne
      by_cases hxa : x.right < a
      · exact .inl hxa
      · have h1 := he3 x hx (by omega)
        exact .inr (h.disj e he1 x hx (by omega))
    show ∃ m', (if e.left < a then _ else _) = k m' ∧ _
    by_cases hlt : e.left < a
    · rw [if_pos hlt]
      have hlo := h.lo e he1
      have hpk : previousKey K a = .ok (a - 1) := by simp only [previousKey]; rw [if_pos (by omega)]
      simp only [hpk]
      have hs1 := sorted_erase h.sorted e.right
      obtain ⟨m2, hm2, hs2, hmem2⟩ := emplace_some hs1 (x := ⟨a - 1, e.left, e.value⟩) (by
        intro x hx hxr
        have hx := mem_erase.1 hx
        simp only [] at hxr
        have := h.disj x hx.1 e he1 (by omega); omega)
      simp only [hm2]
      simp only [mem_erase] at hmem2
      by_cases hbr : b < e.right
      · rw [if_pos hbr]
        have hhi := h.hi e he1
        have hnk : nextKey K b = .ok (b + 1) := by simp only [nextKey]; rw [if_pos (by omega)]
        simp only [hnk]
        obtain ⟨m3, hm3, hs3, hmem3⟩ := emplace_some hs2 (x := ⟨e.right, b + 1, e.value⟩) (by
          intro x hx
          rcases (hmem2 x).1 hx with rfl | ⟨_, hx2⟩
          · show a - 1 ≠ e.right; omega
          · exact hx2)
        simp only [hm3]
        refine ⟨m3, rfl, hs3, ?_⟩
        intro x
        rw [hmem3, hmem2]
        constructor
        · rintro (rfl | rfl | ⟨h1, h2⟩)
          · exact .inr (.inr ⟨e, he1, by omega, hbr, rfl⟩)
          · exact .inr (.inl ⟨e, he1, hlt, he2, rfl⟩)
          · refine .inl ⟨h1, ?_⟩
            have := hother x h1 h2; omega
        · rintro (⟨h1, h2⟩ | ⟨e', h1, h2, h3, rfl⟩ | ⟨e', h1, h2, h3, rfl⟩)
          · refine .inr (.inr ⟨h1, ?_⟩)
            intro hc
            have := sorted_eq h.sorted h1 he1 hc
            subst this; omega
          · right; left
            by_cases hc : e'.right = e.right
            · rw [sorted_eq h.sorted h1 he1 hc]
            · have := hother e' h1 hc; omega
          · left
            by_cases hc : e'.right = e.right
            · rw [sorted_eq h.sorted h1 he1 hc]
            · have := hother e' h1 hc; omega
      · rw [if_neg hbr]
        -- the map is valid again, and nothing lies across `a`
        have h2 : InvC C K m2 := by
          refine ⟨hs2, ?_, ?_, ?_, ?_, ?_⟩
          · intro x hx
            rcases (hmem2 x).1 hx with rfl | ⟨hx1, _⟩
            · show e.left ≤ a - 1; omega
            · exact h.ne x hx1
          · intro x hx y hy hxy
            rcases (hmem2 x).1 hx with rfl | ⟨hx1, hx2⟩ <;> rcases (hmem2 y).1 hy with rfl | ⟨hy1, hy2⟩ <;>
              try simp only [] at hxy ⊢
            · omega
            · have := hother y hy1 hy2; omega
            · exact h.disj x hx1 e he1 (by omega)
            · exact h.disj x hx1 y hy1 hxy
          · intro x hx
            rcases (hmem2 x).1 hx with rfl | ⟨hx1, _⟩
            · exact hlo
            · exact h.lo x hx1
          · intro x hx
            rcases (hmem2 x).1 hx with rfl | ⟨hx1, _⟩
            · show a - 1 ≤ K.hi; omega
            · exact h.hi x hx1
          · intro hC x hx y hy hxy
            rcases (hmem2 x).1 hx with rfl | ⟨hx1, hx2⟩ <;> rcases (hmem2 y).1 hy with rfl | ⟨hy1, hy2⟩ <;>
              try simp only [] at hxy ⊢
            · omega
            · have h3 := hother y hy1 hy2
              have h4 := h.ne y hy1
              omega
            · exact h.canon hC x hx1 e he1 hxy
            · exact h.canon hC x hx1 y hy1 hxy
        have htop2 : b = K.hi → ∀ v, ¬ Cov m2 K.hi v := by
          rintro hbh v ⟨x, hx, h3, h4, h5⟩
          rcases (hmem2 x).1 hx with rfl | ⟨hx1, _⟩
          · simp only [] at h4; omega
          · have h6 := h.hi x hx1
            have h7 := htop hbh x hx1 (by omega)
            have h8 := h.hi e he1
            by_cases hc : e.right = x.right
            · rename_i hx2; exact hx2 hc.symm
            · have := h.disj e he1 x hx1 (by omega); omega
        have hcross2 : ∀ x ∈ m2, x.right < a ∨ a ≤ x.left := by
          intro x hx
          rcases (hmem2 x).1 hx with rfl | ⟨hx1, hx2⟩
          · left; show a - 1 < a; omega
          · have := hother x hx1 hx2; omega
        have hnl : next m2 (a - 1) = lower m2 a := by
          unfold next lower
          congr 1
          funext x
          exact decide_eq_decide.2 (by omega)
        rw [hnl]
        obtain ⟨m', h3, h4, h5⟩ := cutB_spec h2 hab hb htop2 hcross2 k
        refine ⟨m', h3, h4, ?_⟩
        intro x
        rw [h5]
        constructor
        · rintro (⟨h6, h7⟩ | ⟨e', h6, h7, h8, rfl⟩ | ⟨e', h6, h7, h8, rfl⟩)
          · rcases (hmem2 x).1 h6 with rfl | ⟨hx1, _⟩
            · exact .inr (.inl ⟨e, he1, hlt, he2, rfl⟩)
            · exact .inl ⟨hx1, h7⟩
          · have := hcross2 e' h6; omega
          · rcases (hmem2 e').1 h6 with rfl | ⟨hx1, _⟩
            · simp only [] at h8; omega
            · exact .inr (.inr ⟨e', hx1, h7, h8, rfl⟩)
        · rintro (⟨h6, h7⟩ | ⟨e', h6, h7, h8, rfl⟩ | ⟨e', h6, h7, h8, rfl⟩)
          · by_cases hc : x.right = e.right
            · have := sorted_eq h.sorted h6 he1 hc
              subst this; omega
            · exact .inl ⟨(hmem2 x).2 (.inr ⟨h6, hc⟩), h7⟩
          · by_cases hc : e'.right = e.right
            · rw [sorted_eq h.sorted h6 he1 hc]
              exact .inl ⟨(hmem2 _).2 (.inl rfl), .inl (by show a - 1 < a; omega)⟩
            · have := hother e' h6 hc; omega
          · exact .inr (.inr ⟨e', (hmem2 _).2 (.inr ⟨h6, by omega⟩), h7, h8, rfl⟩)
    · rw [if_neg hlt]
      have := hB (fun x hx => by
        by_cases hc : x.right = e.right
        · rw [sorted_eq h.sorted hx he1 hc]; omega
        · have := hother x hx hc; omega) k
      rw [hl] at this
      exact this

theorem cut_spec {C : Prop} {K : KeyType} {m : Map V} (h : InvC C K m) {a b : Int} (ha : K.lo ≤ a) (hab : a ≤ b) (hb : b ≤ K.hi)
    (htop : b = K.hi → ∀ e ∈ m, e.right = K.hi → e.left < a) (k : Map V → Out V) :
    ∃ m', (cutA K m a b fun m rb => cutB K m b rb k) = k m' ∧ CutOk C K m a b m' := by
  obtain ⟨m', h1, h2, h3⟩ := cut_mem h ha hab hb htop k
  exact ⟨m', h1, cutOk_of_mem h ha hab hb h2 h3⟩

/-- The left end of the new interval after merging. -/
def LeftEnd (m : Map V) (a : Int) (v : V) (L : Int) : Prop :=
  (L = a ∧ ∀ p ∈ m, p.right < a → (∀ x ∈ m, x.right < a → x.right ≤ p.right) → p.value ≠ v) ∨
  ∃ p ∈ m, p.right < a ∧ (∀ x ∈ m, x.right < a → x.right ≤ p.right) ∧ p.value = v ∧ L = p.left

/-- The right end. -/
def RightEnd (m : Map V) (b : Int) (v : V) (R : Int) : Prop :=
  (R = b ∧ ∀ n ∈ m, b < n.left → (∀ x ∈ m, b < x.left → n.right ≤ x.right) → n.value ≠ v) ∨
  ∃ n ∈ m, b < n.left ∧ (∀ x ∈ m, b < x.left → n.right ≤ x.right) ∧ n.value = v ∧ R = n.right

/-- The map after merging the new interval with its left neighbour. -/
theorem mergeLeft_spec [DecidableEq V] {C : Prop} {K : KeyType} {m m1 : Map V} (h : InvC C K m) {a b : Int} (hab : a ≤ b)
    (hout : ∀ e ∈ m, e.right < a ∨ b < e.left) (v : V) (hs1 : Sorted m1) (hmem1 : ∀ e, e ∈ m1 ↔ e = ⟨b, a, v⟩ ∨ e ∈ m) :
    ∃ m2 L, mergeLeft m1 a b v = (m2, L) ∧ Sorted m2 ∧ LeftEnd m a v L ∧ L ≤ a ∧
      (∀ x ∈ m, x.right < a → x.right < L ∨ L ≤ x.left) ∧
      ∀ x, x ∈ m2 ↔ x = ⟨b, L, v⟩ ∨ (x ∈ m ∧ (x.right < L ∨ b < x.left)) := by
  have hside : ∀ e ∈ m, (e.right < a ∧ e.right < b ∧ e.left < a) ∨ (b < e.left ∧ b < e.right) := by
    intro e he
    have h1 := hout e he
    have h2 := h.ne e he
    omega
  have hsame : (∀ p ∈ m, p.right < a → (∀ x ∈ m, x.right < a → x.right ≤ p.right) → p.value ≠ v) →
      Sorted m1 ∧ LeftEnd m a v a ∧ a ≤ a ∧
      (∀ x ∈ m, x.right < a → x.right < a ∨ a ≤ x.left) ∧
      ∀ x, x ∈ m1 ↔ x = ⟨b, a, v⟩ ∨ (x ∈ m ∧ (x.right < a ∨ b < x.left)) := by
    intro hn
    refine ⟨hs1, .inl ⟨rfl, hn⟩, Int.le_refl _, fun x _ hx => .inl hx, ?_⟩
    intro x
    rw [hmem1]
    constructor
    · rintro (h1 | h1)
      · exact .inl h1
      · exact .inr ⟨h1, hout x h1⟩
    · rintro (h1 | ⟨h1, _⟩)
      · exact .inl h1
      · exact .inr h1
  unfold mergeLeft
  cases hp : prev m1 b with
  | none =>
    rw [prev_none] at hp
    refine ⟨m1, a, rfl, hsame ?_⟩
    intro p hpm hpa
    have := hp p ((hmem1 p).2 (.inr hpm)); omega
  | some p =>
    obtain ⟨hp1, hp2, hp3⟩ := prev_some hs1 hp
    have hpm : p ∈ m := by
      rcases (hmem1 p).1 hp1 with rfl | h1
      · simp only [] at hp2; omega
      · exact h1
    have hpa : p.right < a := by have := hside p hpm; omega
    have hpmax : ∀ x ∈ m, x.right < a → x.right ≤ p.right :=
      fun x hx hxa => hp3 x ((hmem1 x).2 (.inr hx)) (by omega)
    have huniq : ∀ q ∈ m, q.right < a → (∀ x ∈ m, x.right < a → x.right ≤ q.right) → q = p := by
      intro q hq hqa hqmax
      have h1 := hqmax p hpm hpa
      have h2 := hpmax q hq hqa
      exact sorted_eq h.sorted hq hpm (by omega)
    show ∃ m2 L, (if p.value = v then _ else _) = (m2, L) ∧ _
    by_cases hv : p.value = v
    · rw [if_pos hv]
      refine ⟨_, _, rfl, sorted_erase (sorted_setLeft hs1 _ _) _, .inr ⟨p, hpm, hpa, hpmax, hv, rfl⟩, ?_, ?_, ?_⟩
      · have := h.ne p hpm; omega
      · intro x hx hxa
        have h1 := hpmax x hx hxa
        rcases Int.lt_or_eq_of_le h1 with h2 | h2
        · exact .inl (h.disj x hx p hpm h2)
        · rw [sorted_eq h.sorted hx hpm h2]; exact .inr (Int.le_refl _)
      · intro x
        rw [mem_erase, mem_setLeft]
        constructor
        · rintro ⟨⟨h1, h2⟩ | ⟨e, h1, h2, rfl⟩, h3⟩
          · right
            have hxm : x ∈ m := by
              rcases (hmem1 x).1 h1 with rfl | h4
              · exact absurd rfl h2
              · exact h4
            refine ⟨hxm, ?_⟩
            rcases hout x hxm with h4 | h4
            · have := hpmax x hxm h4
              exact .inl (h.disj x hxm p hpm (by omega))
            · exact .inr h4
          · left
            rcases (hmem1 e).1 h1 with rfl | h4
            · rfl
            · have := hside e h4; omega
        · rintro (rfl | ⟨h1, h2⟩)
          · exact ⟨.inr ⟨⟨b, a, v⟩, (hmem1 _).2 (.inl rfl), rfl, rfl⟩, by show b ≠ p.right; omega⟩
          · have h3 := hside x h1
            have h4 := h.ne p hpm
            have h5 := h.ne x h1
            exact ⟨.inl ⟨(hmem1 x).2 (.inr h1), by omega⟩, by omega⟩
    · rw [if_neg hv]
      refine ⟨m1, a, rfl, hsame ?_⟩
      intro q hq hqa hqmax
      rw [huniq q hq hqa hqmax]; exact hv

/-- The map after inserting and merging: one interval `[L, R]`, and those that are not in it. -/
theorem insertMerge_spec [DecidableEq V] {C : Prop} {K : KeyType} {m : Map V} (h : InvC C K m) {a b : Int} (hab : a ≤ b)
    (hout : ∀ e ∈ m, e.right < a ∨ b < e.left) (v : V) :
    ∃ m' L R, insertMerge m a b v = .ok m' ∧ Sorted m' ∧ LeftEnd m a v L ∧ RightEnd m b v R ∧
      ∀ x, x ∈ m' ↔ x = ⟨R, L, v⟩ ∨ (x ∈ m ∧ (x.right < L ∨ R < x.left)) := by
  have hside : ∀ e ∈ m, (e.right < a ∧ e.right < b ∧ e.left < a) ∨ (b < e.left ∧ b < e.right) := by
    intro e he
    have h1 := hout e he
    have h2 := h.ne e he
    omega
  obtain ⟨m1, hm1, hs1, hmem1⟩ := emplace_some h.sorted (x := ⟨b, a, v⟩) (by
    intro x hx
    have := hside x hx
    show x.right ≠ b
    omega)
  have hleft := mergeLeft_spec h hab hout v hs1 hmem1
  obtain ⟨m2, L, hm2, hs2, hL, hLa, hLside, hmem2⟩ := hleft
  unfold insertMerge
  simp only [hm1, hm2]
  unfold mergeRight
  have hLr : ∀ x ∈ m, x.right < L → x.right < a := fun x _ hx => by omega
  have hsame : (∀ n ∈ m, b < n.left → (∀ x ∈ m, b < x.left → n.right ≤ x.right) → n.value ≠ v) →
      Sorted m2 ∧ LeftEnd m a v L ∧ RightEnd m b v b ∧
      ∀ x, x ∈ m2 ↔ x = ⟨b, L, v⟩ ∨ (x ∈ m ∧ (x.right < L ∨ b < x.left)) :=
    fun hn => ⟨hs2, hL, .inl ⟨rfl, hn⟩, hmem2⟩
  cases hn : next m2 b with
  | none =>
    rw [next_none] at hn
    refine ⟨m2, L, b, rfl, hsame ?_⟩
    intro n hnm hnb
    have := hn n ((hmem2 n).2 (.inr ⟨hnm, .inr hnb⟩))
    have := h.ne n hnm; omega
  | some n =>
    obtain ⟨hn1, hn2, hn3⟩ := (next_some hs2).1 hn
    have hnm : n ∈ m := by
      rcases (hmem2 n).1 hn1 with rfl | h1
      · simp only [] at hn2; omega
      · exact h1.1
    have hnb : b < n.left := by have := hside n hnm; omega
    have hnmin : ∀ x ∈ m, b < x.left → n.right ≤ x.right := by
      intro x hx hxb
      have := h.ne x hx
      exact hn3 x ((hmem2 x).2 (.inr ⟨hx, .inr hxb⟩)) (by omega)
    have huniq : ∀ q ∈ m, b < q.left → (∀ x ∈ m, b < x.left → q.right ≤ x.right) → q = n := by
      intro q hq hqb hqmin
      have h1 := hqmin n hnm hnb
      have h2 := hnmin q hq hqb
      exact sorted_eq h.sorted hq hnm (by omega)
    show ∃ m' L' R, Out.ok (if n.value = v then erase (setLeft m2 n.right L) b else m2) = .ok m' ∧ _
    by_cases hv : n.value = v
    · rw [if_pos hv]
      refine ⟨_, L, n.right, rfl, sorted_erase (sorted_setLeft hs2 _ _) _, hL, .inr ⟨n, hnm, hnb, hnmin, hv, rfl⟩, ?_⟩
      intro x
      rw [mem_erase, mem_setLeft]
      constructor
      · rintro ⟨⟨h1, h2⟩ | ⟨e, h1, h2, rfl⟩, h3⟩
        · right
          rcases (hmem2 x).1 h1 with rfl | ⟨h4, h5⟩
          · exact absurd rfl h3
          · refine ⟨h4, ?_⟩
            rcases h5 with h5 | h5
            · exact .inl h5
            · have := hnmin x h4 h5
              exact .inr (h.disj n hnm x h4 (by omega))
        · left
          rcases (hmem2 e).1 h1 with rfl | ⟨h4, h5⟩
          · simp only [] at h2; omega
          · have := sorted_eq h.sorted h4 hnm h2
            subst this
            simp only [hv]
      · rintro (rfl | ⟨h1, h2⟩)
        · refine ⟨.inr ⟨n, hn1, rfl, ?_⟩, by show n.right ≠ b; omega⟩
          simp only [hv]
        · have h3 := hside x h1
          have h4 := h.ne x h1
          have h5 := h.ne n hnm
          refine ⟨.inl ⟨(hmem2 x).2 (.inr ⟨h1, ?_⟩), by omega⟩, by omega⟩
          omega
    · rw [if_neg hv]
      refine ⟨m2, L, b, rfl, hsame ?_⟩
      intro q hq hqb hqmin
      rw [huniq q hq hqb hqmin]; exact hv

/-- The key gets the value because the gap between `[a, b]` and an interval with the same value is closed. -/
def GapKey (m : Map V) (a b : Int) (v : V) (k : Int) : Prop :=
  (∀ w, ¬ Cov m k w) ∧
  ((k < a ∧ ∃ p, p < k ∧ Cov m p v ∧ ∀ j, p < j → j < a → ∀ w, ¬ Cov m j w) ∨
   (b < k ∧ ∃ p, k < p ∧ Cov m p v ∧ ∀ j, b < j → j < p → ∀ w, ¬ Cov m j w))

theorem cov_unique {C : Prop} {K : KeyType} {m : Map V} (h : InvC C K m) {k : Int} {v w : V} (h1 : Cov m k v) (h2 : Cov m k w) : v = w := by
  rw [← at_iff h] at h1 h2
  rw [h1] at h2
  exact Res.ok.inj h2

/-- The third part of `assign`: exactly what becomes of every key. -/
theorem merge_spec [DecidableEq V] {C : Prop} {K : KeyType} {m m1 : Map V} {a b : Int} (ha : K.lo ≤ a) (hab : a ≤ b)
    (hb : b ≤ K.hi) (hc : CutOk C K m a b m1) (v : V) :
    ∃ m', insertMerge m1 a b v = .ok m' ∧ InvC C K m' ∧
      ∀ k w, Cov m' k w ↔ ((a ≤ k ∧ k ≤ b) ∧ w = v) ∨ (¬ (a ≤ k ∧ k ≤ b) ∧ Cov m k w) ∨
        (w = v ∧ GapKey m a b v k) := by
  obtain ⟨hi1, hout, hcov1⟩ := hc
  obtain ⟨m2, L, R, h2, hs2, hL, hR, hmem⟩ := insertMerge_spec hi1 hab hout v
  refine ⟨m2, h2, ?_⟩
  -- the ends
  have hLa : L ≤ a ∧ K.lo ≤ L := by
    rcases hL with ⟨rfl, _⟩ | ⟨p, hp1, hp2, _, _, rfl⟩
    · exact ⟨Int.le_refl _, ha⟩
    · have := hi1.ne p hp1; exact ⟨by omega, hi1.lo p hp1⟩
  have hRb : b ≤ R ∧ R ≤ K.hi := by
    rcases hR with ⟨rfl, _⟩ | ⟨n, hn1, hn2, _, _, rfl⟩
    · exact ⟨Int.le_refl _, hb⟩
    · have := hi1.ne n hn1; exact ⟨by omega, hi1.hi n hn1⟩
  refine ⟨⟨hs2, ?_, ?_, ?_, ?_, ?_⟩, ?_⟩
  · intro x hx
    rcases (hmem x).1 hx with rfl | ⟨hx1, _⟩
    · show L ≤ R; omega
    · exact hi1.ne x hx1
  · intro x hx y hy hxy
    rcases (hmem x).1 hx with rfl | ⟨hx1, hx2⟩ <;> rcases (hmem y).1 hy with rfl | ⟨hy1, hy2⟩ <;> try simp only [] at hxy ⊢
    · omega
    · have := hi1.ne y hy1; omega
    · have := hi1.ne x hx1; omega
    · exact hi1.disj x hx1 y hy1 hxy
  · intro x hx
    rcases (hmem x).1 hx with rfl | ⟨hx1, _⟩
    · exact hLa.2
    · exact hi1.lo x hx1
  · intro x hx
    rcases (hmem x).1 hx with rfl | ⟨hx1, _⟩
    · exact hRb.2
    · exact hi1.hi x hx1
  · intro hC x hx y hy hxy
    rcases (hmem x).1 hx with rfl | ⟨hx1, hx2⟩ <;> rcases (hmem y).1 hy with rfl | ⟨hy1, hy2⟩ <;> try simp only [] at hxy ⊢
    · omega
    · -- the right neighbour
      have h3 := hi1.ne y hy1
      rcases hR with ⟨rfl, hno⟩ | ⟨n, hn1, hn2, hn3, hnv, rfl⟩
      · refine fun hc => hno y hy1 (by omega) ?_ hc.symm
        intro x hx hxb
        by_cases hc' : y.right ≤ x.right
        · exact hc'
        · have := hi1.disj x hx y hy1 (by omega)
          have := hi1.ne x hx; omega
      · rw [← hnv]; exact hi1.canon hC n hn1 y hy1 hxy
    · have h3 := hi1.ne x hx1
      rcases hL with ⟨rfl, hno⟩ | ⟨p, hp1, hp2, hp3, hpv, rfl⟩
      · refine hno x hx1 (by omega) ?_
        intro z hz hza
        by_cases hc' : z.right ≤ x.right
        · exact hc'
        · omega
      · rw [← hpv]; exact hi1.canon hC x hx1 p hp1 hxy
    · exact hi1.canon hC x hx1 y hy1 hxy
  · intro k w
    constructor
    · rintro ⟨x, hx, hl, hr, rfl⟩
      rcases (hmem x).1 hx with rfl | ⟨hx1, hx2⟩
      · simp only [] at hl hr
        by_cases hin : a ≤ k ∧ k ≤ b
        · exact .inl ⟨hin, rfl⟩
        · right
          -- left or right of `[a, b]`
          by_cases hka : k < a
          · rcases hL with ⟨rfl, _⟩ | ⟨p, hp1, hp2, hp3, hpv, rfl⟩
            · omega
            · by_cases hkp : k ≤ p.right
              · left
                exact ⟨hin, ((hcov1 k v).1 ⟨p, hp1, hl, hkp, hpv⟩).1⟩
              · right
                have hempty : ∀ j, p.right < j → j < a → ∀ w, ¬ Cov m j w := by
                  intro j hj1 hj2 w hw
                  obtain ⟨y, hy, hyl, hyr, _⟩ := (hcov1 j w).2 ⟨hw, by omega⟩
                  have h3 := hout y hy
                  have h4 := hp3 y hy (by omega)
                  omega
                have hne := hi1.ne p hp1
                exact ⟨rfl, fun w => hempty k (by omega) hka w, .inl ⟨hka, p.right, by omega,
                  ((hcov1 p.right v).1 ⟨p, hp1, hne, Int.le_refl _, hpv⟩).1, hempty⟩⟩
          · rcases hR with ⟨rfl, _⟩ | ⟨n, hn1, hn2, hn3, hnv, rfl⟩
            · omega
            · by_cases hkn : n.left ≤ k
              · left
                exact ⟨hin, ((hcov1 k v).1 ⟨n, hn1, hkn, hr, hnv⟩).1⟩
              · right
                have hempty : ∀ j, b < j → j < n.left → ∀ w, ¬ Cov m j w := by
                  intro j hj1 hj2 w hw
                  obtain ⟨y, hy, hyl, hyr, _⟩ := (hcov1 j w).2 ⟨hw, by omega⟩
                  have h3 := hout y hy
                  have h4 := hn3 y hy (by omega)
                  have h5 := hi1.ne n hn1
                  rcases Int.lt_or_eq_of_le h4 with h6 | h6
                  · have := hi1.disj n hn1 y hy h6; omega
                  · rw [sorted_eq hi1.sorted hy hn1 h6.symm] at hyl; omega
                have hne := hi1.ne n hn1
                exact ⟨rfl, fun w => hempty k (by omega) (by omega) w, .inr ⟨by omega, n.left, by omega,
                  ((hcov1 n.left v).1 ⟨n, hn1, Int.le_refl _, hne, hnv⟩).1, hempty⟩⟩
      · right; left
        have := (hcov1 k x.value).1 ⟨x, hx1, hl, hr, rfl⟩
        exact ⟨this.2, this.1⟩
    · have hnew : L ≤ k → k ≤ R → Cov m2 k v := fun h3 h4 => ⟨⟨R, L, v⟩, (hmem _).2 (.inl rfl), h3, h4, rfl⟩
      rintro (⟨hin, rfl⟩ | ⟨hin, hw⟩ | ⟨rfl, hgap, hk⟩)
      · exact hnew (by omega) (by omega)
      · obtain ⟨y, hy, hyl, hyr, rfl⟩ := (hcov1 k w).2 ⟨hw, hin⟩
        by_cases hd : y.right < L ∨ R < y.left
        · exact ⟨y, (hmem y).2 (.inr ⟨hy, hd⟩), hyl, hyr, rfl⟩
        · -- it is one of the merged intervals
          have hval : y.value = v ∧ L ≤ k ∧ k ≤ R := by
            have h3 := hi1.ne y hy
            rcases hout y hy with h4 | h4
            · rcases hL with ⟨rfl, _⟩ | ⟨p, hp1, hp2, hp3, hpv, rfl⟩
              · omega
              · have h5 := hp3 y hy h4
                rcases Int.lt_or_eq_of_le h5 with h6 | h6
                · have := hi1.disj y hy p hp1 h6; omega
                · rw [sorted_eq hi1.sorted hy hp1 h6] at hyl ⊢
                  exact ⟨hpv, hyl, by omega⟩
            · rcases hR with ⟨rfl, _⟩ | ⟨n, hn1, hn2, hn3, hnv, rfl⟩
              · omega
              · have h5 := hn3 y hy h4
                rcases Int.lt_or_eq_of_le h5 with h6 | h6
                · have := hi1.disj n hn1 y hy h6; omega
                · rw [sorted_eq hi1.sorted hy hn1 h6.symm] at hyl hyr ⊢
                  exact ⟨hnv, by omega, hyr⟩
          rw [hval.1]; exact hnew hval.2.1 hval.2.2
      · rcases hk with ⟨hka, p, hpk, hpv, hempty⟩ | ⟨hkb, p, hpk, hpv, hempty⟩
        · obtain ⟨y, hy, hyl, hyr, hyv⟩ := (hcov1 p w).2 ⟨hpv, by omega⟩
          have h3 : y.right < a := by have := hout y hy; omega
          have h4 : y.right = p := by
            rcases Int.lt_or_eq_of_le hyr with h5 | h5
            · exact absurd ((hcov1 y.right y.value).1 ⟨y, hy, hi1.ne y hy, Int.le_refl _, rfl⟩).1
                (hempty y.right h5 h3 y.value)
            · exact h5.symm
          have hmax : ∀ x ∈ m1, x.right < a → x.right ≤ y.right := by
            intro x hx hxa
            by_cases hc : x.right ≤ y.right
            · exact hc
            · exact absurd ((hcov1 x.right x.value).1 ⟨x, hx, hi1.ne x hx, Int.le_refl _, rfl⟩).1
                (hempty x.right (by omega) hxa x.value)
          rcases hL with ⟨_, hno⟩ | ⟨q, hq1, hq2, hq3, hqv, rfl⟩
          · exact absurd hyv (hno y hy h3 hmax)
          · have h5 := hq3 y hy h3
            have h6 := hi1.ne q hq1
            have h7 := hmax q hq1 hq2
            exact hnew (by omega) (by omega)
        · obtain ⟨y, hy, hyl, hyr, hyv⟩ := (hcov1 p w).2 ⟨hpv, by omega⟩
          have h3 : b < y.left := by have := hout y hy; omega
          have h4 : y.left = p := by
            rcases Int.lt_or_eq_of_le hyl with h5 | h5
            · exact absurd ((hcov1 y.left y.value).1 ⟨y, hy, Int.le_refl _, hi1.ne y hy, rfl⟩).1
                (hempty y.left h3 h5 y.value)
            · exact h5
          have hmin : ∀ x ∈ m1, b < x.left → y.right ≤ x.right := by
            intro x hx hxb
            by_cases hc : y.right ≤ x.right
            · exact hc
            · have h5 := hi1.disj x hx y hy (by omega)
              exact absurd ((hcov1 x.left x.value).1 ⟨x, hx, Int.le_refl _, hi1.ne x hx, rfl⟩).1
                (hempty x.left hxb (by have := hi1.ne x hx; omega) x.value)
          rcases hR with ⟨_, hno⟩ | ⟨q, hq1, hq2, hq3, hqv, rfl⟩
          · exact absurd hyv (hno y hy h3 hmin)
          · have h5 := hq3 y hy h3
            have h7 := hmin q hq1 hq2
            have h8 := hi1.ne y hy
            exact hnew (by omega) (by omega)

/-- One call of `assign`: exactly what becomes of every key. -/
theorem assign_spec [DecidableEq V] {C : Prop} {K : KeyType} {m : Map V} (h : InvC C K m) {a b : Int} (ha : K.lo ≤ a) (hab : a ≤ b)
    (hb : b ≤ K.hi) (htop : b = K.hi → ∀ e ∈ m, e.right = K.hi → e.left < a) (v : V) :
    ∃ m', assign K m a b v = .ok m' ∧ InvC C K m' ∧
      ∀ k w, Cov m' k w ↔ ((a ≤ k ∧ k ≤ b) ∧ w = v) ∨ (¬ (a ≤ k ∧ k ≤ b) ∧ Cov m k w) ∨
        (w = v ∧ GapKey m a b v k) := by
  obtain ⟨m1, h1, hc⟩ := cut_spec h ha hab hb htop (fun m => insertMerge m a b v)
  obtain ⟨m2, h2, h3⟩ := merge_spec ha hab hb hc v
  refine ⟨m2, ?_, h3⟩
  unfold assign; rw [if_pos hab, h1, h2]

/-- The second part fails when it has to split an interval behind the greatest key. -/
theorem cutB_top {C : Prop} {K : KeyType} {m : Map V} (h : InvC C K m) {e rb : Entry V} (he : e ∈ m) (her : e.right = K.hi)
    (k : Map V → Out V) :
    cutB K m K.hi (some rb) k = if K.wraps then .throw m .runtime else .ub := by
  have hl : lower m K.hi = some e := by
    rw [lower_some h.sorted]
    exact ⟨he, by omega, fun e' _ h1 => by omega⟩
  have hle : e.left ≤ K.hi := by have := h.ne e he; omega
  simp only [cutB, hl, hle, if_true, nextKey]
  rw [if_neg (show ¬ K.hi < K.hi by omega)]
  cases K.wraps <;> rfl

/-- `assign` fails if the greatest key is in an interval that does not begin before `a`. -/
theorem assign_top [DecidableEq V] {C : Prop} {K : KeyType} {m : Map V} (h : InvC C K m) {a : Int} (ha : a ≤ K.hi)
    {e : Entry V} (he : e ∈ m) (her : e.right = K.hi) (hel : a ≤ e.left) (v : V) :
    (K.wraps = true → ∃ m', assign K m a K.hi v = .throw m' .runtime) ∧ (K.wraps = false → assign K m a K.hi v = .ub) := by
  have hfin : ∃ m', assign K m a K.hi v = if K.wraps then .throw m' .runtime else .ub := by
    unfold assign
    rw [if_pos ha]
    unfold cutA
    cases hl : lower m a with
    | none =>
      rw [lower_none] at hl
      have := hl e he
      have := h.ne e he; omega
    | some e0 =>
      obtain ⟨h1, h2, h3⟩ := (lower_some h.sorted).1 hl
      show ∃ m', (if e0.left < a then _ else _) = _
      by_cases hlt : e0.left < a
      · rw [if_pos hlt]
        have hlo := h.lo e0 h1
        have hpk : previousKey K a = .ok (a - 1) := by simp only [previousKey]; rw [if_pos (by omega)]
        simp only [hpk]
        have hne : e0.right < e.right := by
          have h4 := h3 e he (by have := h.ne e he; omega)
          rcases Int.lt_or_eq_of_le h4 with h5 | h5
          · exact h5
          · rw [sorted_eq h.sorted h1 he h5] at hlt; omega
        have hs1 := sorted_erase h.sorted e0.right
        obtain ⟨m2, hm2, hs2, hmem2⟩ := emplace_some hs1 (x := ⟨a - 1, e0.left, e0.value⟩) (by
          intro x hx hxr
          have hx := mem_erase.1 hx
          simp only [] at hxr
          have := h.disj x hx.1 e0 h1 (by omega); omega)
        simp only [hm2]
        simp only [mem_erase] at hmem2
        rw [if_neg (show ¬ K.hi < e0.right by omega)]
        have he2 : e ∈ m2 := (hmem2 e).2 (.inr ⟨he, by omega⟩)
        cases hn : next m2 (a - 1) with
        | none =>
          rw [next_none] at hn
          have := hn e he2
          have := h.ne e he; omega
        | some rb =>
          -- as `cutB_top`; only the order of the keys is needed
          have hl2 : lower m2 K.hi = some e := by
            rw [lower_some hs2]
            exact ⟨he2, by omega, fun e' _ h1 => by omega⟩
          have hle : e.left ≤ K.hi := by have := h.ne e he; omega
          refine ⟨m2, ?_⟩
          simp only [cutB, hl2, hle, if_true, nextKey]
          rw [if_neg (show ¬ K.hi < K.hi by omega)]
          cases K.wraps <;> rfl
      · rw [if_neg hlt]
        exact ⟨m, cutB_top h he her _⟩
  obtain ⟨m', hm'⟩ := hfin
  constructor
  · intro hw; rw [hw] at hm'; exact ⟨m', hm'⟩
  · intro hw; rw [hw] at hm'; exact hm'

end Verif.IntervalMap
