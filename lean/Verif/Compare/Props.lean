import Verif.Compare.Lemmas

/-! # Comparators (C47), heterogeneous look-up (C48), `position_changed` (C49) -/

namespace Verif.Compare

variable {α : Type}

/-! ## C47 -/

/-- C47: a composite comparator of strict weak orders, any number of them, is a strict weak order. -/
theorem c47_composite (cs : List (α → α → Bool)) (h : ∀ c ∈ cs, StrictWeak c) : StrictWeak (composite cs) := by
  induction cs with
  | nil => exact empty_sw
  | cons c cs ih =>
    rw [composite_cons]
    exact thenBy_sw (h c List.mem_cons_self) (ih fun d hd => h d (List.mem_cons_of_mem _ hd))

/-- C47: ... and it is the lexicographic order. -/
theorem c47_lexicographic (cs : List (α → α → Bool)) (a b : α) (h : ∀ c ∈ cs, StrictWeak c) :
    composite cs a b = true ↔ Lex cs a b := by
  induction cs with
  | nil =>
    constructor
    · intro h; cases h
    · rintro ⟨pre, c, post, h1, _⟩
      cases pre <;> cases h1
  | cons c cs ih =>
    have ih := ih fun d hd => h d (List.mem_cons_of_mem _ hd)
    rw [composite_cons, thenBy_true]
    constructor
    · rintro (h1 | ⟨h1, h2, h3⟩)
      · exact ⟨[], c, cs, rfl, h1, by simp⟩
      · obtain ⟨pre, d, post, e, hd, hp⟩ := ih.1 h3
        refine ⟨c :: pre, d, post, by rw [e]; rfl, hd, ?_⟩
        intro x hx
        rcases List.mem_cons.1 hx with rfl | hx
        · exact ⟨h1, h2⟩
        · exact hp x hx
    · rintro ⟨pre, d, post, e, hd, hp⟩
      cases pre with
      | nil => cases e; exact .inl hd
      | cons x pre =>
        cases e
        have hx := hp c List.mem_cons_self
        exact .inr ⟨hx.1, hx.2, ih.2 ⟨pre, d, post, rfl, hd, fun y hy => hp y (List.mem_cons_of_mem _ hy)⟩⟩

/-- C47: the values a composite comparator does not tell apart are those none of the comparators tells apart. -/
theorem c47_equivalent (cs : List (α → α → Bool)) (a b : α) :
    Eqv (composite cs) a b ↔ ∀ c ∈ cs, Eqv c a b := by
  induction cs with
  | nil => simp [composite, Eqv]
  | cons c cs ih =>
    rw [List.forall_mem_cons, ← ih]
    simp only [Eqv, composite]
    cases c a b <;> cases c b a <;> simp

/-- C47: reverse and key comparators of strict weak orders are strict weak orders. -/
theorem c47_reverse (c : α → α → Bool) (h : StrictWeak c) : StrictWeak (reverse c) := reverse_sw h

theorem c47_key {κ : Type} (getKey : α → κ) (comp : κ → κ → Bool) (h : StrictWeak comp) : StrictWeak (key getKey comp).tt :=
  StrictWeak.of_map h getKey

/-- C47: reversed, what was greater is less; the values not told apart are the same; reversing twice changes nothing. -/
theorem c47_reverse_order (c : α → α → Bool) (a b : α) :
    (reverse c a b = true ↔ c b a = true) ∧ (Eqv (reverse c) a b ↔ Eqv c a b) :=
  ⟨Iff.rfl, And.comm⟩

theorem c47_reverse_twice (c : α → α → Bool) (d : Comp α) :
    reverse (reverse c) = c ∧ transparentReverse (transparentReverse d) = d := ⟨rfl, rfl⟩

/-- C47: on valid pointers, the comparator of pointers is the comparator of what they point to. -/
theorem c47_pointers {κ : Type} (heap : Nat → Option α) (getKey : α → κ) (comp : κ → κ → Bool) (l r : Nat) (a b : α)
    (hl : heap l = some a) (hr : heap r = some b) (k : κ) :
    ptrTT heap getKey comp l r = .ok ((key getKey comp).tt a b) ∧
    ptrTK heap getKey comp l k = .ok ((key getKey comp).tk a k) ∧
    ptrKT heap getKey comp k r = .ok ((key getKey comp).kt k b) := by
  simp [ptrTT, ptrTK, ptrKT, hl, hr, key]

/-- C47: a comparison of pointers is undefined exactly if one of them is null or dangling. -/
theorem c47_pointers_undefined {κ : Type} (heap : Nat → Option α) (getKey : α → κ) (comp : κ → κ → Bool) (l r : Nat) (k : κ) :
    (ptrTT heap getKey comp l r = .ub ↔ heap l = none ∨ heap r = none) ∧
    (ptrTK heap getKey comp l k = .ub ↔ heap l = none) ∧
    (ptrKT heap getKey comp k r = .ub ↔ heap r = none) := by
  cases hl : heap l <;> cases hr : heap r <;> simp [ptrTT, ptrTK, ptrKT, hl, hr]

/-- By the first number, the greatest first, then by the second one. -/
def sample : List (Nat × Nat → Nat × Nat → Bool) :=
  [reverse (key (·.1) (fun a b => decide (a < b))).tt, (key (·.2) (fun a b => decide (a < b))).tt]

theorem nat_sw : StrictWeak (fun a b : Nat => decide (a < b)) :=
  ⟨by simp, by simp only [decide_eq_true_eq]; omega, by simp only [decide_eq_false_iff_not]; omega⟩

example : ∀ c ∈ sample, StrictWeak c := by
  intro c hc
  simp only [sample, List.mem_cons, List.not_mem_nil, or_false] at hc
  rcases hc with rfl | rfl
  · exact c47_reverse _ (c47_key (fun p : Nat × Nat => p.1) _ nat_sw)
  · exact c47_key (fun p : Nat × Nat => p.2) _ nat_sw

example : composite sample (5, 1) (3, 0) = true ∧ composite sample (3, 0) (3, 1) = true := by decide

/-! ## C48 -/

/-- C48: comparators by keys, their reverses and their composites order elements and keys together. -/
theorem c48_key {κ : Type} (getKey : α → κ) (comp : κ → κ → Bool) (h : StrictWeak comp) : Consistent (key getKey comp) := by
  refine ⟨comp, ?_⟩
  have e : mixed (key getKey comp) comp =
      fun x y => comp (match x with | .inl a => getKey a | .inr k => k) (match y with | .inl a => getKey a | .inr k => k) := by
    funext x y; cases x <;> cases y <;> rfl
  rw [e]
  exact StrictWeak.of_map h _

theorem c48_reverse (c : Comp α) (h : Consistent c) : Consistent (transparentReverse c) := by
  obtain ⟨kk, h⟩ := h
  refine ⟨fun a b => kk b a, ?_⟩
  have e : mixed (transparentReverse c) (fun a b => kk b a) = reverse (mixed c kk) := by
    funext x y; cases x <;> cases y <;> rfl
  rw [e]
  exact reverse_sw h

theorem c48_composite (cs : List (Comp α)) (h : ∀ c ∈ cs, Consistent c) : Consistent (transparent cs) := by
  induction cs with
  | nil =>
    refine ⟨fun _ _ => false, ?_⟩
    have e : mixed (transparent ([] : List (Comp α))) (fun _ _ => false) = fun _ _ => false := by
      funext x y; cases x <;> cases y <;> rfl
    rw [e]; exact empty_sw
  | cons c cs ih => exact transparent_cons (h c List.mem_cons_self) (ih fun d hd => h d (List.mem_cons_of_mem _ hd))

/-- C48: the elements themselves are ordered strictly weakly. -/
theorem c48_elements (c : Comp α) (h : Consistent c) : StrictWeak c.tt := by
  obtain ⟨kk, h⟩ := h
  exact StrictWeak.of_map h Sum.inl

/-- C48: in every sorted sequence the elements equivalent to a key form a contiguous range; those before it are less than
the key and those after it are greater. -/
theorem c48_range (c : Comp α) (h : Consistent c) (k : c.Key) (l : List α) (hs : Sorted c.tt l) :
    ∃ pre mid post, l = pre ++ mid ++ post ∧
      (∀ x ∈ pre, c.tk x k = true ∧ c.kt k x = false) ∧
      (∀ x ∈ mid, c.tk x k = false ∧ c.kt k x = false) ∧
      (∀ x ∈ post, c.tk x k = false ∧ c.kt k x = true) := by
  obtain ⟨kk, h⟩ := h
  have hx : ∀ x, c.tk x k = true → c.kt k x = false := fun x e => h.asymm (a := .inl x) (b := .inr k) e
  have hx' : ∀ x, c.kt k x = true → c.tk x k = false := fun x e => h.asymm (a := .inr k) (b := .inl x) e
  induction l with
  | nil => exact ⟨[], [], [], rfl, by simp, by simp, by simp⟩
  | cons a l ih =>
    obtain ⟨h1, h2⟩ := List.pairwise_cons.1 hs
    obtain ⟨pre, mid, post, e, p1, p2, p3⟩ := ih h2
    have hle : ∀ b ∈ l, c.tt b a = false := h1
    by_cases ha : c.tk a k = true
    · exact ⟨a :: pre, mid, post, by rw [e]; rfl, List.forall_mem_cons.2 ⟨⟨ha, hx a ha⟩, p1⟩, p2, p3⟩
    · have ha : c.tk a k = false := by simpa using ha
      -- nothing after `a` is less than `k`
      have hpre : pre = [] := by
        cases pre with
        | nil => rfl
        | cons b pre =>
          have hb := (p1 b List.mem_cons_self).1
          have hb' : c.tt b a = false := hle b (by rw [e]; simp)
          cases hk : c.kt k a with
          | true =>
            have : mixed c kk (.inl b) (.inl a) = true := h.trans (.inl b) (.inr k) (.inl a) hb hk
            rw [show mixed c kk (.inl b) (.inl a) = c.tt b a from rfl, hb'] at this; cases this
          | false =>
            have : mixed c kk (.inl b) (.inl a) = true :=
              h.lt_of_lt_of_eqv (a := .inl b) (b := .inr k) (c := .inl a) hb hk ha
            rw [show mixed c kk (.inl b) (.inl a) = c.tt b a from rfl, hb'] at this; cases this
      subst hpre
      cases hk : c.kt k a with
      | false =>
        exact ⟨[], a :: mid, post, by rw [e]; rfl, by simp, List.forall_mem_cons.2 ⟨⟨ha, hk⟩, p2⟩, p3⟩
      | true =>
        have hmid : mid = [] := by
          cases mid with
          | nil => rfl
          | cons b mid =>
            have hb := p2 b List.mem_cons_self
            have hb' : c.tt b a = false := hle b (by rw [e]; simp)
            have : mixed c kk (.inl b) (.inl a) = true :=
              h.lt_of_eqv_of_lt (a := .inl b) (b := .inr k) (c := .inl a) hb.1 hb.2 hk
            rw [show mixed c kk (.inl b) (.inl a) = c.tt b a from rfl, hb'] at this; cases this
        subst hmid
        exact ⟨[], [], a :: post, by rw [e]; rfl, by simp, by simp, List.forall_mem_cons.2 ⟨⟨ha, hk⟩, p3⟩⟩

/-- C48: elements equivalent to the same key are equivalent to each other; so a strictly sorted sequence (a set) has at
most one of them. -/
theorem c48_unique (c : Comp α) (h : Consistent c) (k : c.Key) (l : List α) (hs : Strict c.tt l) (a b : α) (ha : a ∈ l)
    (hb : b ∈ l) (hak : c.tk a k = false ∧ c.kt k a = false) (hbk : c.tk b k = false ∧ c.kt k b = false) :
    Eqv c.tt a b ∧ a = b := by
  obtain ⟨kk, h⟩ := h
  have he : Eqv c.tt a b := h.incompTrans (.inl a) (.inr k) (.inl b) hak.1 hak.2 hbk.2 hbk.1
  refine ⟨he, ?_⟩
  induction l with
  | nil => cases ha
  | cons x l ih =>
    obtain ⟨h1, h2⟩ := List.pairwise_cons.1 hs
    rcases List.mem_cons.1 ha with ha' | ha' <;> rcases List.mem_cons.1 hb with hb' | hb'
    · rw [ha', hb']
    · have := h1 b hb'; rw [← ha', he.1] at this; cases this
    · have := h1 a ha'; rw [← hb', he.2] at this; cases this
    · exact ih h2 ha' hb'

/-- An element with the same key as `x` compares as the key of `x` does: look-up by key and by element agree. -/
theorem c48_by_element {κ : Type} (getKey : α → κ) (comp : κ → κ → Bool) (x y : α) :
    (key getKey comp).tk y (getKey x) = (key getKey comp).tt y x ∧
    (key getKey comp).kt (getKey x) y = (key getKey comp).tt x y := ⟨rfl, rfl⟩

/-- The keys of an element, one for each comparator. -/
def keysOf {κ : Type} (comp : κ → κ → Bool) : (gs : List (α → κ)) → α → KeyTuple (gs.map (key · comp))
  | [], _ => ()
  | g :: gs, a => (g a, keysOf comp gs a)

/-- C48: the same for composite comparators. -/
theorem c48_by_element_composite {κ : Type} (comp : κ → κ → Bool) (gs : List (α → κ)) (x y : α) :
    (transparent (gs.map (key · comp))).tk y (keysOf comp gs x) = (transparent (gs.map (key · comp))).tt y x ∧
    (transparent (gs.map (key · comp))).kt (keysOf comp gs x) y = (transparent (gs.map (key · comp))).tt x y := by
  induction gs with
  | nil => exact ⟨rfl, rfl⟩
  | cons g gs ih =>
    refine ⟨?_, ?_⟩
    · exact congrArg (fun z => if comp (g y) (g x) then true else if comp (g x) (g y) then false else z) ih.1
    · exact congrArg (fun z => if comp (g x) (g y) then true else if comp (g y) (g x) then false else z) ih.2

def ksample : Comp (Nat × Nat) :=
  transparent [transparentReverse (key (·.1) (fun a b => decide (a < b))), key (·.2) (fun a b => decide (a < b))]

example : Consistent ksample := by
  refine c48_composite _ ?_
  intro c hc
  simp only [List.mem_cons, List.not_mem_nil, or_false] at hc
  rcases hc with rfl | rfl
  · exact c48_reverse _ (c48_key (fun p : Nat × Nat => p.1) _ nat_sw)
  · exact c48_key (fun p : Nat × Nat => p.2) _ nat_sw

example : Strict ksample.tt [(5, 1), (5, 2), (3, 0), (1, 7)] := by unfold Strict; decide
example : ksample.tk (5, 2) ((3 : Nat), (0 : Nat), ()) = true ∧ ksample.tk (3, 0) ((3 : Nat), (0 : Nat), ()) = false ∧
    ksample.kt ((3 : Nat), (0 : Nat), ()) (1, 7) = true := by decide

/-! ## C49 -/

theorem strict_mid {lt : α → α → Bool} (pre post : List α) (v : α) :
    Strict lt (pre ++ v :: post) ↔
      Strict lt (pre ++ post) ∧ (∀ x ∈ pre, lt x v = true) ∧ (∀ x ∈ post, lt v x = true) := by
  simp only [Strict, List.pairwise_append, List.pairwise_cons, List.forall_mem_cons]
  constructor
  · rintro ⟨h1, ⟨h2, h3⟩, h4⟩
    exact ⟨⟨h1, h3, fun a ha => (h4 a ha).2⟩, fun a ha => (h4 a ha).1, h2⟩
  · rintro ⟨⟨h1, h2, h3⟩, h4, h5⟩
    exact ⟨h1, ⟨h5, h2⟩, fun a ha => ⟨h4 a ha, h3 a ha⟩⟩

/-- C49: if one element of a strictly sorted sequence is changed, `position_changed` says no exactly when the sequence is
still strictly sorted; it never reads outside of the sequence. -/
theorem c49_position_changed (lt : α → α → Bool) (h : StrictWeak lt) (pre post : List α) (old new : α)
    (hs : Strict lt (pre ++ old :: post)) :
    ∃ b, positionChanged lt (pre ++ new :: post) pre.length = .ok b ∧ (b = false ↔ Strict lt (pre ++ new :: post)) := by
  have h0 := ((strict_mid pre post old).1 hs).1
  rw [strict_mid]
  have hold : deref (pre ++ new :: post) pre.length = .ok new := by simp [deref]
  -- the neighbour on the left decides for all on the left
  have hl : ∀ p q, pre = p ++ [q] → ((∀ x ∈ pre, lt x new = true) ↔ lt q new = true) := by
    rintro p q rfl
    constructor
    · intro hx; exact hx q (by simp)
    · intro hq x hx
      rcases List.mem_append.1 hx with hx | hx
      · have : lt x q = true := by
          have := (List.pairwise_append.1 (List.pairwise_append.1 h0).1).2.2
          exact this x hx q (by simp)
        exact h.trans _ _ _ this hq
      · rw [List.mem_singleton.1 hx]; exact hq
  have hr : ∀ q p, post = q :: p → ((∀ x ∈ post, lt new x = true) ↔ lt new q = true) := by
    rintro q p rfl
    constructor
    · intro hx; exact hx q (by simp)
    · intro hq x hx
      rcases List.mem_cons.1 hx with rfl | hx
      · exact hq
      · have := (List.pairwise_cons.1 (List.pairwise_append.1 h0).2.1).1 x hx
        exact h.trans _ _ _ hq this
  -- the check of the right neighbour
  have hright : ∃ b, (if pre.length + 1 > (pre ++ new :: post).length then (Res.ub : Res Bool)
      else if pre.length + 1 ≠ (pre ++ new :: post).length then do
        let old ← deref (pre ++ new :: post) pre.length
        let next ← deref (pre ++ new :: post) (pre.length + 1)
        .ok (!lt old next)
      else .ok false) = .ok b ∧ (b = false ↔ ∀ x ∈ post, lt new x = true) := by
    have hlen : (pre ++ new :: post).length = pre.length + (post.length + 1) := by simp
    rw [if_neg (show ¬ pre.length + 1 > (pre ++ new :: post).length by omega)]
    cases post with
    | nil =>
      refine ⟨false, ?_, by simp⟩
      rw [if_neg (by simp)]
    | cons q p =>
      have hn : deref (pre ++ new :: q :: p) (pre.length + 1) = .ok q := by
        simp [deref]
      refine ⟨!lt new q, ?_, ?_⟩
      · rw [if_pos (by simp), hold, hn]; rfl
      · rw [hr q p rfl]; simp
  obtain ⟨b, hb, hb'⟩ := hright
  cases hp : pre.reverse with
  | nil =>
    have hpre : pre = [] := by simpa using hp
    subst hpre
    refine ⟨b, ?_, ?_⟩
    · unfold positionChanged
      simp only [List.length_nil, ne_eq, not_true_eq_false, if_false, Res.ok_bind, Bool.not_false, if_true] at hb ⊢
      exact hb
    · rw [hb']
      simp only [List.nil_append] at h0
      simp [h0]
  | cons q p =>
    have hpre : pre = p.reverse ++ [q] := by
      have := congrArg List.reverse hp
      simpa using this
    have hlen : pre.length = p.length + 1 := by rw [hpre]; simp
    have hprev : deref (pre ++ new :: post) (pre.length - 1) = .ok q := by
      rw [hlen, hpre]
      simp [deref]
    have hl' := hl _ _ hpre
    unfold positionChanged
    rw [if_pos (show pre.length ≠ 0 by omega), hprev, hold]
    simp only [Res.ok_bind]
    cases hq : lt q new with
    | true =>
      refine ⟨b, by rw [hold] at hb; simpa using hb, ?_⟩
      rw [hb', hl', hq]; simp [h0]
    | false =>
      refine ⟨true, by simp, ?_⟩
      rw [hl', hq]; simp

example : positionChanged (fun a b : Nat => decide (a < b)) [10, 20, 35, 40] 2 = .ok false ∧
    positionChanged (fun a b : Nat => decide (a < b)) [10, 20, 45, 40] 2 = .ok true ∧
    positionChanged (fun a b : Nat => decide (a < b)) [10, 20, 20, 40] 2 = .ok true := by decide

example : Strict (fun a b : Nat => decide (a < b)) ([10, 20] ++ 30 :: [40]) := by unfold Strict; decide

end Verif.Compare
