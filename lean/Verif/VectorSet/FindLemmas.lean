import Verif.VectorSet.RemoveLemmas
import Verif.Common.Order

/-! # Searching: helper lemmas -/

namespace Verif.VectorSet

variable {α : Type}

/-- The elements are ordered consistently with the key: those smaller than the key come first, those greater come last. -/
def KeyOK (klt elt : α → Bool) (L : List (Elem α)) : Prop :=
  L.Pairwise (fun a b => (klt a.val = true → klt b.val = true) ∧ (elt b.val = true → elt a.val = true)) ∧
  ∀ a ∈ L, ¬ (klt a.val = true ∧ elt a.val = true)

theorem KeyOK.append_left {klt elt : α → Bool} {A B : List (Elem α)} (h : KeyOK klt elt (A ++ B)) : KeyOK klt elt A :=
  ⟨(List.pairwise_append.1 h.1).1, fun a ha => h.2 a (List.mem_append_left _ ha)⟩

theorem KeyOK.append_right {klt elt : α → Bool} {A B : List (Elem α)} (h : KeyOK klt elt (A ++ B)) : KeyOK klt elt B :=
  ⟨(List.pairwise_append.1 h.1).2.1, fun a ha => h.2 a (List.mem_append_right _ ha)⟩

/-- All elements of the list are smaller / greater than the key. -/
abbrev AllP (p : α → Bool) (L : List (Elem α)) : Prop := ∀ a ∈ L, p a.val = true

theorem KeyOK.right_klt {klt elt : α → Bool} {A B : List (Elem α)} {e : Elem α} (h : KeyOK klt elt (A ++ e :: B))
    (he : klt e.val = true) : AllP klt B := by
  intro b hb
  have := (List.pairwise_append.1 h.1).2.1
  exact ((List.pairwise_cons.1 this).1 b hb).1 he

theorem KeyOK.left_elt {klt elt : α → Bool} {A B : List (Elem α)} {e : Elem α} (h : KeyOK klt elt (A ++ e :: B))
    (he : elt e.val = true) : AllP elt A := by
  intro a ha
  have := (List.pairwise_append.1 h.1).2.2 a ha e (by simp)
  exact this.2 he

/-- What the search of the parent (614-638) returns when nothing is found: the node under which the new node goes. -/
def InsertPoint (klt elt : α → Bool) (root : Tree α) : Option (Cursor α) → Prop
  | none => root = .nil
  | some (.nil, _) => False
  | some (.node c n l e r, fs) =>
    zip (.node c n l e r) fs = root ∧
    ((klt e.val = true ∧ l = .nil ∧ AllP elt (ctxL fs) ∧ AllP klt (e :: toL r ++ ctxR fs)) ∨
     (klt e.val = false ∧ elt e.val = true ∧ r = .nil ∧ AllP elt (ctxL fs ++ toL l ++ [e]) ∧ AllP klt (ctxR fs)))

/-- The parent variable during the search, when the focus is `x` with ancestors `fs`. -/
def ParOK (x : Tree α) (fs : List (Frame α)) (klt elt : α → Bool) : Option (Cursor α) → Prop
  | none => fs = []
  | some (t, gs) => ∃ f, fs = f :: gs ∧ t = plug x f ∧
      ((f.side = .left ∧ klt f.elem.val = true) ∨ (f.side = .right ∧ klt f.elem.val = false ∧ elt f.elem.val = true))

theorem findNode_ok (klt elt : α → Bool) : ∀ (x : Tree α) (fs : List (Frame α)) (par : Option (Cursor α)),
    KeyOK klt elt (toL (zip x fs)) → AllP elt (ctxL fs) → AllP klt (ctxR fs) → ParOK x fs klt elt par →
    (∃ c n l e r gs p, findNode klt elt x fs par = (some (.node c n l e r, gs), p) ∧
      zip (.node c n l e r) gs = zip x fs ∧ klt e.val = false ∧ elt e.val = false) ∨
    (∃ p, findNode klt elt x fs par = (none, p) ∧ InsertPoint klt elt (zip x fs) p ∧
      ∃ A B, toL (zip x fs) = A ++ B ∧ AllP elt A ∧ AllP klt B) := by
  intro x
  induction x with
  | nil =>
    intro fs par hk hl hr hp
    right
    refine ⟨par, rfl, ?_, ctxL fs, ctxR fs, by rw [toL_zip]; simp [toL], hl, hr⟩
    cases par with
    | none => simp only [ParOK] at hp; subst hp; rfl
    | some c =>
      obtain ⟨t, gs⟩ := c
      obtain ⟨f, rfl, rfl, h⟩ := hp
      obtain ⟨s, cf, nf, ef, sf⟩ := f
      simp only at h
      rcases h with ⟨rfl, h2⟩ | ⟨rfl, h2, h3⟩
      · refine ⟨rfl, Or.inl ⟨h2, rfl, ?_, ?_⟩⟩
        · simpa [ctxL] using hl
        · simpa [ctxR] using hr
      · refine ⟨rfl, Or.inr ⟨h2, h3, rfl, ?_, ?_⟩⟩
        · simpa [ctxL] using hl
        · simpa [ctxR] using hr
  | node c n l e r ihl ihr =>
    intro fs par hk hl hr hp
    have hL : toL (zip (.node c n l e r) fs) = (ctxL fs ++ toL l) ++ e :: (toL r ++ ctxR fs) := by
      rw [toL_zip]; simp [toL]
    rw [hL] at hk
    simp only [findNode]
    by_cases h1 : klt e.val = true
    · rw [if_pos h1]
      have := ihl (⟨.left, c, n, e, r⟩ :: fs) (some (.node c n l e r, fs)) (by
        rw [zip]; simp only [plug]; rw [hL]; exact hk) (by simpa [ctxL] using hl) (by
        have h2 := hk.right_klt h1
        simp only [ctxR]
        intro a ha
        rcases List.mem_cons.1 ha with rfl | ha
        · exact h1
        · exact h2 a ha) ⟨_, rfl, rfl, Or.inl ⟨rfl, h1⟩⟩
      exact this
    · rw [if_neg h1]
      by_cases h2 : elt e.val = true
      · rw [if_pos h2]
        have := ihr (⟨.right, c, n, e, l⟩ :: fs) (some (.node c n l e r, fs)) (by
          rw [zip]; simp only [plug]; rw [hL]; exact hk) (by
          have h2' := hk.left_elt h2
          simp only [ctxL]
          intro a ha
          rcases List.mem_append.1 ha with ha | ha
          · exact h2' a ha
          · simp only [List.mem_singleton] at ha; subst ha; exact h2) (by simpa [ctxR] using hr)
          ⟨_, rfl, rfl, Or.inr ⟨rfl, by simpa using h1, h2⟩⟩
        exact this
      · rw [if_neg h2]
        left
        exact ⟨c, n, l, e, r, fs, par, rfl, rfl, by simpa using h1, by simpa using h2⟩

theorem findIndexByKey_ok (klt elt : α → Bool) : ∀ (x : Tree α) (rank : Nat), KeyOK klt elt (toL x) → CntOK x →
    (∃ X e Y, findIndexByKey klt elt x rank = some (e, rank + X.length) ∧ toL x = X ++ e :: Y ∧
      klt e.val = false ∧ elt e.val = false) ∨
    (findIndexByKey klt elt x rank = none ∧ ∀ a ∈ toL x, klt a.val = true ∨ elt a.val = true) := by
  intro x
  induction x with
  | nil => intro rank _ _; right; exact ⟨rfl, by simp [toL]⟩
  | node c n l e r ihl ihr =>
    intro rank hk hc
    obtain ⟨_, hcl, hcr⟩ := hc
    simp only [findIndexByKey]
    simp only [toL] at hk ⊢
    by_cases h1 : klt e.val = true
    · rw [if_pos h1]
      rcases ihl rank hk.append_left hcl with ⟨X, e', Y, q1, q2, q3, q4⟩ | ⟨q1, q2⟩
      · left; exact ⟨X, e', Y ++ e :: toL r, q1, by rw [q2]; simp, q3, q4⟩
      · right
        refine ⟨q1, ?_⟩
        intro a ha
        rcases List.mem_append.1 ha with ha | ha
        · exact q2 a ha
        · rcases List.mem_cons.1 ha with rfl | ha
          · exact Or.inl h1
          · exact Or.inl (hk.right_klt h1 a ha)
    · rw [if_neg h1]
      by_cases h2 : elt e.val = true
      · rw [if_pos h2]
        have hk' : KeyOK klt elt (toL r) := (KeyOK.append_right (A := toL l ++ [e]) (by simpa using hk))
        rcases ihr (rank + (l.cnt + 1)) hk' hcr with ⟨X, e', Y, q1, q2, q3, q4⟩ | ⟨q1, q2⟩
        · left
          refine ⟨toL l ++ e :: X, e', Y, ?_, by rw [q2]; simp, q3, q4⟩
          rw [q1, cnt_eq hcl]; simp; omega
        · right
          refine ⟨q1, ?_⟩
          intro a ha
          rcases List.mem_append.1 ha with ha | ha
          · exact Or.inr (hk.left_elt h2 a ha)
          · rcases List.mem_cons.1 ha with rfl | ha
            · exact Or.inr h2
            · exact q2 a ha
      · rw [if_neg h2]
        left
        refine ⟨toL l, e, toL r, ?_, rfl, by simpa using h1, by simpa using h2⟩
        rw [cnt_eq hcl, Nat.add_comm]

theorem find?_append_or {p : Elem α → Bool} {A B : List (Elem α)} : (A ++ B).find? p = (A.find? p).or (B.find? p) := by
  simp

theorem findBoundByKey_ok (klt elt : α → Bool) : ∀ (x : Tree α) (g : Option (Elem α)), KeyOK klt elt (toL x) →
    (∃ X e Y, findBoundByKey klt elt x g = (some e, true) ∧ toL x = X ++ e :: Y ∧ klt e.val = false ∧
      elt e.val = false) ∨
    (findBoundByKey klt elt x g = (((toL x).find? (fun a => klt a.val)).or g, false) ∧
      ∀ a ∈ toL x, klt a.val = true ∨ elt a.val = true) := by
  intro x
  induction x with
  | nil => intro g _; right; exact ⟨by simp [findBoundByKey, toL], by simp [toL]⟩
  | node c n l e r ihl ihr =>
    intro g hk
    simp only [findBoundByKey]
    simp only [toL] at hk ⊢
    by_cases h1 : klt e.val = true
    · rw [if_pos h1]
      rcases ihl (some e) hk.append_left with ⟨X, e', Y, q1, q2, q3, q4⟩ | ⟨q1, q2⟩
      · left; exact ⟨X, e', Y ++ e :: toL r, q1, by rw [q2]; simp, q3, q4⟩
      · right
        refine ⟨?_, ?_⟩
        · rw [q1]
          simp [h1]
        · intro a ha
          rcases List.mem_append.1 ha with ha | ha
          · exact q2 a ha
          · rcases List.mem_cons.1 ha with rfl | ha
            · exact Or.inl h1
            · exact Or.inl (hk.right_klt h1 a ha)
    · rw [if_neg h1]
      by_cases h2 : elt e.val = true
      · rw [if_pos h2]
        have hk' : KeyOK klt elt (toL r) := (KeyOK.append_right (A := toL l ++ [e]) (by simpa using hk))
        rcases ihr g hk' with ⟨X, e', Y, q1, q2, q3, q4⟩ | ⟨q1, q2⟩
        · left
          exact ⟨toL l ++ e :: X, e', Y, q1, by rw [q2]; simp, q3, q4⟩
        · right
          refine ⟨?_, ?_⟩
          · rw [q1]
            have hn : (toL l).find? (fun a => klt a.val) = none := by
              rw [List.find?_eq_none]
              intro a ha hka
              exact hk.2 a (by simp [ha]) ⟨hka, hk.left_elt h2 a ha⟩
            simp [hn, h1]
          · intro a ha
            rcases List.mem_append.1 ha with ha | ha
            · exact Or.inr (hk.left_elt h2 a ha)
            · rcases List.mem_cons.1 ha with rfl | ha
              · exact Or.inr h2
              · exact q2 a ha
      · rw [if_neg h2]
        left
        exact ⟨toL l, e, toL r, rfl, rfl, by simpa using h1, by simpa using h2⟩

theorem findNodeByIndex_ok : ∀ (x : Tree α) (i : Nat), CntOK x → findNodeByIndex x i = (toL x)[i]? := by
  intro x
  induction x with
  | nil => intro i _; simp [findNodeByIndex, toL]
  | node c n l e r ihl ihr =>
    intro i hc
    obtain ⟨_, hcl, hcr⟩ := hc
    simp only [findNodeByIndex, toL, cnt_eq hcl]
    by_cases h1 : i < (toL l).length
    · rw [if_pos h1, ihl i hcl, List.getElem?_append_left h1]
    · rw [if_neg h1]
      by_cases h2 : i > (toL l).length
      · rw [if_pos h2, ihr _ hcr, List.getElem?_append_right (by omega)]
        obtain ⟨k, rfl⟩ : ∃ k, i = (toL l).length + 1 + k := ⟨i - ((toL l).length + 1), by omega⟩
        have : (toL l).length + 1 + k - (toL l).length = k + 1 := by omega
        rw [this]; simp
      · rw [if_neg h2]
        have : i = (toL l).length := by omega
        subst this
        simp

theorem indexUp_ok {m : Nat} (i : Nat) : ∀ (fs : List (Frame α)), FrOK m fs → indexUp i fs = (ctxL fs).length + i := by
  intro fs
  induction fs generalizing i m with
  | nil => intro _; simp [indexUp, ctxL]
  | cons f fs ih =>
    intro h
    obtain ⟨_, h2, h3⟩ := h
    simp only [indexUp]
    rw [ih _ h3]
    obtain ⟨s, c, n, e, t⟩ := f
    cases s
    · simp [ctxL]
    · simp only [if_true, ctxL, List.length_append, List.length_cons, List.length_nil]
      have hc : t.cnt = (toL t).length := cnt_eq h2
      rw [hc]; omega

theorem rightmost_eq : ∀ (t : Tree α), rightmost t = (toL t).getLast? := by
  intro t
  induction t with
  | nil => rfl
  | node c n l e r _ ihr =>
    cases r with
    | nil => simp [rightmost, toL]
    | node c' n' l' e' r' =>
      simp only [rightmost] at ihr ⊢
      rw [ihr]
      simp only [toL]
      rw [show toL l ++ e :: (toL l' ++ e' :: toL r') = (toL l ++ e :: toL l') ++ (e' :: toL r') by simp,
        List.getLast?_append, List.getLast?_append]
      simp [List.getLast?_cons]

theorem climbPred_eq : ∀ (fs : List (Frame α)), climbPred fs = (ctxL fs).getLast? := by
  intro fs
  induction fs with
  | nil => rfl
  | cons f fs ih =>
    obtain ⟨s, c, n, e, t⟩ := f
    cases s
    · simp [climbPred, ctxL, ih]
    · simp [climbPred, ctxL]

theorem getPredecessor_ok (c : Color) (n : Nat) (l : Tree α) (e : Elem α) (r : Tree α) (fs : List (Frame α)) :
    getPredecessor (.node c n l e r, fs) = .ok (ctxL fs ++ toL l).getLast? := by
  cases l with
  | nil => simp [getPredecessor, toL, climbPred_eq]
  | node c' n' l' e' r' =>
    simp only [getPredecessor, rightmost_eq, List.getLast?_append]
    simp only [toL, List.getLast?_append]
    simp [List.getLast?_cons]

theorem locate_ok (p : Nat) : ∀ (x : Tree α) (fs : List (Frame α)),
    (∃ c n l e r gs, locate p x fs = some (.node c n l e r, gs) ∧ zip (.node c n l e r) gs = zip x fs ∧ e.id = p) ∨
    (locate p x fs = none ∧ ∀ a ∈ toL x, a.id ≠ p) := by
  intro x
  induction x with
  | nil => intro fs; right; exact ⟨rfl, by simp [toL]⟩
  | node c n l e r ihl ihr =>
    intro fs
    simp only [locate]
    by_cases h : e.id = p
    · left; rw [if_pos h]; exact ⟨c, n, l, e, r, fs, rfl, rfl, h⟩
    · rw [if_neg h]
      rcases ihl (⟨.left, c, n, e, r⟩ :: fs) with ⟨c', n', l', e', r', gs, q1, q2, q3⟩ | ⟨q1, q2⟩
      · left; rw [q1]; exact ⟨c', n', l', e', r', gs, rfl, q2, q3⟩
      · rw [q1]
        rcases ihr (⟨.right, c, n, e, l⟩ :: fs) with ⟨c', n', l', e', r', gs, q1', q2', q3'⟩ | ⟨q1', q2'⟩
        · left; rw [q1']; exact ⟨c', n', l', e', r', gs, rfl, q2', q3'⟩
        · right
          simp only [q1', true_and, toL]
          intro a ha
          rcases List.mem_append.1 ha with ha | ha
          · exact q2 a ha
          · rcases List.mem_cons.1 ha with rfl | ha
            · exact h
            · exact q2' a ha

/-- The addresses are pairwise different. -/
def Uniq (L : List (Elem α)) : Prop := L.Pairwise (fun a b => a.id ≠ b.id)

theorem uniq_split {X Y A B : List (Elem α)} {e e' : Elem α} (hu : Uniq (X ++ e :: Y)) (h : X ++ e :: Y = A ++ e' :: B)
    (hid : e.id = e'.id) : X = A ∧ e = e' ∧ Y = B := by
  induction X generalizing A with
  | nil =>
    cases A with
    | nil => simpa using h
    | cons a A =>
      simp only [List.nil_append, List.cons_append, List.cons.injEq] at h
      obtain ⟨rfl, rfl⟩ := h
      have := (List.pairwise_cons.1 hu).1 e' (by simp)
      exact (this hid).elim
  | cons x X ih =>
    cases A with
    | nil =>
      simp only [List.nil_append, List.cons_append, List.cons.injEq] at h
      obtain ⟨rfl, rfl⟩ := h
      have := (List.pairwise_cons.1 hu).1 e (by simp)
      exact (this hid.symm).elim
    | cons a A =>
      simp only [List.cons_append, List.cons.injEq] at h
      obtain ⟨rfl, h⟩ := h
      obtain ⟨h1, h2, h3⟩ := ih (List.pairwise_cons.1 hu).2 h
      exact ⟨by rw [h1], h2, h3⟩

theorem insertAfterId_ok {A B : List (Elem α)} {p x : Elem α} (hu : Uniq (A ++ p :: B)) :
    insertAfterId p.id x (A ++ p :: B) = .ok (A ++ p :: x :: B) := by
  induction A with
  | nil => simp [insertAfterId]
  | cons a A ih =>
    have h := List.pairwise_cons.1 hu
    have hne : a.id ≠ p.id := h.1 p (by simp)
    simp only [List.cons_append, insertAfterId, if_neg hne, ih h.2]

theorem removeId_ok {A B : List (Elem α)} {p : Elem α} (hu : Uniq (A ++ p :: B)) :
    removeId p.id (A ++ p :: B) = A ++ B := by
  induction A with
  | nil => simp [removeId]
  | cons a A ih =>
    have h := List.pairwise_cons.1 hu
    have hne : a.id ≠ p.id := h.1 p (by simp)
    simp only [List.cons_append, removeId, if_neg hne, ih h.2]

theorem nextOf_ok {A B : List (Elem α)} {p : Elem α} (hu : Uniq (A ++ p :: B)) :
    nextOf p.id (A ++ p :: B) = .ok B.head? := by
  induction A with
  | nil => simp [nextOf]
  | cons a A ih =>
    have h := List.pairwise_cons.1 hu
    have hne : a.id ≠ p.id := h.1 p (by simp)
    simp only [List.cons_append, nextOf, if_neg hne, ih h.2]

end Verif.VectorSet
