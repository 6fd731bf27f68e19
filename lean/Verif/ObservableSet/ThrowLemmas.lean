import Verif.ObservableSet.ThrowModel
import Verif.ObservableSet.Mirror
import Mathlib.Data.List.Forall2

namespace Verif.ObservableSet.Throw

open Verif.VectorSet
open Verif.VectorSet.Spec (eqv)

variable {α : Type}

theorem sorted_of {lt : α → α → Bool} {o : OSet α} (hi : Inv lt o.set) : o.set.forward.Pairwise (fun a b => lt a b = true) := by rw [hi.forward]; exact hi.vals_sorted

theorem empty_inv (lt : α → α → Bool) : Inv lt (VSet.empty : VSet α) :=
  ⟨trivial, Or.inl rfl, rfl, List.Pairwise.nil, by simp [VSet.empty, toL], List.Pairwise.nil⟩

/-! ### The handlers of one mirror -/

theorem mirror_added_dup {lt : α → α → Bool} (hlt : StrictWeak lt) {m : OSet α} (hi : Inv lt m.set) {v : α} (h : m.set.forward.any (fun a => eqv lt a v) = true) :
    mirrorOn lt m (.added v) = .throw .logic := by
  obtain ⟨y, hy⟩ : ∃ y, m.set.forward.find? (fun a => eqv lt a v) = some y := by
    cases hf : m.set.forward.find? (fun a => eqv lt a v) with
    | some y => exact ⟨y, rfl⟩
    | none =>
      obtain ⟨x, h1, h2⟩ := List.any_eq_true.1 h
      rw [List.find?_eq_none] at hf
      exact absurd h2 (hf x h1)
  obtain ⟨s, k1, _, _⟩ := oset_step (o := m) hlt hi (.insert v) (S' := m.set.forward) (out := .inserted y false) (by simp only [Spec.step, hy])
  simp only [OSet.step] at k1
  simp only [mirrorOn, k1, Res.ok_bind]

theorem mirror_added_new {lt : α → α → Bool} (hlt : StrictWeak lt) {m : OSet α} (hi : Inv lt m.set) {v : α} (h : m.set.forward.any (fun a => eqv lt a v) = false) :
    ∃ m' notes, mirrorOn lt m (.added v) = .ok (m', notes) ∧ Inv lt m'.set ∧ ∀ a, a ∈ m'.set.forward ↔ a ∈ m.set.forward ∨ a = v := by
  have hf : m.set.forward.find? (fun a => eqv lt a v) = none := by
    rw [List.find?_eq_none]; rw [List.any_eq_false] at h; exact h
  obtain ⟨s, k1, k2, k3⟩ := oset_step (o := m) hlt hi (.insert v) (S' := m.set.forward.filter (fun a => lt a v) ++
    v :: m.set.forward.filter (fun a => lt v a)) (out := .inserted v true) (by simp only [Spec.step, hf])
  simp only [OSet.step] at k1
  refine ⟨{ m with set := s }, _, (by simp only [mirrorOn, k1, Res.ok_bind]; rfl), k2, fun a => ?_⟩
  show a ∈ s.forward ↔ _
  rw [k3, mem_insert h]

theorem mirror_removing_none {lt : α → α → Bool} (hlt : StrictWeak lt) {m : OSet α} (hi : Inv lt m.set) {v : α} (h : m.set.forward.any (fun a => eqv lt a v) = false) :
    mirrorOn lt m (.removing v) = .throw .logic := by
  obtain ⟨s, k1, k2, k3⟩ := oset_step (o := m) hlt hi (.eraseKey v) rfl
  simp only [OSet.step, h, Bool.false_eq_true, if_false] at k1
  simp only [mirrorOn, k1, Res.ok_bind]

theorem mirror_removing_some {lt : α → α → Bool} (hlt : StrictWeak lt) {m : OSet α} (hi : Inv lt m.set) {v : α} (h : m.set.forward.any (fun a => eqv lt a v) = true) :
    ∃ m' notes, mirrorOn lt m (.removing v) = .ok (m', notes) ∧ Inv lt m'.set ∧ m'.set.forward = m.set.forward.filter (fun a => !eqv lt a v) := by
  obtain ⟨s, k1, k2, k3⟩ := oset_step (o := m) hlt hi (.eraseKey v) rfl
  simp only [OSet.step, h, if_true] at k1
  exact ⟨{ m with set := s }, _, (by simp only [mirrorOn, k1, Res.ok_bind]; rfl), k2, k3⟩

theorem mirror_clearing {lt : α → α → Bool} (hlt : StrictWeak lt) {m : OSet α} (hi : Inv lt m.set) :
    ∃ m' notes, mirrorOn lt m .clearing = .ok (m', notes) ∧ Inv lt m'.set ∧ m'.set.forward = [] := by
  obtain ⟨s, k1, k2, k3⟩ := oset_step (o := m) hlt hi .clear rfl
  simp only [OSet.step, Res.ok.injEq, Prod.mk.injEq] at k1
  refine ⟨{ m with set := s }, m.clear.2, ?_, k2, k3⟩
  simp only [mirrorOn]; rw [← k1.1]

/-! ### The source -/

theorem src_insert {lt : α → α → Bool} (hlt : StrictWeak lt) {o : OSet α} (hi : Inv lt o.set) (v : α) :
    (o.set.forward.any (fun a => eqv lt a v) = true ∧ ∃ o' x notes, o.insert lt v = .ok (o', .inserted x false, notes) ∧ Inv lt o'.set ∧ o'.set.forward = o.set.forward)
    ∨ (o.set.forward.any (fun a => eqv lt a v) = false ∧ ∃ o' notes, o.insert lt v = .ok (o', .inserted v true, notes) ∧ Inv lt o'.set
      ∧ ∀ a, a ∈ o'.set.forward ↔ a ∈ o.set.forward ∨ a = v) := by
  cases hf : o.set.forward.find? (fun a => eqv lt a v) with
  | some y =>
    obtain ⟨s, k1, k2, k3⟩ := oset_step (o := o) hlt hi (.insert v) (S' := o.set.forward) (out := .inserted y false) (by simp only [Spec.step, hf])
    simp only [OSet.step] at k1
    refine .inl ⟨List.any_eq_true.2 ⟨y, List.mem_of_find?_eq_some hf, ?_⟩, _, _, _, k1, k2, k3⟩
    simpa using List.find?_some hf
  | none =>
    have h : o.set.forward.any (fun a => eqv lt a v) = false := by
      rw [List.any_eq_false]; rw [List.find?_eq_none] at hf; exact hf
    obtain ⟨s, k1, k2, k3⟩ := oset_step (o := o) hlt hi (.insert v) (S' := o.set.forward.filter (fun a => lt a v) ++
      v :: o.set.forward.filter (fun a => lt v a)) (out := .inserted v true) (by simp only [Spec.step, hf])
    simp only [OSet.step] at k1
    refine .inr ⟨h, _, _, k1, k2, fun a => ?_⟩
    show a ∈ s.forward ↔ _
    rw [k3, mem_insert h]

theorem src_find {lt : α → α → Bool} (hlt : StrictWeak lt) {o : OSet α} (hi : Inv lt o.set) (k : α) :
    (o.set.forward.any (fun a => eqv lt a k) = false ∧ o.set.find (lt k) (fun a => lt a k) = .ok none)
    ∨ ∃ e, o.set.find (lt k) (fun a => lt a k) = .ok (some e) ∧ e.val ∈ o.set.forward ∧ eqv lt e.val k = true
      ∧ ∃ o' notes, o.eraseIter e = .ok (o', notes) ∧ Inv lt o'.set ∧ ∀ a, a ∈ o'.set.forward ↔ a ∈ o.set.forward ∧ a ≠ e.val := by
  have hfw := hi.forward
  have hs := sorted_of hi
  rcases findNode_root (s := o.set) (keyOK_of_sorted hlt hi.sorted k) with ⟨c, n, l, e, r, gs, p, X, Y, q1, q2, q3, q4⟩ | ⟨p, q1, q2⟩
  · right
    obtain ⟨s, k1, k2, k3⟩ := eraseIter_ok hi q2
    have hv := vals_split q2
    have he : eqv lt e.val k = true := by simp [eqv, q3, q4]
    have hm : e.val ∈ o.set.forward := by rw [hfw, hv]; simp
    refine ⟨e, by simp only [VSet.find, q1], hm, he, _, _, k1, k2, fun a => ?_⟩
    show a ∈ s.forward ↔ _
    have hs' := hs
    rw [hfw, hv] at hs'
    obtain ⟨hX, hY⟩ := sorted_hit hlt hs' q3 q4
    rw [k3, ← hit_filter hX hY q3 q4, ← hv, ← hfw, mem_erase_eqv hlt hs hm he]
  · left
    have hm := vals_all (lt := lt) (k := k) (s := o.set) q2
    exact ⟨by rw [hfw, miss_any hm], by simp only [VSet.find, q1]⟩

/-! ### Notification -/

/-- What is always true of an observer. -/
def Good (T : List α) : Watcher α → Prop
  | .mirror lt m => StrictWeak lt ∧ Inv lt m.set ∧ ∀ x ∈ m.set.forward, x ∈ T
  | .other _ => True

theorem Good.mono {T T' : List α} (h : ∀ x ∈ T, x ∈ T') {w : Watcher α} (hg : Good T w) : Good T' w := by
  cases w with
  | mirror lt m => exact ⟨hg.1, hg.2.1, fun x hx => h x (hg.2.2 x hx)⟩
  | other t => trivial

/-- An observer has handled an event. -/
inductive Handled (e : Event α) : Watcher α → Watcher α → Prop
  | mirror {lt m m' notes} : mirrorOn lt m e = .ok (m', notes) → Handled e (.mirror lt m) (.mirror lt m')
  | other {t} : t e = false → Handled e (.other t) (.other t)

/-- An observer throws at an event. -/
def Throws (e : Event α) : Watcher α → Prop
  | .mirror lt m => mirrorOn lt m e = .throw .logic
  | .other t => t e = true

theorem good_cases {T : List α} {w : Watcher α} (h : Good T w) (e : Event α) : (∃ w', Handled e w w') ∨ Throws e w := by
  cases w with
  | other t =>
    cases ht : t e with
    | true => exact .inr ht
    | false => exact .inl ⟨_, .other ht⟩
  | mirror lt m =>
    obtain ⟨h1, h2, h3⟩ := h
    cases e with
    | added v =>
      cases ha : m.set.forward.any (fun a => eqv lt a v) with
      | true => exact .inr (mirror_added_dup h1 h2 ha)
      | false => obtain ⟨m', n, k, _⟩ := mirror_added_new h1 h2 ha; exact .inl ⟨_, .mirror k⟩
    | removing v =>
      cases ha : m.set.forward.any (fun a => eqv lt a v) with
      | false => exact .inr (mirror_removing_none h1 h2 ha)
      | true => obtain ⟨m', n, k, _⟩ := mirror_removing_some h1 h2 ha; exact .inl ⟨_, .mirror k⟩
    | clearing => obtain ⟨m', n, k, _⟩ := mirror_clearing h1 h2; exact .inl ⟨_, .mirror k⟩

/-- Every call reaches all the observers, or all before the one that throws. -/
theorem notifyAll_spec {T : List α} (e : Event α) : ∀ (ws : List (Watcher α)), (∀ w ∈ ws, Good T w) →
    (∃ ws', notifyAll e ws = (ws', .ok ()) ∧ List.Forall₂ (Handled e) ws ws')
    ∨ ∃ A w B A' x, ws = A ++ w :: B ∧ notifyAll e ws = (A' ++ w :: B, .throw x) ∧ List.Forall₂ (Handled e) A A' ∧ Throws e w := by
  intro ws
  induction ws with
  | nil => intro _; exact .inl ⟨[], rfl, .nil⟩
  | cons w ws ih =>
    intro hg
    rcases good_cases (hg w List.mem_cons_self) e with ⟨w', hw⟩ | hw
    · have hn : ∀ r : List (Watcher α) × Res Unit, notifyAll e ws = r → notifyAll e (w :: ws) = (w' :: r.1, r.2) := by
        intro r hr
        cases hw with
        | mirror h => simp only [notifyAll, h, hr]
        | other h => simp only [notifyAll, h, hr]; rfl
      rcases ih (fun w hw => hg w (List.mem_cons_of_mem _ hw)) with ⟨ws', h1, h2⟩ | ⟨A, z, B, A', x, h1, h2, h3, h4⟩
      · exact .inl ⟨w' :: ws', hn _ h1, .cons hw h2⟩
      · exact .inr ⟨w :: A, z, B, w' :: A', x, by rw [h1]; rfl, hn _ h2, .cons hw h3, h4⟩
    · right
      cases w with
      | mirror lt m =>
        have hw' : mirrorOn lt m e = .throw .logic := hw
        exact ⟨[], _, ws, [], .logic, rfl, by simp only [notifyAll, hw', List.nil_append], .nil, hw⟩
      | other t =>
        have hw' : t e = true := hw
        exact ⟨[], _, ws, [], .user 0, rfl, by simp only [notifyAll, hw', if_true, List.nil_append], .nil, hw⟩

/-- The handler of an added element that is in `T`. -/
theorem handled_added {T : List α} {v : α} (hv : v ∈ T) {w w' : Watcher α} (hg : Good T w) (h : Handled (.added v) w w') : Good T w' := by
  cases h with
  | other => trivial
  | @mirror lt m m' notes h =>
    obtain ⟨h1, h2, h3⟩ := hg
    cases ha : m.set.forward.any (fun a => eqv lt a v) with
    | true => rw [mirror_added_dup h1 h2 ha] at h; cases h
    | false =>
      obtain ⟨m1, n1, k1, k2, k3⟩ := mirror_added_new h1 h2 ha
      rw [h] at k1; cases k1
      refine ⟨h1, k2, fun x hx => ?_⟩
      rcases (k3 x).1 hx with hx | rfl
      · exact h3 x hx
      · exact hv

/-- The handler of a removed element: the mirror has no element that is equivalent to it then. -/
theorem handled_removing {T : List α} {v : α} {lt : α → α → Bool} {m m' : OSet α} {notes : List (Note α)} (hg : Good T (.mirror lt m))
    (h : mirrorOn lt m (.removing v) = .ok (m', notes)) :
    Good T (.mirror lt m') ∧ m'.set.forward.any (fun a => eqv lt a v) = false ∧ v ∉ m'.set.forward ∧ (v ∈ m.set.forward → ∀ a, a ∈ m'.set.forward ↔ a ∈ m.set.forward ∧ a ≠ v) := by
  obtain ⟨h1, h2, h3⟩ := hg
  cases ha : m.set.forward.any (fun a => eqv lt a v) with
  | false => rw [mirror_removing_none h1 h2 ha] at h; cases h
  | true =>
    obtain ⟨m1, n1, k1, k2, k3⟩ := mirror_removing_some h1 h2 ha
    rw [h] at k1; cases k1
    refine ⟨⟨h1, k2, fun x hx => ?_⟩, ?_, fun hx => ?_, fun hv a => ?_⟩
    · rw [k3] at hx; exact h3 x (List.mem_filter.1 hx).1
    · rw [k3, List.any_eq_false]
      intro a ha'
      have := (List.mem_filter.1 ha').2
      simpa using this
    · rw [k3] at hx
      have := (List.mem_filter.1 hx).2
      rw [eqv_refl h1] at this; cases this
    · rw [k3]; exact mem_erase_eqv h1 (sorted_of h2) hv (eqv_refl h1 v) a

theorem handled_clearing {T T' : List α} {w w' : Watcher α} (hg : Good T w) (h : Handled .clearing w w') : Good T' w' := by
  cases h with
  | other => trivial
  | @mirror lt m m' notes h =>
    obtain ⟨h1, h2, h3⟩ := hg
    obtain ⟨m1, n1, k1, k2, k3⟩ := mirror_clearing h1 h2
    rw [h] at k1; cases k1
    exact ⟨h1, k2, by rw [k3]; simp⟩

theorem forall2_good {e : Event α} {T T' : List α} (hstep : ∀ w w', Good T w → Handled e w w' → Good T' w') {A A' : List (Watcher α)} (h : List.Forall₂ (Handled e) A A')
    (hg : ∀ w ∈ A, Good T w) : ∀ w ∈ A', Good T' w := by
  induction h with
  | nil => simp
  | cons h1 _ ih =>
    intro w hw
    rcases List.mem_cons.1 hw with rfl | hw
    · exact hstep _ _ (hg _ List.mem_cons_self) h1
    · exact ih (fun w hw => hg w (List.mem_cons_of_mem _ hw)) w hw

end Verif.ObservableSet.Throw
