import Verif.SingleList.Lemmas

/-! # C109: a single linked list is a stack of the elements added to it -/

namespace Verif.SingleList

open Verif
open Verif.QuickList (Ptr Links upd rd wr)

/-- C109: a history that keeps the rules has no undefined behaviour, and after it the loop over each list gives exactly the elements that were added and not removed, the
last added first; `size` counts them. -/
theorem c109_contents (ops : List Op) (ha : Spec.AllowedAll {} ops) :
    ∃ h, run {} ops = .ok h ∧ ∀ s l, (Spec.run {} ops).lists s = some l → ∀ fuel, l.length < fuel →
      elements h s fuel = .ok (some l) ∧ size h s fuel = .ok (some l.length) := by
  obtain ⟨h, hr, r⟩ := rep_run ops {} {} rep_init ha
  refine ⟨h, hr, fun s l hl fuel hf => ?_⟩
  have hs := r.alL s (by simp [hl])
  have : elements h s fuel = .ok (some l) := by
    have := traverse_path (al := h.al) l s (r.path s l hl) hs (fun a ha => r.alE a (by simp [r.mem s l a hl ha])) (fun a ha e => r.ne hl (t := s) (by simp [hl]) (e ▸ ha)) fuel hf
    simp [elements, rd, hs, this]
  exact ⟨this, by simp [size, this]⟩

/-- C109: the tests of the size, and the first element. -/
theorem c109_tests (ops : List Op) (ha : Spec.AllowedAll {} ops) :
    ∃ h, run {} ops = .ok h ∧ ∀ s l, (Spec.run {} ops).lists s = some l →
      empty h s = .ok (decide (l.length = 0)) ∧ emptyOrOne h s = .ok (decide (l.length ≤ 1)) ∧ containsOne h s = .ok (decide (l.length = 1)) ∧
      ∀ a k, l = a :: k → front h s = .ok a := by
  obtain ⟨h, hr, r⟩ := rep_run ops {} {} rep_init ha
  refine ⟨h, hr, fun s l hl => ?_⟩
  have hs := r.alL s (by simp [hl])
  have hp := r.path s l hl
  have hne : ∀ a ∈ l, a ≠ s := fun a ha e => r.ne hl (t := s) (by simp [hl]) (e ▸ ha)
  have hal : ∀ a ∈ l, h.al a = true := fun a ha => r.alE a (by simp [r.mem s l a hl ha])
  match l, hp, hne, hal with
  | [], hp, _, _ =>
    simp only [Path] at hp
    simp [empty, QuickList.Single.empty, emptyOrOne, containsOne, rd, hs, hp]
  | [a], hp, hne, hal =>
    simp only [Path] at hp
    have h1 := hne a (by simp)
    have h2 := hal a (by simp)
    simp [empty, QuickList.Single.empty, emptyOrOne, containsOne, front, cast, rd, hs, hp, h1, h2]
  | a :: b :: l, hp, hne, hal =>
    simp only [Path] at hp
    have h1 := hne a (by simp)
    have h2 := hal a (by simp)
    have h3 := hne b (by simp)
    simp [empty, QuickList.Single.empty, emptyOrOne, containsOne, front, cast, rd, hs, hp, h1, h2, h3]

/-- C109: `pop_front` gives the element added last, which is then in no list and does not say it is. -/
theorem c109_pop (ops : List Op) (s a : Nat) (l : List Nat) (ha : Spec.AllowedAll {} ops) (hl : (Spec.run {} ops).lists s = some (a :: l)) :
    ∃ h h1, run {} ops = .ok h ∧ popFront h s = .ok (a, h1) ∧ included h1 a = .ok false ∧ ∀ fuel, l.length < fuel → elements h1 s fuel = .ok (some l) := by
  obtain ⟨h, hr, r⟩ := rep_run ops {} {} rep_init ha
  have hpop := popFront_eq r hl
  obtain ⟨h2, e2, r2⟩ := rep_pop r s ⟨a, l, hl⟩
  have e3 : h2 = ⟨h.al, upd (upd h.next s (h.next a)) a none⟩ := by
    simp [step, hpop] at e2
    exact e2.symm
  refine ⟨h, _, hr, hpop, ?_, ?_⟩
  · simp [included, rd, upd, r.alE a (by simp [r.mem s _ a hl (by simp)])]
  · intro fuel hf
    rw [← e3]
    have hl2 : ((Spec.run {} ops).step (.pop s)).lists s = some l := by simp [Spec.step, set, hl]
    have hs := r2.alL s (by simp [hl2])
    have := traverse_path (al := h2.al) l s (r2.path s l hl2) hs (fun a ha => r2.alE a (by simp [r2.mem s l a hl2 ha])) (fun a ha e => r2.ne hl2 (t := s) (by simp [hl2]) (e ▸ ha)) fuel hf
    simp [elements, rd, hs, this]

/-- Nothing in the history removes elements from a list without telling them. -/
def Tidy : Op → Prop
  | .clear _ | .delList _ => False
  | _ => True

theorem tidy_false (ops : List Op) : ∀ (A : Spec), (∀ a, A.elems a ≠ some true) → (∀ op ∈ ops, Tidy op) → ∀ a, (A.run ops).elems a ≠ some true := by
  induction ops with
  | nil => intro A h _; exact h
  | cons op ops ih =>
    intro A h ht
    refine ih _ ?_ (fun o ho => ht o (by simp [ho]))
    have := ht op (by simp)
    intro a
    cases op <;> simp only [Tidy] at this <;> simp only [Spec.step, set] <;> (try split) <;> simp <;> exact h a

/-- C109, for histories without `clear` and without the end of a list that is not empty: an element says it is included exactly if it is in a list.
Missing: the elements of a list that was cleared (`c109_clear_violated`). -/
theorem c109_included_partial (ops : List Op) (ha : Spec.AllowedAll {} ops) (ht : ∀ op ∈ ops, Tidy op) :
    ∃ h, run {} ops = .ok h ∧ ∀ a, (Spec.run {} ops).elems a ≠ none → ∃ b, included h a = .ok b ∧ (b = true ↔ (Spec.run {} ops).InList a) := by
  obtain ⟨h, hr, r⟩ := rep_run ops {} {} rep_init ha
  refine ⟨h, hr, fun a hn => ?_⟩
  have hf := tidy_false ops {} (by simp) ht a
  have he : (Spec.run {} ops).elems a = some false := by
    cases hx : (Spec.run {} ops).elems a with
    | none => exact absurd hx hn
    | some b => cases b with
      | true => exact absurd hx hf
      | false => rfl
  refine ⟨h.next a != none, by simp [included, rd, r.alE a hn], ?_⟩
  simp only [bne_iff_ne, ne_eq]
  constructor
  · intro hx
    by_cases hi : (Spec.run {} ops).InList a
    · exact hi
    · exact absurd (r.free a he hi) hx
  · intro ⟨s, l, hl, hm⟩
    exact path_some (r.path s l hl) hm

/-- C109 is violated by `clear`: every element of the list still says it is included, though it is in no list. -/
theorem c109_clear_violated (ops : List Op) (s : Nat) (l : List Nat) (ha : Spec.AllowedAll {} ops) (hl : (Spec.run {} ops).lists s = some l) :
    ∃ h h1, run {} ops = .ok h ∧ step h (.clear s) = .ok h1 ∧ empty h1 s = .ok true ∧ ∀ a ∈ l, included h1 a = .ok true := by
  obtain ⟨h, hr, r⟩ := rep_run ops {} {} rep_init ha
  have hs := r.alL s (by simp [hl])
  refine ⟨h, ⟨h.al, upd h.next s (some s)⟩, hr, by simp [step, QuickList.Single.clear, wr, hs], by simp [empty, QuickList.Single.empty, rd, hs, upd], fun a ham => ?_⟩
  have h1 := path_some (r.path s l hl) ham
  have h2 : a ≠ s := fun e => r.ne hl (t := s) (by simp [hl]) (e ▸ ham)
  have h3 := r.alE a (by simp [r.mem s l a hl ham])
  simp [included, rd, h3, upd, h2, h1]

/-- C109 is violated by destroying an element in a list: nothing removes it, and the loop over the list is undefined. -/
theorem c109_destroyed_element_violated (ops : List Op) (s a : Nat) (l : List Nat) (ha : Spec.AllowedAll {} ops) (hl : (Spec.run {} ops).lists s = some l) (hm : a ∈ l) :
    ∃ h h1, run {} ops = .ok h ∧ step h (.delElem a) = .ok h1 ∧ ∀ fuel, l.length < fuel → elements h1 s fuel = .ub := by
  obtain ⟨h, hr, r⟩ := rep_run ops {} {} rep_init ha
  have hs := r.alL s (by simp [hl])
  have hsa : s ≠ a := fun e => r.ne hl (t := s) (by simp [hl]) (e ▸ hm)
  refine ⟨h, { h with al := upd h.al a false }, hr, rfl, fun fuel hf => ?_⟩
  have key : ∀ (l : List Nat) (p : Nat), Path h.next p l s → a ∈ l → (∀ b ∈ l, b ≠ s) → (∀ b ∈ l, h.al b = true) → ∀ fuel, l.length < fuel →
      QuickList.Single.traverse (upd h.al a false) h.next s fuel (h.next p) = .ub := by
    intro l
    induction l with
    | nil => intro p _ hm; simp at hm
    | cons b l ih =>
      intro p hp hm hne hal fuel hf
      obtain ⟨f, rfl⟩ : ∃ f, fuel = f + 1 := ⟨fuel - 1, by simp at hf; omega⟩
      simp only [Path] at hp
      by_cases e : b = a
      · subst e
        simp [QuickList.Single.traverse, hp.1, hne b (by simp), rd, upd]
      · have hm' : a ∈ l := by
          rcases List.mem_cons.mp hm with e' | h
          · exact absurd e'.symm e
          · exact h
        have := ih b hp.2 hm' (fun c hc => hne c (by simp [hc])) (fun c hc => hal c (by simp [hc])) f (by simpa using hf)
        simp only [QuickList.Single.traverse, hp.1, Option.some.injEq, hne b (by simp), if_false]
        simp [rd, upd, e, hal b (by simp)]
        simp [this]
  have := key l s (r.path s l hl) hm (fun b hb e => r.ne hl (t := s) (by simp [hl]) (e ▸ hb)) (fun b hb => r.alE b (by simp [r.mem s l b hl hb])) fuel hf
  have hs' : upd h.al a false s = true := by simp [upd, hsa, hs]
  simp [elements, rd, hs', this]

/-- C109, the documented precondition: `pop_front` and `front` of an empty list are undefined. -/
theorem c109_empty_ub (ops : List Op) (s : Nat) (ha : Spec.AllowedAll {} ops) (hl : (Spec.run {} ops).lists s = some []) :
    ∃ h, run {} ops = .ok h ∧ popFront h s = .ub ∧ front h s = .ub := by
  obtain ⟨h, hr, r⟩ := rep_run ops {} {} rep_init ha
  have hs := r.alL s (by simp [hl])
  have hp := r.path s _ hl
  simp only [Path] at hp
  exact ⟨h, hr, by simp [popFront, QuickList.Single.removeAfter, rd, wr, hs, hp, cast], by simp [front, rd, hs, hp, cast]⟩

/-! ### Sample: two lists, three elements; one element moves from the first list to the second -/

def sampleOps : List Op := [.newList 1, .newList 2, .newElem 10, .newElem 11, .newElem 12, .push 1 10, .push 1 11, .push 2 12, .pop 1, .push 2 11]

theorem sample_lists : (Spec.run {} sampleOps).lists 1 = some [10] ∧ (Spec.run {} sampleOps).lists 2 = some [11, 12] := ⟨rfl, rfl⟩

theorem sample_allowed : Spec.AllowedAll {} sampleOps := by
  have no : ∀ (A : Spec) (a : Nat) (l1 l2 : List Nat), A.lists 1 = some l1 → A.lists 2 = some l2 → (∀ s, s ≠ 1 → s ≠ 2 → A.lists s = none) → a ∉ l1 → a ∉ l2 → ¬ A.InList a := by
    rintro A a l1 l2 e1 e2 e3 n1 n2 ⟨s, l, h1, h2⟩
    by_cases h3 : s = 1
    · subst h3; rw [e1] at h1; cases h1; exact n1 h2
    · by_cases h4 : s = 2
      · subst h4; rw [e2] at h1; cases h1; exact n2 h2
      · rw [e3 s h3 h4] at h1; cases h1
  refine ⟨⟨rfl, rfl⟩, ⟨rfl, rfl⟩, ⟨rfl, rfl⟩, ⟨rfl, rfl⟩, ⟨rfl, rfl⟩, ⟨by decide, by decide, ?_⟩, ⟨by decide, by decide, ?_⟩, ⟨by decide, by decide, ?_⟩, ⟨11, [10], rfl⟩,
    ⟨by decide, by decide, ?_⟩, trivial⟩
  · exact no _ _ [] [] rfl rfl (fun s h1 h2 => by simp [Spec.step, set, h1, h2]) (by simp) (by simp)
  · exact no _ _ [10] [] rfl rfl (fun s h1 h2 => by simp [Spec.step, set, h1, h2]) (by simp) (by simp)
  · exact no _ _ [11, 10] [] rfl rfl (fun s h1 h2 => by simp [Spec.step, set, h1, h2]) (by simp) (by simp)
  · exact no _ _ [10] [12] rfl rfl (fun s h1 h2 => by simp [Spec.step, set, h1, h2]) (by simp) (by simp)

example : ∃ h, run {} sampleOps = .ok h ∧ elements h 2 3 = .ok (some [11, 12]) ∧ size h 1 5 = .ok (some 1) := by
  obtain ⟨h, hr, hc⟩ := c109_contents sampleOps sample_allowed
  exact ⟨h, hr, (hc 2 _ sample_lists.2 3 (by decide)).1, (hc 1 _ sample_lists.1 5 (by decide)).2⟩

example : ∃ h, run {} sampleOps = .ok h ∧ included h 11 = .ok true ∧ containsOne h 1 = .ok true ∧ front h 2 = .ok 11 := ⟨_, rfl, rfl, rfl, rfl⟩

end Verif.SingleList
