import Verif.ObservableSet.World

/-! # Mirrors -/

namespace Verif.ObservableSet

open Verif.VectorSet
open Verif.VectorSet.Spec (eqv)

variable {α : Type}

/-- The equivalence of the mirror's comparator is at least as fine as that of the source, for the elements that occur. -/
def Finer (lt lt' : α → α → Bool) (P : α → Prop) : Prop :=
  ∀ a b, P a → P b → eqv lt' a b = true → eqv lt a b = true

/-- The elements that an event introduces. -/
def Introduces (P : α → Prop) : Event α → Prop
  | .added v => P v
  | _ => True

theorem mirrorOn_ok {lt lt' : α → α → Bool} (hlt' : StrictWeak lt') {P S : α → Prop} (hfine : Finer lt lt' P)
    {m : OSet α} (hi : Inv lt' m.set) (hm : ∀ a, a ∈ m.set.forward ↔ S a) (hn : m.subs.Nodup)
    (hP : ∀ a, S a → P a) {e : Event α} (he : Introduces P e) (hv : Valid lt S e) :
    ∃ m' notes, mirrorOn lt' m e = .ok (m', notes) ∧ Inv lt' m'.set ∧ m'.subs = m.subs ∧
      (∀ a, a ∈ m'.set.forward ↔ applyEvent S e a) ∧ (∀ a, applyEvent S e a → P a) ∧
      (∀ b ∈ m.subs, Replays lt' (· ∈ m.set.forward) (eventsOf b notes) (· ∈ m'.set.forward)) ∧
      (∀ b, b ∉ m.subs → eventsOf b notes = []) := by
  have hsort : m.set.forward.Pairwise (fun a b => lt' a b = true) := by rw [hi.forward]; exact hi.vals_sorted
  have fin : ∀ {op : Spec.Op α} {m' : OSet α} {out : Spec.Out α} {notes : List (Note α)},
      m.step lt' op = .ok (m', out, notes) → Inv lt' m'.set ∧ m'.subs = m.subs ∧
      (∀ b ∈ m.subs, Replays lt' (· ∈ m.set.forward) (eventsOf b notes) (· ∈ m'.set.forward)) ∧
      (∀ b, b ∉ m.subs → eventsOf b notes = []) := by
    intro op m' out notes h
    obtain ⟨q1, q2, q3, q4⟩ := oset_step_inv hlt' hi h
    refine ⟨q2, q3, ?_, ?_⟩
    · intro b hb
      rw [q4, eventsOf_deliver b m.subs hn, if_pos hb]
      exact expected_replays hlt' hsort q1
    · intro b hb
      rw [q4, eventsOf_deliver b m.subs hn, if_neg hb]
  cases e with
  | added v =>
    have hany : m.set.forward.any (fun a => eqv lt' a v) = false := by
      rw [List.any_eq_false]
      intro a ha h
      have h1 := hfine a v (hP a ((hm a).1 ha)) he h
      rw [hv a ((hm a).1 ha)] at h1; cases h1
    have hf : m.set.forward.find? (fun a => eqv lt' a v) = none := by
      rw [List.find?_eq_none]; rw [List.any_eq_false] at hany; exact hany
    obtain ⟨s, k1, k2, k3⟩ := oset_step (o := m) hlt' hi (.insert v) (S' := m.set.forward.filter (fun a => lt' a v) ++
      v :: m.set.forward.filter (fun a => lt' v a)) (out := .inserted v true) (by simp only [Spec.step, hf])
    obtain ⟨_, f2, f3, f4⟩ := fin k1
    refine ⟨{ m with set := s }, _, ?_, k2, rfl, ?_, ?_, f3, f4⟩
    · simp only [OSet.step] at k1
      simp only [mirrorOn, k1, Res.ok_bind]
    · intro a
      show a ∈ s.forward ↔ _
      rw [k3, mem_insert hany, hm]; rfl
    · rintro a (h | rfl)
      · exact hP a h
      · exact he
  | removing v =>
    have hv' : v ∈ m.set.forward := (hm v).2 hv
    have hvv : eqv lt' v v = true := eqv_refl hlt' v
    obtain ⟨s, k1, k2, k3⟩ := oset_step (o := m) hlt' hi (.eraseKey v) rfl
    obtain ⟨_, f2, f3, f4⟩ := fin k1
    refine ⟨{ m with set := s }, _, ?_, k2, rfl, ?_, ?_, f3, f4⟩
    · have hany : m.set.forward.any (fun a => eqv lt' a v) = true := by
        rw [List.any_eq_true]; exact ⟨v, hv', hvv⟩
      simp only [OSet.step, hany, if_true] at k1
      simp only [mirrorOn, k1, Res.ok_bind]
    · intro a
      show a ∈ s.forward ↔ _
      rw [k3, mem_erase_eqv hlt' hsort hv' hvv, hm]; rfl
    · rintro a ⟨h, _⟩; exact hP a h
  | clearing =>
    obtain ⟨s, k1, k2, k3⟩ := oset_step (o := m) hlt' hi .clear rfl
    obtain ⟨_, f2, f3, f4⟩ := fin k1
    simp only [OSet.step, Res.ok.injEq, Prod.mk.injEq] at k1
    refine ⟨{ m with set := s }, _, ?_, k2, rfl, ?_, ?_, f3, f4⟩
    · simp only [mirrorOn]
      rw [← k1.1, ← k1.2.2]
    · intro a
      show a ∈ s.forward ↔ _
      rw [k3]; simp [applyEvent]
    · rintro a h; exact h.elim

theorem mirrorRun_ok {lt lt' : α → α → Bool} (hlt' : StrictWeak lt') {P : α → Prop} (hfine : Finer lt lt' P) :
    ∀ (es : List (Event α)) {S T : α → Prop} {m : OSet α}, Inv lt' m.set → (∀ a, a ∈ m.set.forward ↔ S a) →
    m.subs.Nodup → (∀ a, S a → P a) → (∀ e ∈ es, Introduces P e) → Replays lt S es T →
    ∃ m' notes, mirrorRun lt' m es = .ok (m', notes) ∧ Inv lt' m'.set ∧ m'.subs = m.subs ∧
      (∀ a, a ∈ m'.set.forward ↔ T a) ∧ (∀ a, T a → P a) ∧
      (∀ b ∈ m.subs, Replays lt' (· ∈ m.set.forward) (eventsOf b notes) (· ∈ m'.set.forward)) ∧
      (∀ b, b ∉ m.subs → eventsOf b notes = []) := by
  intro es
  induction es with
  | nil =>
    intro S T m hi hm hn hP he hr
    exact ⟨m, [], rfl, hi, rfl, fun a => (hm a).trans (hr a), fun a h => hP a ((hr a).2 h), fun b _ => Replays.refl _ _,
      fun _ _ => rfl⟩
  | cons e es ih =>
    intro S T m hi hm hn hP he hr
    obtain ⟨m1, n1, k1, k2, k3, k4, k5, k6, k7⟩ := mirrorOn_ok hlt' hfine hi hm hn hP (he e (by simp)) hr.1
    obtain ⟨m2, n2, l1, l2, l3, l4, l5, l6, l7⟩ := ih k2 k4 (by rw [k3]; exact hn) k5
      (fun e' h' => he e' (by simp [h'])) hr.2
    refine ⟨m2, n1 ++ n2, ?_, l2, by rw [l3, k3], l4, l5, ?_, ?_⟩
    · simp only [mirrorRun, k1, l1, Res.ok_bind]
    · intro b hb
      rw [eventsOf_append]
      exact (k6 b hb).append (l6 b (by rw [k3]; exact hb))
    · intro b hb
      rw [eventsOf_append, k7 b hb, l7 b (by rw [k3]; exact hb)]; rfl

/-- A chain of mirrors: every one is subscribed to the one before it (the first one to the source); `name` is the name
under which the next mirror is subscribed to this one.  The events are those that the source sends. -/
structure Link (α : Type) where
  lt : α → α → Bool
  mirror : OSet α
  next : Nat

/-- The whole chain handles the events: the final mirrors. -/
def chainRun : List (Link α) → List (Event α) → Res (List (OSet α))
  | [], _ => .ok []
  | l :: ls, es => do
    let (m', notes) ← mirrorRun l.lt l.mirror es
    let ms ← chainRun ls (eventsOf l.next notes)
    .ok (m' :: ms)

/-- The comparators of the chain are strict weak orders, each at least as fine as the one before. -/
def ChainOK (P : α → Prop) : (α → α → Bool) → List (Link α) → Prop
  | _, [] => True
  | lt, l :: ls => StrictWeak l.lt ∧ Finer lt l.lt P ∧ Inv l.lt l.mirror.set ∧ l.mirror.subs.Nodup ∧
      l.next ∈ l.mirror.subs ∧ ChainOK P l.lt ls

theorem replays_introduces {lt : α → α → Bool} {P : α → Prop} : ∀ (es : List (Event α)) {S T : α → Prop},
    Replays lt S es T → (∀ e ∈ es, Introduces P e) → (∀ a, S a → P a) → ∀ a, T a → P a := by
  intro es
  induction es with
  | nil => intro S T h _ hP a ha; exact hP a ((h a).2 ha)
  | cons e es ih =>
    intro S T h he hP
    refine ih h.2 (fun e' h' => he e' (by simp [h'])) ?_
    intro a ha
    cases e with
    | added v =>
      rcases ha with ha | rfl
      · exact hP a ha
      · exact he (.added a) (by simp)
    | removing v => exact hP a ha.1
    | clearing => exact ha.elim

/-- The elements a mirror introduces are introduced by its source. -/
theorem mirrorRun_introduces {lt' : α → α → Bool} (hlt' : StrictWeak lt') {P : α → Prop} : ∀ (es : List (Event α))
    {m m' : OSet α} {notes : List (Note α)}, Inv lt' m.set → m.subs.Nodup → (∀ e ∈ es, Introduces P e) →
    mirrorRun lt' m es = .ok (m', notes) → ∀ b, ∀ e ∈ eventsOf b notes, Introduces P e := by
  intro es
  induction es with
  | nil =>
    intro m m' notes _ _ _ h
    simp only [mirrorRun, Res.ok.injEq, Prod.mk.injEq] at h
    obtain ⟨_, rfl⟩ := h
    simp [eventsOf]
  | cons e es ih =>
    intro m m' notes hi hn he h
    simp only [mirrorRun, Res.bind_eq_ok, Prod.exists] at h
    obtain ⟨m1, n1, h1, m2, n2, h2, h3⟩ := h
    simp only [Res.ok.injEq, Prod.mk.injEq] at h3
    obtain ⟨_, rfl⟩ := h3
    have key : Inv lt' m1.set ∧ m1.subs = m.subs ∧ ∀ b, ∀ e ∈ eventsOf b n1, Introduces P e := by
      cases e with
      | added v =>
        simp only [mirrorOn, Res.bind_eq_ok, Prod.exists] at h1
        obtain ⟨o1, out, nn, k1, k2⟩ := h1
        have : out = .inserted v true → (m1, n1) = (o1, nn) → _ := fun _ h => h
        obtain ⟨q1, q2, q3, q4⟩ := oset_step_inv hlt' hi (op := .insert v) (show m.step lt' (.insert v) = _ from k1)
        cases out with
        | inserted x b =>
          cases b with
          | true =>
            simp only [Res.ok.injEq, Prod.mk.injEq] at k2
            obtain ⟨rfl, rfl⟩ := k2
            refine ⟨q2, q3, ?_⟩
            intro b e' he'
            rw [q4, eventsOf_deliver b _ hn] at he'
            split at he'
            · simp only [expected] at he'
              split at he'
              · simp at he'
              · simp only [List.map_cons, List.map_nil, List.mem_singleton] at he'
                subst he'; exact he (.added v) (by simp)
            · simp at he'
          | false => cases k2
        | _ => cases k2
      | removing v =>
        simp only [mirrorOn, Res.bind_eq_ok, Prod.exists] at h1
        obtain ⟨o1, out, nn, k1, k2⟩ := h1
        obtain ⟨q1, q2, q3, q4⟩ := oset_step_inv hlt' hi (op := .eraseKey v) (show m.step lt' (.eraseKey v) = _ from k1)
        have : (m1, n1) = (o1, nn) := by
          split at k2
          · cases k2
          · simp only [Res.ok.injEq] at k2; exact k2.symm
        simp only [Prod.mk.injEq] at this
        obtain ⟨rfl, rfl⟩ := this
        refine ⟨q2, q3, ?_⟩
        intro b e' he'
        rw [q4, eventsOf_deliver b _ hn] at he'
        split at he'
        · simp only [expected] at he'
          split at he'
          · simp only [List.map_cons, List.map_nil, List.mem_singleton] at he'
            subst he'; trivial
          · simp at he'
        · simp at he'
      | clearing =>
        simp only [mirrorOn, Res.ok.injEq] at h1
        obtain ⟨q1, q2, q3, q4⟩ := oset_step_inv hlt' hi (op := .clear) (o' := m.clear.1) (notes := m.clear.2) rfl
        rw [h1] at q2 q3 q4
        simp only at q2 q3 q4
        refine ⟨q2, q3, ?_⟩
        intro b e' he'
        rw [q4, eventsOf_deliver b _ hn] at he'
        split at he'
        · simp only [expected] at he'
          split at he'
          · simp at he'
          · simp only [List.map_cons, List.map_nil, List.mem_singleton] at he'
            subst he'; trivial
        · simp at he'
    obtain ⟨g1, g2, g3⟩ := key
    intro b e' he'
    rw [eventsOf_append, List.mem_append] at he'
    rcases he' with he' | he'
    · exact g3 b e' he'
    · exact ih g1 (by rw [g2]; exact hn) (fun e'' h' => he e'' (by simp [h'])) h2 b e' he'

theorem chainRun_ok {P : α → Prop} : ∀ (ls : List (Link α)) {lt : α → α → Bool} {S T : α → Prop} {es : List (Event α)},
    ChainOK P lt ls → (∀ l ∈ ls, ∀ a, a ∈ l.mirror.set.forward ↔ S a) → (∀ a, S a → P a) →
    (∀ e ∈ es, Introduces P e) → Replays lt S es T →
    ∃ ms, chainRun ls es = .ok ms ∧ ms.length = ls.length ∧ ∀ m ∈ ms, ∀ a, a ∈ m.set.forward ↔ T a := by
  intro ls
  induction ls with
  | nil => intro lt S T es _ _ _ _ _; exact ⟨[], rfl, rfl, by simp⟩
  | cons l ls ih =>
    intro lt S T es hc hm hP he hr
    obtain ⟨c1, c2, c3, c4, c5, c6⟩ := hc
    obtain ⟨m', notes, k1, k2, k3, k4, k5, k6, k7⟩ := mirrorRun_ok c1 c2 es c3 (hm l (by simp)) c4 hP he hr
    have hr' : Replays l.lt S (eventsOf l.next notes) T :=
      Replays.congr (hm l (by simp)) k4 (k6 l.next c5)
    obtain ⟨ms, g1, g2, g3⟩ := ih c6 (fun l' h' => hm l' (by simp [h'])) hP
      (mirrorRun_introduces c1 es c3 c4 he k1 l.next) hr'
    refine ⟨m' :: ms, ?_, by simp [g2], ?_⟩
    · simp only [chainRun, k1, g1, Res.ok_bind]
    · intro m hmm
      rcases List.mem_cons.1 hmm with rfl | h
      · exact k4
      · exact g3 m h

end Verif.ObservableSet
