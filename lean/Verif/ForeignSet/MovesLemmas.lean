import Verif.ForeignSet.MovesModel
import Verif.ForeignSet.Props
import Verif.ObservableSet.MirrorsProps

/-!
# Lemmas about programs with several sets and `foreign_set`s
-/

namespace Verif.ForeignSet

open Verif.VectorSet
open Verif.VectorSet.Spec (eqv)
open Verif.ObservableSet
open Verif.ObservableSet.Throw (sorted_of)

variable {α κ φ : Type}

theorem setView_same (vs : Nat → Option (View α)) (k : Nat) (v : Option (View α)) : setView vs k v k = v := if_pos rfl

theorem setView_other (vs : Nat → Option (View α)) {k l : Nat} (v : Option (View α)) (h : l ≠ k) : setView vs k v l = vs l := if_neg h

theorem FInv.congr {K : Keys α κ φ} {gs : List (OSet α)} {S T : α → Prop} (h : FInv K gs S) (hST : ∀ x, S x ↔ T x) : FInv K gs T :=
  ⟨h.inv, h.ne, h.same, h.sorted, fun x => (hST x).symm.trans (h.mem x)⟩

theorem FInv.nil {K : Keys α κ φ} {gs : List (OSet α)} {S : α → Prop} (h : FInv K gs S) (hS : ∀ x, ¬ S x) : gs = [] := by
  cases gs with
  | nil => rfl
  | cons g gs =>
    have hne := h.ne g (by simp)
    cases hg : g.set.forward with
    | nil => exact (hne hg).elim
    | cons x xs => exact (hS x ((h.mem x).2 ⟨g, by simp, by rw [hg]; simp⟩)).elim

/-- Elements with equal primary keys are the same for the order of the sets. -/
def Fine (K : Keys α κ φ) (lt : α → α → Bool) : Prop := ∀ x y, eqv K.ltP (K.pk x) (K.pk y) = true → eqv lt x y = true

theorem View.on_ok {K : Keys α κ φ} (hP : StrictWeak K.ltP) (hF : StrictWeak K.ltF) {lt : α → α → Bool} (hu : Fine K lt) {v : View α} {S : α → Prop}
    (h : FInv K v.groups S) (hb : v.bare = false) {e : Event α} (hv : Valid lt S e) :
    ∃ v', v.on K e = .ok v' ∧ FInv K v'.groups (applyEvent S e) ∧ v'.bare = false := by
  obtain ⟨gs, h1, h2⟩ := foreignRun_ok hP hF (lt := lt) (P := fun _ => True) (fun x y _ _ => hu x y) [e] (T := applyEvent S e) h (fun _ _ => trivial)
    (fun e _ => by cases e <;> trivial) ⟨hv, fun _ => Iff.rfl⟩
  simp only [foreignRun, Res.bind_eq_ok, Prod.exists, Res.ok.injEq] at h1
  obtain ⟨gs', evs, h3, h4⟩ := h1
  subst h4
  refine ⟨⟨gs', false⟩, ?_, h2, rfl⟩
  cases e <;> simp only [View.on, hb, h3, Res.ok_bind]

theorem deliver_ok {K : Keys α κ φ} (hP : StrictWeak K.ltP) (hF : StrictWeak K.ltF) {lt : α → α → Bool} (hu : Fine K lt) {T : Nat → α → Prop} :
    ∀ (ns : List (Note α)) (vs : Nat → Option (View α)),
    (∀ a v, vs a = some v → ∃ S, FInv K v.groups S ∧ Replays lt S (eventsOf a ns) (T a)) → (∀ a v, vs a = some v → v.bare = true → eventsOf a ns = []) →
    (∀ a, vs a = none → eventsOf a ns = []) →
    ∃ vs', deliver K ns vs = .ok vs' ∧ (∀ a, vs' a = none ↔ vs a = none) ∧
      ∀ a v', vs' a = some v' → FInv K v'.groups (T a) ∧ ∃ v, vs a = some v ∧ v'.bare = v.bare := by
  intro ns
  induction ns with
  | nil =>
    intro vs h _ _
    refine ⟨vs, rfl, fun _ => Iff.rfl, fun a v hv => ?_⟩
    obtain ⟨S, h1, h2⟩ := h a v hv
    exact ⟨h1.congr h2, v, hv, rfl⟩
  | cons n ns ih =>
    intro vs h hbare hnone
    have hcons : ∀ a, eventsOf a (n :: ns) = if a = n.observer then n.event :: eventsOf a ns else eventsOf a ns := by
      intro a
      simp only [eventsOf, List.filterMap_cons]
      by_cases ha : a = n.observer
      · simp [ha]
      · rw [if_neg ha]; simp [show ¬ n.observer = a from fun h => ha h.symm]
    cases hm : vs n.observer with
    | none =>
      have := hnone n.observer hm
      rw [hcons, if_pos rfl] at this
      cases this
    | some v =>
      obtain ⟨S, hi, hr⟩ := h n.observer v hm
      rw [hcons, if_pos rfl] at hr
      have hb : v.bare = false := by
        cases hc : v.bare with
        | false => rfl
        | true =>
          have := hbare n.observer v hm hc
          rw [hcons, if_pos rfl] at this
          cases this
      obtain ⟨v', k1, k2, k3⟩ := View.on_ok hP hF hu hi hb hr.1
      obtain ⟨vs', g1, g2, g3⟩ := ih (setView vs n.observer (some v')) (by
        intro a u hu
        by_cases ha : a = n.observer
        · subst ha
          rw [setView_same] at hu; cases hu
          exact ⟨_, k2, hr.2⟩
        · rw [setView_other _ _ ha] at hu
          have := h a u hu
          rw [hcons, if_neg ha] at this
          exact this) (by
        intro a u hu hub
        by_cases ha : a = n.observer
        · subst ha
          rw [setView_same] at hu; cases hu
          rw [k3] at hub; cases hub
        · rw [setView_other _ _ ha] at hu
          have := hbare a u hu hub
          rw [hcons, if_neg ha] at this
          exact this) (by
        intro a hu
        by_cases ha : a = n.observer
        · subst ha
          rw [setView_same] at hu; cases hu
        · rw [setView_other _ _ ha] at hu
          have := hnone a hu
          rw [hcons, if_neg ha] at this
          exact this)
      refine ⟨vs', ?_, ?_, ?_⟩
      · simp only [deliver, hm, k1, Res.ok_bind, g1]
      · intro a
        rw [g2]
        by_cases ha : a = n.observer
        · subst ha
          rw [setView_same, hm]; simp
        · rw [setView_other _ _ ha]
      · intro a u hu
        obtain ⟨q1, w, q2, q3⟩ := g3 a u hu
        refine ⟨q1, ?_⟩
        by_cases ha : a = n.observer
        · subst ha
          rw [setView_same] at q2; cases q2
          exact ⟨v, hm, by rw [q3, k3, hb]⟩
        · rw [setView_other _ _ ha] at q2
          exact ⟨w, q2, q3⟩

/-- What holds between the operations of a program. -/
structure GInv (K : Keys α κ φ) (lt : α → α → Bool) (st : FState α) : Prop where
  sets : BInv lt st.sets
  att : ∀ i o k, st.sets.sets i = some o → k ∈ o.subs → ∃ v, st.views k = some v ∧ FInv K v.groups (· ∈ o.set.forward) ∧ v.bare = false
  det : ∀ k v, st.views k = some v → (∀ i o, st.sets.sets i = some o → k ∉ o.subs) → v.groups = []

theorem GInv.of {K : Keys α κ φ} {lt : α → α → Bool} {s : State α} {vs : Nat → Option (View α)} (h1 : BInv lt s)
    (h3 : ∀ i o k, s.sets i = some o → k ∈ o.subs → ∃ v, vs k = some v ∧ FInv K v.groups (· ∈ o.set.forward) ∧ v.bare = false)
    (h4 : ∀ k v, vs k = some v → (∀ i o, s.sets i = some o → k ∉ o.subs) → v.groups = []) : GInv K lt ⟨s, vs⟩ := ⟨h1, h3, h4⟩

theorem GInv.init (K : Keys α κ φ) (lt : α → α → Bool) : GInv K lt (FState.init : FState α) := by
  refine ⟨⟨?_, ?_, ?_, ?_⟩, ?_, ?_⟩
  · intro _ _ h; cases h
  · intro _ _ h; cases h
  · intro _ _ _ _ _ h; cases h
  · intro _ _ h; cases h
  · intro _ _ _ h; cases h
  · intro _ _ h; cases h

theorem step_source (K : Keys α κ φ) (lossy : Bool) (lt : α → α → Bool) (st : FState α) {op : Op α} (hp : Plain op) :
    st.step K lossy lt (.source op) = (do
        let (s, _, items) ← st.sets.step lt op
        let vs ← deliver K (notesOf items) st.views
        .ok ⟨s, vs⟩) := by
  cases op <;> first | rfl | exact hp.elim

/-- Any operation of the sets: the `foreign_set`s handle it. -/
theorem GInv.source {K : Keys α κ φ} (hP : StrictWeak K.ltP) (hF : StrictWeak K.ltF) {lt : α → α → Bool} (hlt : StrictWeak lt) (hu : Fine K lt) {lossy : Bool} {st : FState α}
    (h : GInv K lt st) {op : Op α} (hp : Plain op) {s' : State α} {out : Spec.Out α} {items : List (Item α)} (hs : st.sets.step lt op = .ok (s', out, items)) :
    ∃ vs', st.step K lossy lt (.source op) = .ok ⟨s', vs'⟩ ∧ GInv K lt ⟨s', vs'⟩ := by
  obtain ⟨hb, notes, rfl, t1, t2, t3⟩ := told hlt h.sets hp hs
  let T : Nat → α → Prop := fun a x => ∃ i o, s'.sets i = some o ∧ a ∈ o.subs ∧ x ∈ o.set.forward
  have hT : ∀ i o a, s'.sets i = some o → a ∈ o.subs → ∀ x, x ∈ o.set.forward ↔ T a x := by
    intro i o a hi ha x
    constructor
    · intro hx; exact ⟨i, o, hi, ha, hx⟩
    · rintro ⟨j, p, hj, hp, hx⟩
      have := hb.disj i j o p a hi hj ha hp
      subst this
      rw [hi] at hj; cases hj; exact hx
  have hT0 : ∀ a, (∀ i o, s'.sets i = some o → a ∉ o.subs) → ∀ x, ¬ T a x := by
    rintro a ha x ⟨i, o, hi, hm, _⟩; exact ha i o hi hm
  obtain ⟨vs', g1, g2, g3⟩ := deliver_ok (lt := lt) hP hF hu (T := T) notes st.views (by
    intro a v hv
    by_cases hold : ∃ j p, st.sets.sets j = some p ∧ a ∈ p.subs
    · obtain ⟨j, p, hj, ha⟩ := hold
      obtain ⟨u, hu, hue, _⟩ := h.att j p a hj ha
      rw [hv] at hu; cases hu
      refine ⟨_, hue, ?_⟩
      by_cases hnew : ∃ i o, s'.sets i = some o ∧ a ∈ o.subs
      · obtain ⟨i, o, hi, hao⟩ := hnew
        obtain ⟨j', p', hj', hp', hr⟩ := t1 i o a hi hao
        have := h.sets.disj j j' p p' a hj hj' ha hp'
        subst this
        rw [hj] at hj'; cases hj'
        exact Replays.congr (fun _ => Iff.rfl) (hT i o a hi hao) hr
      · have hno : ∀ i o, s'.sets i = some o → a ∉ o.subs := fun i o hi ha => hnew ⟨i, o, hi, ha⟩
        exact Replays.congr (fun _ => Iff.rfl) (fun x => iff_of_false (fun h => h) (hT0 a hno x)) (t2 j p a hj ha hno)
    · have hno' : ∀ j p, st.sets.sets j = some p → a ∉ p.subs := fun j p hj ha => hold ⟨j, p, hj, ha⟩
      have hno : ∀ i o, s'.sets i = some o → a ∉ o.subs := by
        intro i o hi ha
        obtain ⟨j, p, hj, hp', _⟩ := t1 i o a hi ha
        exact hno' j p hj hp'
      refine ⟨fun _ => False, by rw [h.det a v hv hno']; exact FInv.empty K, ?_⟩
      rw [t3 a hno']
      intro x
      exact iff_of_false (fun h => h) (hT0 a hno x)) (by
    intro a v hv hbare
    refine t3 a (fun j p hj ha => ?_)
    obtain ⟨u, hu, _, hub⟩ := h.att j p a hj ha
    rw [hv] at hu; cases hu
    rw [hbare] at hub; cases hub) (by
    intro a hv
    refine t3 a (fun j p hj ha => ?_)
    obtain ⟨u, hu, _⟩ := h.att j p a hj ha
    rw [hv] at hu; cases hu)
  refine ⟨vs', ?_, GInv.of hb ?_ ?_⟩
  · rw [step_source K lossy lt st hp, hs]
    simp only [Res.ok_bind, notesOf_notes, g1]
  · intro i o k hi hk
    obtain ⟨j, p, hj, hp', _⟩ := t1 i o k hi hk
    obtain ⟨u, hu, _, hub⟩ := h.att j p k hj hp'
    cases hv : vs' k with
    | none => rw [g2] at hv; rw [hu] at hv; cases hv
    | some v =>
      obtain ⟨q1, w, q2, q3⟩ := g3 k v hv
      rw [hu] at q2; cases q2
      exact ⟨v, rfl, q1.congr (fun x => (hT i o k hi hk x).symm), by rw [q3, hub]⟩
  · intro k v hv hno
    exact (g3 k v hv).1.nil (hT0 k hno)

theorem not_subscribed {lt : α → α → Bool} {s : State α} (h : BInv lt s) {k : Nat} : s.subscribed k = false ↔ ∀ i o, s.sets i = some o → k ∉ o.subs := by
  constructor
  · intro hc i o hi ho
    have := (subscribed_iff h.now k).2 ⟨i, o, hi, ho⟩
    rw [hc] at this; cases this
  · intro hno
    cases hc : s.subscribed k with
    | false => rfl
    | true =>
      obtain ⟨j, p, hj, hp⟩ := (subscribed_iff h.now k).1 hc
      exact (hno j p hj hp).elim

theorem step_subscribe {lt : α → α → Bool} {s : State α} {k i : Nat} {o : OSet α} (hi : s.sets i = some o) (hc : s.subscribed k = false) :
    s.step lt (.subscribe i k) = .ok (⟨s.sets.set i (some { o with subs := o.subs ++ [k] }), s.names⟩, .unit, [.started k o.set.forward]) := by
  simp only [State.step, ObservableSet.step, hi, hc]
  rfl

theorem step_subscribe_no {lt : α → α → Bool} {s : State α} {k i : Nat} {o : OSet α} (hi : s.sets i = some o) {r : State α × Spec.Out α × List (Item α)}
    (h : s.step lt (.subscribe i k) = .ok r) : s.subscribed k = false := by
  cases hc : s.subscribed k with
  | false => rfl
  | true => simp only [State.step, ObservableSet.step, hi, hc] at h; cases h

/-- A `foreign_set` with the elements of a set is subscribed to it. -/
theorem GInv.subscribe {K : Keys α κ φ} {lt : α → α → Bool} (hlt : StrictWeak lt) {st : FState α}
    (h : GInv K lt st) {k i : Nat} {o : OSet α} (hi : st.sets.sets i = some o) (hno : ∀ i o, st.sets.sets i = some o → k ∉ o.subs) {v : View α}
    (hv : FInv K v.groups (· ∈ o.set.forward)) (hb : v.bare = false) :
    GInv K lt ⟨⟨st.sets.sets.set i (some { o with subs := o.subs ++ [k] }), st.sets.names⟩, setView st.views k (some v)⟩ := by
  have hw := h.sets.now.step hlt (step_subscribe (lt := lt) hi ((not_subscribed h.sets).2 hno))
  refine GInv.of ⟨hw.inv, hw.nodup, hw.disj, hw.names⟩ ?_ ?_
  · intro j p l hj hl
    change (st.sets.sets.set i (some { o with subs := o.subs ++ [k] })) j = some p at hj
    have other : ∀ q : OSet α, st.sets.sets j = some q → q.set = p.set → l ∈ q.subs →
        ∃ u, (setView st.views k (some v)) l = some u ∧ FInv K u.groups (· ∈ p.set.forward) ∧ u.bare = false := by
      intro q hq he hlq
      obtain ⟨u, hu, hue⟩ := h.att j q l hq hlq
      refine ⟨u, ?_, by rw [← he]; exact hue⟩
      rw [setView_other _ _ (by rintro rfl; exact hno j q hq hlq)]; exact hu
    by_cases hji : j = i
    · subst hji
      rw [set_same] at hj; cases hj
      rcases List.mem_append.1 hl with hl | hl
      · exact other o hi rfl hl
      · simp only [List.mem_singleton] at hl
        subst hl
        exact ⟨v, setView_same _ _ _, hv, hb⟩
    · rw [set_other _ _ hji] at hj
      exact other p hj rfl hl
  · intro l u hu hn
    change ∀ j p, (st.sets.sets.set i (some { o with subs := o.subs ++ [k] })) j = some p → _ at hn
    by_cases hl : l = k
    · subst hl
      exact (hn i _ (set_same _ _ _) (by simp)).elim
    · rw [setView_other _ _ hl] at hu
      refine h.det l u hu (fun j p hj hm => ?_)
      by_cases hji : j = i
      · subst hji
        rw [hi] at hj; cases hj
        exact hn j _ (set_same _ _ _) (by simp [hm])
      · exact hn j p (by rw [set_other _ _ hji]; exact hj) hm

theorem attach_ok {K : Keys α κ φ} (hP : StrictWeak K.ltP) (hF : StrictWeak K.ltF) {lt : α → α → Bool} (hu : Fine K lt) {L : List α}
    (hs : L.Pairwise (fun a b => lt a b = true)) : ∃ gs, attach K L = .ok gs ∧ FInv K gs (· ∈ L) :=
  foreignRun_ok hP hF (lt := lt) (P := fun _ => True) (fun x y _ _ => hu x y) (L.map .added) (FInv.empty K) (fun x h => h.elim) (fun e _ => by cases e <;> trivial)
    (Replays.congr (fun _ => Iff.rfl) (fun x => by simp) (replays_sorted L (S := fun _ => False) (fun x h => h.elim) hs))

/-- The constructor from a set. -/
theorem GInv.newFrom {K : Keys α κ φ} (hP : StrictWeak K.ltP) (hF : StrictWeak K.ltF) {lt : α → α → Bool} (hlt : StrictWeak lt) (hu : Fine K lt) {lossy : Bool} {st : FState α}
    (h : GInv K lt st) {k i : Nat} {o : OSet α} (hk : st.views k = none) (hi : st.sets.sets i = some o) :
    ∃ st', st.step K lossy lt (.newFrom k i) = .ok st' ∧ GInv K lt st' ∧ st'.sets.sets i = some { o with subs := o.subs ++ [k] } := by
  have hno : ∀ i o, st.sets.sets i = some o → k ∉ o.subs := by
    intro j p hj hp
    obtain ⟨u, hu, _⟩ := h.att j p k hj hp
    rw [hk] at hu; cases hu
  obtain ⟨gs, k1, k2⟩ := attach_ok hP hF hu (sorted_of (h.sets.inv i o hi))
  refine ⟨_, ?_, h.subscribe hlt hi hno (v := ⟨gs, false⟩) k2 rfl, set_same _ _ _⟩
  simp only [FState.step, hk, hi, k1, Res.ok_bind, step_subscribe hi ((not_subscribed h.sets).2 hno)]

theorem setView_id {vs : Nat → Option (View α)} {k : Nat} {v : View α} (h : vs k = some v) : setView vs k (some v) = vs := by
  funext l
  simp only [setView]
  split
  · rename_i hl; rw [hl, h]
  · rfl

/-- A program does nothing to a `foreign_set` that it does not expect: it does not unsubscribe it by hand, and if it subscribes one by hand, then to an empty set, and not one that lost its getters. -/
def Kept (st : FState α) : FOp α → Prop
  | .detach _ => False
  | .join k i => (∀ o, st.sets.sets i = some o → o.set.forward = []) ∧ ∀ v, st.views k = some v → v.bare = false
  | _ => True

theorem GInv.step {K : Keys α κ φ} (hP : StrictWeak K.ltP) (hF : StrictWeak K.ltF) {lt : α → α → Bool} (hlt : StrictWeak lt) (hu : Fine K lt) {lossy : Bool} {st st' : FState α}
    (h : GInv K lt st) {op : FOp α} (hk : Kept st op) (hs : st.step K lossy lt op = .ok st') : GInv K lt st' := by
  cases op with
  | source op =>
    have hp : Plain op := by
      cases op <;> trivial
    have hs0 := hs
    rw [step_source K lossy lt st hp] at hs
    simp only [Res.bind_eq_ok, Prod.exists] at hs
    obtain ⟨s, out, items, h1, vs, h2, h3⟩ := hs
    obtain ⟨vs', g1, g2⟩ := h.source hP hF hlt hu (lossy := lossy) hp h1
    rw [hs0] at g1; cases g1
    exact g2
  | newView k =>
    simp only [FState.step] at hs
    cases hm : st.views k with
    | some v => simp only [hm] at hs; cases hs
    | none =>
      simp only [hm, Res.ok.injEq] at hs
      subst hs
      refine GInv.of h.sets ?_ ?_
      · intro i o l hi hl
        obtain ⟨u, hu, hue⟩ := h.att i o l hi hl
        exact ⟨u, by rw [setView_other _ _ (by rintro rfl; rw [hm] at hu; cases hu)]; exact hu, hue⟩
      · intro l u hu hn
        by_cases hl : l = k
        · subst hl; rw [setView_same] at hu; cases hu; rfl
        · rw [setView_other _ _ hl] at hu; exact h.det l u hu hn
  | newFrom k i =>
    have hs0 := hs
    simp only [FState.step] at hs
    cases hm : st.views k with
    | some v => simp only [hm] at hs; cases hs
    | none =>
      cases hi : st.sets.sets i with
      | none => simp only [hm, hi] at hs; cases hs
      | some o =>
        obtain ⟨st1, g1, g2, _⟩ := h.newFrom hP hF hlt hu (lossy := lossy) hm hi
        rw [hs0] at g1; cases g1
        exact g2
  | moveView k l =>
    simp only [FState.step] at hs
    cases hm : st.views k with
    | some v => simp only [hm] at hs; cases hs
    | none =>
      cases hl : st.views l with
      | none => simp only [hm, hl] at hs; cases hs
      | some v =>
        simp only [hm, hl, Res.ok.injEq] at hs
        subst hs
        have hkl : k ≠ l := by rintro rfl; rw [hm] at hl; cases hl
        have hno : ∀ i o, st.sets.sets i = some o → k ∉ o.subs := by
          intro i o hi hk
          obtain ⟨u, hu, _⟩ := h.att i o k hi hk
          rw [hm] at hu; cases hu
        have gk : setView (setView st.views k (some v)) l (some ⟨[], lossy || v.bare⟩) k = some v := by
          rw [setView_other _ _ hkl, setView_same]
        refine GInv.of (h.sets.takePlace hno) ?_ ?_
        · intro i o a hi ha
          obtain ⟨p, h1, rfl⟩ := mapSubs_some hi
          rcases mem_takePlace.1 ha with ⟨rfl, hl'⟩ | ⟨hal, hap⟩
          · obtain ⟨u, hu, hue⟩ := h.att i p l h1 hl'
            rw [hl] at hu; cases hu
            exact ⟨_, gk, hue⟩
          · obtain ⟨u, hu, hue⟩ := h.att i p a h1 hap
            refine ⟨u, ?_, hue⟩
            rw [setView_other _ _ hal, setView_other _ _ (by rintro rfl; exact hno i p h1 hap)]; exact hu
        · intro a u hu hn
          by_cases ha : a = l
          · subst ha; rw [setView_same] at hu; cases hu; rfl
          · by_cases hak : a = k
            · subst hak; rw [gk] at hu; cases hu
              exact h.det l _ hl (fun i p hp hlp => hn i _ (mapSubs_get _ hp) (mem_takePlace.2 (Or.inl ⟨rfl, hlp⟩)))
            · rw [setView_other _ _ ha, setView_other _ _ hak] at hu
              exact h.det a u hu (fun i p hp hlp => hn i _ (mapSubs_get _ hp) (mem_takePlace.2 (Or.inr ⟨ha, hlp⟩)))
  | assignView k l =>
    simp only [FState.step] at hs
    cases hm : st.views k with
    | none => simp only [hm] at hs; cases hs
    | some w =>
      cases hl : st.views l with
      | none => simp only [hm, hl] at hs; cases hs
      | some v =>
        simp only [hm, hl] at hs
        split at hs
        · rename_i hkl
          subst hkl
          simp only [Res.ok.injEq] at hs
          subst hs
          refine GInv.of (h.sets.leave k) ?_ ?_
          · intro i o a hi ha
            obtain ⟨p, h1, rfl⟩ := mapSubs_some hi
            obtain ⟨e1, e2⟩ := mem_leave.1 ha
            obtain ⟨u, hu, hue⟩ := h.att i p a h1 e2
            exact ⟨u, by rw [setView_other _ _ e1]; exact hu, hue⟩
          · intro a u hu hn
            by_cases ha : a = k
            · subst ha; rw [setView_same] at hu; cases hu; rfl
            · rw [setView_other _ _ ha] at hu
              exact h.det a u hu (fun i p hp hap => hn i _ (mapSubs_get _ hp) (mem_leave.2 ⟨ha, hap⟩))
        · rename_i hkl
          simp only [Res.ok.injEq] at hs
          subst hs
          have hno : ∀ i o, (st.sets.leave k).sets i = some o → k ∉ o.subs := by
            intro i o hi hk
            obtain ⟨p, h1, rfl⟩ := mapSubs_some hi
            exact (mem_leave.1 hk).1 rfl
          have gk : setView (setView st.views k (some v)) l (some ⟨[], lossy || v.bare⟩) k = some v := by
            rw [setView_other _ _ hkl, setView_same]
          refine GInv.of ((h.sets.leave k).takePlace hno) ?_ ?_
          · intro i o a hi ha
            obtain ⟨p0, h0, rfl⟩ := mapSubs_some hi
            obtain ⟨p, h1, rfl⟩ := mapSubs_some h0
            rcases mem_takePlace.1 ha with ⟨rfl, hl'⟩ | ⟨hal, hap⟩
            · obtain ⟨u, hu, hue⟩ := h.att i p l h1 (mem_leave.1 hl').2
              rw [hl] at hu; cases hu
              exact ⟨_, gk, hue⟩
            · obtain ⟨hak, hap⟩ := mem_leave.1 hap
              obtain ⟨u, hu, hue⟩ := h.att i p a h1 hap
              refine ⟨u, ?_, hue⟩
              rw [setView_other _ _ hal, setView_other _ _ hak]; exact hu
          · intro a u hu hn
            by_cases ha : a = l
            · subst ha; rw [setView_same] at hu; cases hu; rfl
            · by_cases hak : a = k
              · subst hak; rw [gk] at hu; cases hu
                exact h.det l _ hl (fun i p hp hlp => hn i _ (mapSubs_get _ (mapSubs_get _ hp)) (mem_takePlace.2 (Or.inl ⟨rfl, mem_leave.2 ⟨fun e => hkl e.symm, hlp⟩⟩)))
              · rw [setView_other _ _ ha, setView_other _ _ hak] at hu
                exact h.det a u hu (fun i p hp hlp => hn i _ (mapSubs_get _ (mapSubs_get _ hp)) (mem_takePlace.2 (Or.inr ⟨ha, mem_leave.2 ⟨hak, hlp⟩⟩)))
  | destroyView k =>
    simp only [FState.step] at hs
    cases hm : st.views k with
    | none => simp only [hm] at hs; cases hs
    | some w =>
      simp only [hm, Res.ok.injEq] at hs
      subst hs
      refine GInv.of (h.sets.leave k) ?_ ?_
      · intro i o a hi ha
        obtain ⟨p, h1, rfl⟩ := mapSubs_some hi
        obtain ⟨e1, e2⟩ := mem_leave.1 ha
        obtain ⟨u, hu, hue⟩ := h.att i p a h1 e2
        exact ⟨u, by rw [setView_other _ _ e1]; exact hu, hue⟩
      · intro a u hu hn
        by_cases ha : a = k
        · subst ha; rw [setView_same] at hu; cases hu
        · rw [setView_other _ _ ha] at hu
          exact h.det a u hu (fun i p hp hap => hn i _ (mapSubs_get _ hp) (mem_leave.2 ⟨ha, hap⟩))
  | detach k => exact hk.elim
  | join k i =>
    simp only [FState.step] at hs
    cases hm : st.views k with
    | none => simp only [hm] at hs; cases hs
    | some v =>
      cases hi : st.sets.sets i with
      | none => simp only [hm, hi] at hs; cases hs
      | some o =>
        simp only [hm, hi, Res.bind_eq_ok, Prod.exists] at hs
        obtain ⟨s, out, items, h1, h2⟩ := hs
        have hc := step_subscribe_no hi h1
        have hno := (not_subscribed h.sets).1 hc
        rw [step_subscribe hi hc] at h1
        cases h1; cases h2
        have := h.subscribe hlt hi hno (v := v) (by
          rw [h.det k v hm hno, hk.1 o hi]
          exact (FInv.empty K).congr (fun x => by simp)) (hk.2 v hm)
        rw [setView_id hm] at this
        exact this

/-- Every operation of a history is one that is expected. -/
def KeptAll (K : Keys α κ φ) (lossy : Bool) (lt : α → α → Bool) : FState α → List (FOp α) → Prop
  | _, [] => True
  | st, op :: ops => Kept st op ∧ ∀ st', st.step K lossy lt op = .ok st' → KeptAll K lossy lt st' ops

theorem GInv.run {K : Keys α κ φ} (hP : StrictWeak K.ltP) (hF : StrictWeak K.ltF) {lt : α → α → Bool} (hlt : StrictWeak lt) (hu : Fine K lt) {lossy : Bool} :
    ∀ (ops : List (FOp α)) {st st' : FState α}, GInv K lt st → KeptAll K lossy lt st ops → st.run K lossy lt ops = .ok st' → GInv K lt st' := by
  intro ops
  induction ops with
  | nil => intro st st' h _ hr; simp only [FState.run, Res.ok.injEq] at hr; exact hr ▸ h
  | cons op ops ih =>
    intro st st' h hk hr
    simp only [FState.run, Res.bind_eq_ok] at hr
    obtain ⟨st1, h1, h2⟩ := hr
    exact ih (h.step hP hF hlt hu hk.1 h1) (hk.2 st1 h1) h2

end Verif.ForeignSet
