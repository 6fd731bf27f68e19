import Verif.ForeignSet.MovesLemmas

/-!
# C174: programs with several sets and `foreign_set`s
-/

namespace Verif.ForeignSet

open Verif.VectorSet
open Verif.VectorSet.Spec (eqv)
open Verif.ObservableSet

variable {α κ φ : Type}

/-- What a user finds in a `foreign_set` that shows the elements `S`: under each key the elements with that key in the order of their primary keys, or nothing if there are none;
no group is empty, and the groups are ordered by key. -/
def Shows (K : Keys α κ φ) (gs : List (OSet α)) (S : List α) : Prop :=
  (∀ k, (∃ L, lookup K gs k = .ok (some L) ∧ L ≠ [] ∧ L.Pairwise (fun a b => K.ltP (K.pk a) (K.pk b) = true) ∧ ∀ x, x ∈ L ↔ x ∈ S ∧ eqv K.ltF (K.fk x) k = true) ∨
    (lookup K gs k = .ok none ∧ ∀ x, x ∈ S → eqv K.ltF (K.fk x) k = false)) ∧
  (gs.map (fun g => g.set.forward)).Pairwise (fun L M => ∀ x ∈ L, ∀ y ∈ M, K.ltF (K.fk x) (K.fk y) = true) ∧
  ∀ g ∈ gs, g.set.forward ≠ []

theorem FInv.shows {K : Keys α κ φ} (hF : StrictWeak K.ltF) {gs : List (OSet α)} {S : List α} (h : FInv K gs (· ∈ S)) : Shows K gs S :=
  ⟨lookup_ok hF h, by rw [List.pairwise_map]; exact h.sorted, h.ne⟩

/-- The `foreign_set` `k` is attached to some set of the state. -/
def Attached (st : FState α) (k : Nat) : Prop := ∃ i o, st.sets.sets i = some o ∧ k ∈ o.subs

/-- C174.  In every program with sets and `foreign_set`s, whatever is moved and destroyed, a `foreign_set` that is attached to a set exists, is attached to no other set, and shows exactly the elements of that
set by foreign key; one that is attached to nothing is empty.  Missing: `foreign_set`s that are unsubscribed by hand, or subscribed by hand to a set that has elements, or after they lost their getters
(`c174_unsubscribed_violated`, `c174_subscribed_late_violated`, `c174_getters_lost_violated`). -/
theorem c174_follow_partial {K : Keys α κ φ} (hP : StrictWeak K.ltP) (hF : StrictWeak K.ltF) {lt : α → α → Bool} (hlt : StrictWeak lt)
    (hu : ∀ x y, eqv K.ltP (K.pk x) (K.pk y) = true → eqv lt x y = true) {lossy : Bool}
    {ops : List (FOp α)} (hk : KeptAll K lossy lt FState.init ops) {st : FState α} (hr : FState.init.run K lossy lt ops = .ok st) :
    (∀ i o k, st.sets.sets i = some o → k ∈ o.subs →
      (∃ v, st.views k = some v ∧ Shows K v.groups o.set.forward) ∧ ∀ j p, st.sets.sets j = some p → k ∈ p.subs → j = i) ∧
    (∀ k v, st.views k = some v → ¬ Attached st k → v.groups = []) := by
  have h := (GInv.init K lt).run hP hF hlt hu ops hk hr
  refine ⟨?_, fun k v hv hn => h.det k v hv (fun i o hi hk => hn ⟨i, o, hi, hk⟩)⟩
  intro i o k hi hk
  obtain ⟨v, hv, hve, _⟩ := h.att i o k hi hk
  exact ⟨⟨v, hv, hve.shows hF⟩, fun j p hj hp => (h.sets.disj i j o p k hi hj hk hp).symm⟩

/-- C174: no operation of a set fails because of the `foreign_set`s that are attached to it.  Missing: as in `c174_follow_partial`. -/
theorem c174_sets_unhindered_partial {K : Keys α κ φ} (hP : StrictWeak K.ltP) (hF : StrictWeak K.ltF) {lt : α → α → Bool} (hlt : StrictWeak lt)
    (hu : ∀ x y, eqv K.ltP (K.pk x) (K.pk y) = true → eqv lt x y = true) {lossy : Bool}
    {ops : List (FOp α)} (hk : KeptAll K lossy lt FState.init ops) {st : FState α} (hr : FState.init.run K lossy lt ops = .ok st) {op : Op α} (hp : Plain op) {s' : State α}
    {out : Spec.Out α} {items : List (Item α)} (hs : st.sets.step lt op = .ok (s', out, items)) :
    ∃ vs', st.step K lossy lt (.source op) = .ok ⟨s', vs'⟩ := by
  obtain ⟨vs', h1, _⟩ := ((GInv.init K lt).run hP hF hlt hu ops hk hr).source hP hF hlt hu (lossy := lossy) hp hs
  exact ⟨vs', h1⟩

/-- C174: a `foreign_set` may be constructed from any set at any time, which shows the elements of that set then; the sets have the elements they had.  Missing: as in `c174_follow_partial`. -/
theorem c174_construct_partial {K : Keys α κ φ} (hP : StrictWeak K.ltP) (hF : StrictWeak K.ltF) {lt : α → α → Bool} (hlt : StrictWeak lt)
    (hu : ∀ x y, eqv K.ltP (K.pk x) (K.pk y) = true → eqv lt x y = true) {lossy : Bool}
    {ops : List (FOp α)} (hk : KeptAll K lossy lt FState.init ops) {st : FState α} (hr : FState.init.run K lossy lt ops = .ok st) {k i : Nat} {o : OSet α}
    (hm : st.views k = none) (hi : st.sets.sets i = some o) :
    ∃ st' v, st.step K lossy lt (.newFrom k i) = .ok st' ∧ st'.sets.sets i = some { o with subs := o.subs ++ [k] } ∧ (∀ j, j ≠ i → st'.sets.sets j = st.sets.sets j) ∧
      st'.views k = some v ∧ Shows K v.groups o.set.forward ∧ ∀ l, l ≠ k → st'.views l = st.views l := by
  have h := (GInv.init K lt).run hP hF hlt hu ops hk hr
  obtain ⟨st', h1, h2, h3⟩ := h.newFrom hP hF hlt hu (lossy := lossy) hm hi
  obtain ⟨v', h4, h5, _⟩ := h2.att i _ k h3 (by simp)
  refine ⟨st', v', h1, h3, ?_, h4, h5.shows hF, ?_⟩
  all_goals
    simp only [FState.step, hm, hi, Res.bind_eq_ok, Prod.exists, Res.ok.injEq] at h1
    obtain ⟨gs, _, s, out, items, g2, rfl⟩ := h1
  · intro j hj
    have hc := step_subscribe_no hi g2
    rw [step_subscribe hi hc] at g2
    cases g2
    exact set_other _ _ hj
  · intro l hl
    exact setView_other _ _ hl

/-- C174: moving a `foreign_set` moves what it shows and its place among the observers: the new one shows what the old one showed (the groups are the same objects), is attached where the old one was, and nowhere
else; the old one is attached to nothing and empty; the sets and the other `foreign_set`s are as before.  Missing: as in `c174_follow_partial`. -/
theorem c174_moved_partial {K : Keys α κ φ} (hP : StrictWeak K.ltP) (hF : StrictWeak K.ltF) {lt : α → α → Bool} (hlt : StrictWeak lt)
    (hu : ∀ x y, eqv K.ltP (K.pk x) (K.pk y) = true → eqv lt x y = true) {lossy : Bool}
    {ops : List (FOp α)} (hops : KeptAll K lossy lt FState.init ops) {st : FState α} (hr : FState.init.run K lossy lt ops = .ok st) {k l : Nat} {v : View α} (hm : st.views l = some v) (hkl : k ≠ l)
    {st' : FState α} (hs : st.step K lossy lt (.moveView k l) = .ok st' ∨ st.step K lossy lt (.assignView k l) = .ok st') :
    st'.views k = some v ∧ (∃ u, st'.views l = some u ∧ u.groups = []) ∧
    (∀ a, a ≠ k → a ≠ l → st'.views a = st.views a) ∧
    (∀ i, (st'.sets.sets i).isSome = (st.sets.sets i).isSome) ∧
    ∀ i o, st.sets.sets i = some o → ∃ o', st'.sets.sets i = some o' ∧ o'.set = o.set ∧
      ∀ a, a ∈ o'.subs ↔ (a = k ∧ l ∈ o.subs) ∨ (a ≠ k ∧ a ≠ l ∧ a ∈ o.subs) := by
  have h := (GInv.init K lt).run hP hF hlt hu ops hops hr
  have f3 : setView (setView st.views k (some v)) l (some ⟨[], lossy || v.bare⟩) k = some v := by rw [setView_other _ _ hkl, setView_same]
  have f4 : ∃ u, setView (setView st.views k (some v)) l (some ⟨[], lossy || v.bare⟩) l = some u ∧ u.groups = [] := ⟨_, setView_same _ _ _, rfl⟩
  have f5 : ∀ a, a ≠ k → a ≠ l → setView (setView st.views k (some v)) l (some ⟨[], lossy || v.bare⟩) a = st.views a :=
    fun a h1 h2 => by rw [setView_other _ _ h2, setView_other _ _ h1]
  rcases hs with hs | hs
  · simp only [FState.step, hm] at hs
    cases hk : st.views k with
    | some w => simp only [hk] at hs; cases hs
    | none =>
      simp only [hk, Res.ok.injEq] at hs
      subst hs
      refine ⟨f3, f4, f5, fun i => by simp [State.takePlace, State.mapSubs], ?_⟩
      intro i o hi
      refine ⟨_, mapSubs_get _ hi, rfl, fun a => ?_⟩
      have hno : k ∉ o.subs := by
        intro hko
        obtain ⟨u, hu, _⟩ := h.att i o k hi hko
        rw [hk] at hu; cases hu
      rw [mem_takePlace]
      constructor
      · rintro (h1 | ⟨h1, h2⟩)
        · exact Or.inl h1
        · exact Or.inr ⟨fun e => hno (e ▸ h2), h1, h2⟩
      · rintro (h1 | ⟨_, h1, h2⟩)
        · exact Or.inl h1
        · exact Or.inr ⟨h1, h2⟩
  · simp only [FState.step, hm] at hs
    cases hk : st.views k with
    | none => simp only [hk] at hs; cases hs
    | some w =>
      simp only [hk, if_neg hkl, Res.ok.injEq] at hs
      subst hs
      refine ⟨f3, f4, f5, fun i => by simp [State.leave, State.takePlace, State.mapSubs], ?_⟩
      intro i o hi
      refine ⟨_, mapSubs_get _ (mapSubs_get _ hi), rfl, fun a => ?_⟩
      rw [mem_takePlace]
      simp only [mem_leave]
      constructor
      · rintro (⟨h1, _, h2⟩ | ⟨h1, h2, h3⟩)
        · exact Or.inl ⟨h1, h2⟩
        · exact Or.inr ⟨h2, h1, h3⟩
      · rintro (⟨h1, h2⟩ | ⟨h1, h2, h3⟩)
        · exact Or.inl ⟨h1, fun e => hkl e.symm, h2⟩
        · exact Or.inr ⟨h2, h1, h3⟩

/-- A `foreign_set` may be moved to any name that is free, and assigned to any other, whatever it is attached to. -/
theorem c174_movable {K : Keys α κ φ} {lossy : Bool} {lt : α → α → Bool} (st : FState α) {k l : Nat} {v : View α} (hl : st.views l = some v) :
    (st.views k = none → ∃ st', st.step K lossy lt (.moveView k l) = .ok st') ∧
    (∀ w, st.views k = some w → ∃ st', st.step K lossy lt (.assignView k l) = .ok st') := by
  constructor
  · intro hk
    exact ⟨_, by simp only [FState.step, hk, hl]; rfl⟩
  · intro w hk
    by_cases h : k = l
    · exact ⟨_, by simp only [FState.step, hk, hl, if_pos h]; rfl⟩
    · exact ⟨_, by simp only [FState.step, hk, hl, if_neg h]; rfl⟩

/-- The elements and the subscribers of a set, and the groups of some `foreign_set`s, for the examples. -/
def pictures (i : Nat) (ks : List Nat) (r : Res (FState Nat)) : Option (List Nat × List Nat) × List (Option (List (List Nat))) :=
  match r with
  | .ok st => ((st.sets.sets i).map (fun o => (o.set.forward, o.subs)), ks.map (fun k => (st.views k).map (fun v => v.groups.map (fun g => g.set.forward))))
  | _ => (none, [])

/-- A set with two `foreign_set`s (elements grouped by the last digit); one is moved, the set is moved over another one, and goes on. -/
def tale : List (FOp Nat) :=
  [.source (.create 1), .source (.on 1 (.insert 15)), .source (.on 1 (.insert 4)), .newFrom 7 1, .source (.on 1 (.insert 5)), .newFrom 8 1, .moveView 9 7,
   .source (.create 2), .newView 6, .join 6 2, .source (.on 2 (.insert 1)), .source (.moveAssign 2 1), .source (.on 2 (.insert 24)), .source (.on 2 (.eraseKey 15))]

example : pictures 2 [6, 7, 8, 9] (FState.init.run digits true (fun a b => decide (a < b)) tale) =
    (some ([4, 5, 24], [9, 8]), [some [], some [], some [[4, 24], [5]], some [[4, 24], [5]]]) := by decide +kernel

example : KeptAll digits true (fun a b => decide (a < b)) FState.init tale := by
  simp only [tale, KeptAll]
  refine ⟨trivial, ?_⟩; intro s1 h1; cases h1
  refine ⟨trivial, ?_⟩; intro s1 h1; cases h1
  refine ⟨trivial, ?_⟩; intro s1 h1; cases h1
  refine ⟨trivial, ?_⟩; intro s1 h1; cases h1
  refine ⟨trivial, ?_⟩; intro s1 h1; cases h1
  refine ⟨trivial, ?_⟩; intro s1 h1; cases h1
  refine ⟨trivial, ?_⟩; intro s1 h1; cases h1
  refine ⟨trivial, ?_⟩; intro s1 h1; cases h1
  refine ⟨trivial, ?_⟩; intro s1 h1; cases h1
  refine ⟨⟨?_, ?_⟩, ?_⟩
  · intro o ho; cases ho; rfl
  · intro v hv; cases hv; rfl
  intro s1 h1; cases h1
  refine ⟨trivial, ?_⟩; intro s1 h1; cases h1
  refine ⟨trivial, ?_⟩; intro s1 h1; cases h1
  refine ⟨trivial, ?_⟩; intro s1 h1; cases h1
  exact ⟨trivial, fun _ _ => trivial⟩

/-- **C174 is violated** by a `foreign_set` that was unsubscribed by hand: it keeps its groups, so that it still has an element (a pointer to it, in the program) when the set that had it is gone. -/
theorem c174_unsubscribed_violated :
    ∃ st v, FState.init.run digits false (fun a b => decide (a < b)) [.source (.create 1), .source (.on 1 (.insert 15)), .newFrom 7 1, .detach 7, .source (.destroy 1)] = .ok st ∧
      st.sets.sets 1 = none ∧ st.views 7 = some v ∧ lookup digits v.groups 5 = .ok (some [15]) :=
  ⟨_, _, rfl, rfl, rfl, rfl⟩

/-- **C174 is violated** by a `foreign_set` that is subscribed by hand to a set that has elements: it does not show them, and when one of them is removed what happens is undefined. -/
theorem c174_subscribed_late_violated :
    (∃ st v o, FState.init.run digits false (fun a b => decide (a < b)) [.source (.create 1), .source (.on 1 (.insert 15)), .newView 7, .join 7 1] = .ok st ∧
      st.sets.sets 1 = some o ∧ 7 ∈ o.subs ∧ o.set.forward = [15] ∧ st.views 7 = some v ∧ lookup digits v.groups 5 = .ok none) ∧
    FState.init.run digits false (fun a b => decide (a < b)) [.source (.create 1), .source (.on 1 (.insert 15)), .newView 7, .join 7 1, .source (.on 1 (.eraseKey 15))] = .ub :=
  ⟨⟨_, _, _, rfl, rfl, by decide, rfl, rfl, rfl⟩, rfl⟩

/-- **C174 is violated** by a `foreign_set` that was moved from, if its getters do not survive that: subscribed by hand, even to an empty set, it throws as soon as an element is inserted. -/
theorem c174_getters_lost_violated :
    FState.init.run digits true (fun a b => decide (a < b)) [.source (.create 1), .newView 7, .moveView 8 7, .join 7 1, .source (.on 1 (.insert 15))] = .throw .general ∧
    (∃ st, FState.init.run digits false (fun a b => decide (a < b)) [.source (.create 1), .newView 7, .moveView 8 7, .join 7 1, .source (.on 1 (.insert 15))] = .ok st) :=
  ⟨rfl, _, rfl⟩

end Verif.ForeignSet
