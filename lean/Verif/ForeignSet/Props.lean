import Verif.ForeignSet.Lemmas

/-! # C21: `foreign_set` groups the elements of its source by foreign key -/

namespace Verif.ForeignSet

open Verif.VectorSet
open Verif.VectorSet.Spec (eqv)
open Verif.ObservableSet

variable {α κ φ : Type}

theorem lookup_ok {K : Keys α κ φ} (hF : StrictWeak K.ltF) {gs : List (OSet α)} {S : α → Prop} (h : FInv K gs S)
    (k : φ) :
    (∃ L, lookup K gs k = .ok (some L) ∧ L ≠ [] ∧ L.Pairwise (fun a b => K.byPk a b = true) ∧
        ∀ x, x ∈ L ↔ S x ∧ eqv K.ltF (K.fk x) k = true) ∨
      (lookup K gs k = .ok none ∧ ∀ x, S x → eqv K.ltF (K.fk x) k = false) := by
  rcases findGroup_ok hF h k with ⟨A, g, B, rfl, q2, q3⟩ | ⟨q1, q2⟩
  · refine Or.inl ⟨g.set.forward, ?_, h.ne g (by simp), ?_, h.group hF q3⟩
    · simp only [lookup, q2, Res.ok_bind, getElem_mid]
    · have hi := h.inv g (by simp)
      rw [hi.forward]; exact hi.vals_sorted
  · refine Or.inr ⟨by simp only [lookup, q1, Res.ok_bind], ?_⟩
    intro x hx
    obtain ⟨g, hg, hxg⟩ := (h.mem x).1 hx
    exact q2 g hg x hxg

/-- C21.  A `foreign_set` constructed from a set of a program and subscribed to it, after any history of the program:
if elements that the source distinguishes have different primary keys, then nothing undefined has happened, and looking up
a foreign key gives a group exactly when some element of the source has that key; the group contains exactly the elements
of the source with the key, ordered by primary key; the groups are ordered by foreign key and none is empty. -/
theorem c21_groups_by_foreign_key {K : Keys α κ φ} (hP : StrictWeak K.ltP) (hF : StrictWeak K.ltF) {lt : α → α → Bool}
    (hlt : StrictWeak lt) {ops : List (Op α)} {st : State α} {items : List (Item α)}
    (hr : State.init.run lt ops = .ok (st, items)) {i : Nat} {o : OSet α} (hi : st.sets i = some o) {a : Nat}
    (ha : a ∈ o.subs) {S : List α} {es : List (Event α)} (hk : knows a items = some (S, es))
    (hu : ∀ x y, (x ∈ S ∨ .added x ∈ es) → (y ∈ S ∨ .added y ∈ es) → eqv K.ltP (K.pk x) (K.pk y) = true →
      eqv lt x y = true) :
    ∃ gs0 gs, attach K S = .ok gs0 ∧ foreignRun K gs0 es = .ok gs ∧
      (∀ k, (∃ L, lookup K gs k = .ok (some L) ∧ L ≠ [] ∧ L.Pairwise (fun a b => K.byPk a b = true) ∧
          ∀ x, x ∈ L ↔ x ∈ o.set.forward ∧ eqv K.ltF (K.fk x) k = true) ∨
        (lookup K gs k = .ok none ∧ ∀ x, x ∈ o.set.forward → eqv K.ltF (K.fk x) k = false)) ∧
      (gs.map (fun g => g.set.forward)).Pairwise (fun L M => ∀ x ∈ L, ∀ y ∈ M, K.ltF (K.fk x) (K.fk y) = true) ∧
      ∀ g ∈ gs, g.set.forward ≠ [] := by
  have hw := (WInv.init lt).run hlt ops hr
  obtain ⟨S', es', h1, h2, h3⟩ := hw.follows i o a hi ha
  rw [List.nil_append, hk] at h1
  simp only [Option.some.injEq, Prod.mk.injEq] at h1
  obtain ⟨rfl, rfl⟩ := h1
  have hrep : Replays lt (fun _ => False) (S.map .added) (· ∈ S) :=
    Replays.congr (fun _ => Iff.rfl) (fun x => by simp) (replays_sorted S (S := fun _ => False) (fun x h => h.elim) h3)
  obtain ⟨gs0, k1, k2⟩ := foreignRun_ok hP hF (lt := lt) (P := fun x => x ∈ S ∨ Event.added x ∈ es) hu (S.map .added)
    (FInv.empty K) (fun x h => h.elim) (by
      intro e he
      obtain ⟨x, hx, rfl⟩ := List.mem_map.1 he
      exact Or.inl hx) hrep
  obtain ⟨gs, l1, l2⟩ := foreignRun_ok hP hF (lt := lt) (P := fun x => x ∈ S ∨ Event.added x ∈ es) hu es
    k2 (fun x h => Or.inl h) (by
      intro e he
      cases e with
      | added v => exact Or.inr he
      | _ => trivial) h2
  refine ⟨gs0, gs, k1, l1, lookup_ok hF l2, ?_, l2.ne⟩
  rw [List.pairwise_map]; exact l2.sorted

/-- Elements are numbers; the last digit is the foreign key, the whole number the primary key. -/
def digits : Keys Nat Nat Nat := ⟨id, (· % 10), fun a b => decide (a < b), fun a b => decide (a < b)⟩

def demo : List (Op Nat) :=
  [.create 0, .on 0 (.insert 15), .on 0 (.insert 4), .subscribe 0 7, .on 0 (.insert 5), .on 0 (.insert 23),
   .on 0 (.eraseKey 4), .on 0 (.insert 33), .on 0 (.eraseKey 15)]

example : ∃ st items o S es gs0 gs, State.init.run (fun a b => decide (a < b)) demo = .ok (st, items) ∧
    st.sets 0 = some o ∧ 7 ∈ o.subs ∧ knows 7 items = some (S, es) ∧ S = [4, 15] ∧ attach digits S = .ok gs0 ∧
    foreignRun digits gs0 es = .ok gs ∧ gs.map (fun g => g.set.forward) = [[23, 33], [5]] :=
  ⟨_, _, _, _, _, _, _, rfl, rfl, by decide, rfl, rfl, rfl, rfl, rfl⟩

/-- C21, subscribers of the `foreign_set`.  While the source sends events that make sense, a subscriber is told about a new
group exactly when an element with a new foreign key is added, about the removal of a group exactly when the last element
with the foreign key is removed, and about the clearing exactly when the source had elements. -/
theorem c21_group_events {K : Keys α κ φ} (hP : StrictWeak K.ltP) (hF : StrictWeak K.ltF) {lt : α → α → Bool}
    {P : α → Prop} (hu : ∀ x y, P x → P y → eqv K.ltP (K.pk x) (K.pk y) = true → eqv lt x y = true)
    {es : List (Event α)} (he : ∀ v, .added v ∈ es → P v) {T : α → Prop} (hr : Replays lt (fun _ => False) es T)
    {gs : List (OSet α)} (hg : foreignRun K [] es = .ok gs) :
    (∀ v, P v → (∀ x, T x → eqv lt x v = false) → ∃ gs' evs, foreignOn K gs (.added v) = .ok (gs', evs) ∧
      (((∃ x, T x ∧ eqv K.ltF (K.fk x) (K.fk v) = true) ∧ evs = []) ∨
       ((∀ x, T x → eqv K.ltF (K.fk x) (K.fk v) = false) ∧ evs = [.added [v]]))) ∧
    (∀ v, T v → ∃ gs' evs, foreignOn K gs (.removing v) = .ok (gs', evs) ∧
      (((∃ x, T x ∧ x ≠ v ∧ eqv K.ltF (K.fk x) (K.fk v) = true) ∧ evs = []) ∨
       ((∀ x, T x → x ≠ v → eqv K.ltF (K.fk x) (K.fk v) = false) ∧ evs = [.removing [v]]))) ∧
    (∃ evs, foreignOn K gs .clearing = .ok ([], evs) ∧
      (((∀ x, ¬ T x) ∧ evs = []) ∨ ((∃ x, T x) ∧ evs = [.clearing]))) := by
  have hint : ∀ e ∈ es, Introduces P e := by
    intro e h
    cases e with
    | added v => exact he v h
    | _ => trivial
  obtain ⟨gs', k1, k2⟩ := foreignRun_ok hP hF (lt := lt) (P := P) hu es (FInv.empty K) (fun x h => h.elim) hint hr
  rw [hg] at k1
  cases k1
  have hTP := replays_introduces es hr hint (fun x h => h.elim)
  refine ⟨?_, ?_, ?_⟩
  · intro v hv hval
    obtain ⟨g1, evs, q1, _, q3⟩ := onAdded_ok hP hF hu k2 hTP hv hval
    exact ⟨g1, evs, q1, q3⟩
  · intro v hv
    obtain ⟨g1, evs, q1, _, q3⟩ := onRemoving_ok hP hF k2 hv
    exact ⟨g1, evs, q1, q3⟩
  · refine ⟨(onClearing gs).2, ?_, (onClearing_ok k2).2⟩
    simp only [foreignOn, onClearing]
    split
    · next h => rw [List.isEmpty_iff] at h; subst h; rfl
    · rfl

example : ∃ gs gs', foreignRun digits [] [.added 13, .added 4, .added 23] = .ok gs ∧
    Replays (fun a b => decide (a < b)) (fun _ => False) [.added 13, .added 4, .added 23]
      (fun x => ((False ∨ x = 13) ∨ x = 4) ∨ x = 23) ∧
    foreignOn digits gs (.removing 4) = .ok (gs', [.removing [4]]) ∧ foreignOn digits gs' (.removing 13) = .ok
      ((match foreignOn digits gs' (.removing 13) with | .ok r => r.1 | _ => []), []) :=
  ⟨_, _, rfl, ⟨by simp [Valid], by simp [Valid, applyEvent, eqv], by simp [Valid, applyEvent, eqv], fun _ => Iff.rfl⟩, rfl, rfl⟩

/-- C21, the precondition is needed: if two elements of the source have the same primary and foreign key, one of them is
missing from the group. -/
theorem c21_equal_primary_keys_drop :
    ∃ gs : List (OSet Nat), foreignRun ⟨(· / 100), (· % 10), fun a b => decide (a < b), fun a b => decide (a < b)⟩ []
      [.added 105, .added 115] = .ok gs ∧ lookup ⟨(· / 100), (· % 10), fun a b => decide (a < b), fun a b => decide (a < b)⟩
      gs 5 = .ok (some [105]) := ⟨_, rfl, rfl⟩

end Verif.ForeignSet
