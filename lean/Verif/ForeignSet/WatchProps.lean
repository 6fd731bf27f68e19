import Verif.ForeignSet.WatchLemmas

/-! # C149: the observers of a group of a `foreign_set` -/

namespace Verif.ForeignSet.Watch

open Verif.VectorSet
open Verif.VectorSet.Spec (eqv)
open Verif.ObservableSet

variable {α κ φ : Type}

theorem reach {K : Keys α κ φ} (hP : StrictWeak K.ltP) (hF : StrictWeak K.ltF) {ops : List (Op α φ)} (hl : Spec.Legal K Spec.start ops)
    {gs : List (OSet α)} {items : List (Item α)} (hr : run K [] ops = .ok (gs, items)) : WI K gs (Spec.after K Spec.start ops) items := by
  obtain ⟨gs', items', h1, h2⟩ := (WI.init (φ := φ) K).run hP hF ops hl
  rw [hr] at h1
  cases h1
  rw [List.nil_append] at h2; exact h2

/-- C149.  A program that watches only keys that some element has, with observers that do not watch yet, is defined, and afterwards the observers that are subscribed are
exactly those that watch; `find` gives the elements of the source with the key. -/
theorem c149_defined {K : Keys α κ φ} (hP : StrictWeak K.ltP) (hF : StrictWeak K.ltF) {ops : List (Op α φ)} (hl : Spec.Legal K Spec.start ops) :
    ∃ gs items, run K [] ops = .ok (gs, items) ∧
      (∀ a, subscribed gs a = true ↔ ∃ k, (Spec.after K Spec.start ops).watches a k) ∧
      (∀ k, (∃ x, (Spec.after K Spec.start ops).at K k x) → ∃ L, lookup K gs k = .ok (some L) ∧ ∀ x, x ∈ L ↔ (Spec.after K Spec.start ops).at K k x) := by
  obtain ⟨gs, items, h1, h2⟩ := (WI.init (φ := φ) K).run hP hF ops hl
  refine ⟨gs, items, h1, h2.subscribed, ?_⟩
  rintro k ⟨x, hx, hxk⟩
  rcases findGroup_ok hF h2.fin k with ⟨A, g, B, rfl, q2, q3⟩ | ⟨_, q2⟩
  · exact ⟨g.set.forward, by simp only [lookup, q2, Res.ok_bind, getElem_mid], h2.fin.group hF q3⟩
  · obtain ⟨g, hg, hxg⟩ := (h2.fin.mem x).1 hx
    rw [q2 g hg x hxg] at hxk; cases hxk

/-- C149.  Only such programs are defined: a subscription to a key that no element has, of an observer that watches, and the unsubscription of one that does not watch
(any longer) are undefined. -/
theorem c149_undefined {K : Keys α κ φ} (hP : StrictWeak K.ltP) (hF : StrictWeak K.ltF) {ops : List (Op α φ)} (hl : Spec.Legal K Spec.start ops)
    {gs : List (OSet α)} {items : List (Item α)} (hr : run K [] ops = .ok (gs, items)) :
    (∀ k a, ¬ Spec.Allowed K (Spec.after K Spec.start ops) (.watch k a) → step K gs (.watch k a) = .ub) ∧
    (∀ a, ¬ Spec.Allowed K (Spec.after K Spec.start ops) (.unwatch a) → step K gs (.unwatch a) = .ub) := by
  have h := reach hP hF hl hr
  refine ⟨?_, ?_⟩
  · intro k a hn
    rcases findGroup_ok hF h.fin k with ⟨A, g, B, rfl, q2, q3⟩ | ⟨q1, _⟩
    · have hs : subscribed (A ++ g :: B) a = true := by
        cases hs : subscribed (A ++ g :: B) a with
        | true => rfl
        | false =>
          exfalso
          refine hn ⟨keyed_some h.fin (by simp) q3, fun k' hk' => ?_⟩
          rw [(h.subscribed a).2 ⟨k', hk'⟩] at hs; cases hs
      simp only [step, watch, q2, Res.ok_bind, getElem_mid, hs, if_true]
    · simp only [step, watch, q1, Res.ok_bind]
  · intro a hn
    have hs : subscribed gs a = false := by
      cases hs : subscribed gs a with
      | false => rfl
      | true => exact absurd ((h.subscribed a).1 hs) hn
    simp only [step, unwatch, hs]; rfl

/-- C149.  Each change of the source is told to each observer exactly as it concerns its key; nobody else is told anything; and the set that an observer finds when it looks
during the call contains exactly the elements of the source with its key, after an addition and before a removal. -/
theorem c149_told {K : Keys α κ φ} (hP : StrictWeak K.ltP) (hF : StrictWeak K.ltF) {ops : List (Op α φ)} (hl : Spec.Legal K Spec.start ops)
    {gs : List (OSet α)} {items : List (Item α)} (hr : run K [] ops = .ok (gs, items)) {e : Event α}
    (he : Spec.Allowed K (Spec.after K Spec.start ops) (.event e)) :
    ∃ gs' notes, step K gs (.event e) = .ok (gs', notes.map .note) ∧
      (∀ a k, (Spec.after K Spec.start ops).watches a k → Spec.Due K (Spec.after K Spec.start ops) k e (eventsOf a notes)) ∧
      (∀ n ∈ notes, ∃ k, (Spec.after K Spec.start ops).watches n.observer k ∧ ∀ x, x ∈ n.seen ↔ Spec.Shown K (Spec.after K Spec.start ops) k e x) := by
  obtain ⟨gs', evs, notes, h1, _, h3, h4⟩ := (reach hP hF hl hr).event hP hF he
  exact ⟨gs', notes, by simp only [step, h1, Res.ok_bind], h3, h4⟩

/-- C149.  What an observer was shown when it was subscribed and what it has been told since leads exactly to the elements of the source with its key. -/
theorem c149_knows {K : Keys α κ φ} (hP : StrictWeak K.ltP) (hF : StrictWeak K.ltF) {ops : List (Op α φ)} (hl : Spec.Legal K Spec.start ops)
    {gs : List (OSet α)} {items : List (Item α)} (hr : run K [] ops = .ok (gs, items)) {a : Nat} {k : φ} (hw : (Spec.after K Spec.start ops).watches a k) :
    ∃ S es, knows a items = some (S, es) ∧ Replays K.byPk (· ∈ S) es ((Spec.after K Spec.start ops).at K k) := by
  have h := reach hP hF hl hr
  obtain ⟨g, h1, h2, h3⟩ := h.watched a k hw
  obtain ⟨S, es, k1, k2, _⟩ := h.follows g h1 a h2
  obtain ⟨A, B, rfl⟩ := List.append_of_mem h1
  exact ⟨S, es, k1, Replays.congr (fun _ => Iff.rfl) (fun x => h.fin.group hF h3 x) k2⟩

/-- C149.  A `mirror_set` (with its own order) that reflects a group never throws and contains exactly the elements of the source with the foreign key. -/
theorem c149_mirror {K : Keys α κ φ} (hP : StrictWeak K.ltP) (hF : StrictWeak K.ltF) {ops : List (Op α φ)} (hl : Spec.Legal K Spec.start ops)
    {gs : List (OSet α)} {items : List (Item α)} (hr : run K [] ops = .ok (gs, items)) {a : Nat} {k : φ} (hw : (Spec.after K Spec.start ops).watches a k)
    {lt' : α → α → Bool} (hlt' : StrictWeak lt') (hfine : ∀ x y, eqv lt' x y = true → eqv K.ltP (K.pk x) (K.pk y) = true) :
    ∃ S es m notes, knows a items = some (S, es) ∧ mirrorRun lt' OSet.empty (S.map .added ++ es) = .ok (m, notes) ∧
      (∀ x, x ∈ m.set.forward ↔ (Spec.after K Spec.start ops).at K k x) ∧ m.set.forward.Pairwise (fun a b => lt' a b = true) := by
  have h := reach hP hF hl hr
  obtain ⟨g, h1, h2, h3⟩ := h.watched a k hw
  obtain ⟨S, es, k1, k2, k3⟩ := h.follows g h1 a h2
  have hrep : Replays K.byPk (fun _ => False) (S.map .added ++ es) (· ∈ g.set.forward) :=
    Replays.append (T := (· ∈ S)) (Replays.congr (fun _ => Iff.rfl) (fun x => by simp) (replays_sorted S (S := fun _ => False) (fun x h => h.elim) k3)) k2
  obtain ⟨m, notes, m1, m2, _, m4, _⟩ := mirrorRun_ok (lt := K.byPk) hlt' (P := fun _ => True) (fun x y _ _ hxy => hfine x y hxy)
    (S.map .added ++ es) (m := OSet.empty) (Inv.empty _) (S := fun _ => False) (fun x => by simp [OSet.empty, VSet.empty, VSet.forward])
    (by simp [OSet.empty]) (fun _ _ => trivial) (fun e _ => by cases e <;> trivial) hrep
  obtain ⟨A, B, rfl⟩ := List.append_of_mem h1
  exact ⟨S, es, m, notes, k1, m1, fun x => (m4 x).trans (h.fin.group hF h3 x), by rw [m2.forward]; exact m2.vals_sorted⟩

/-- Who does not watch is not told anything. -/
theorem WI.silent {K : Keys α κ φ} (hP : StrictWeak K.ltP) (hF : StrictWeak K.ltF) {a : Nat} : ∀ (ops : List (Op α φ)) {gs : List (OSet α)} {w : Spec.World α φ}
    {items : List (Item α)}, WI K gs w items → Spec.Legal K w ops → (∀ k, ¬ w.watches a k) → (∀ k, Op.watch k a ∉ ops) →
    ∀ {gs' items'}, Watch.run K gs ops = .ok (gs', items') → (∀ n, Item.note n ∈ items' → n.observer ≠ a) ∧ Watch.subscribed gs' a = false := by
  intro ops
  induction ops with
  | nil =>
    intro gs w items h _ hn _ gs' items' hr
    cases hr
    refine ⟨by simp, ?_⟩
    cases hs : Watch.subscribed gs a with
    | false => rfl
    | true => obtain ⟨k, hk⟩ := (h.subscribed a).1 hs; exact absurd hk (hn k)
  | cons op ops ih =>
    intro gs w items h hl hn hno gs' items' hr
    simp only [Watch.run, Res.bind_eq_ok, Prod.exists, Res.ok.injEq, Prod.mk.injEq] at hr
    obtain ⟨gs1, i1, h1, gs2, i2, h2, rfl, rfl⟩ := hr
    have key : WI K gs1 (Spec.next K w op) (items ++ i1) ∧ (∀ k, ¬ (Spec.next K w op).watches a k) ∧ ∀ n, Item.note n ∈ i1 → n.observer ≠ a := by
      obtain ⟨gs3, i3, q1, q2⟩ := h.step hP hF hl.1
      rw [h1] at q1; cases q1
      refine ⟨q2, ?_, ?_⟩
      · cases op with
        | event e => rintro k ⟨hk, _⟩; exact hn k hk
        | watch l b =>
          rintro k (hk | ⟨rfl, _⟩)
          · exact hn k hk
          · exact hno l (by simp)
        | unwatch b => rintro k ⟨hk, _⟩; exact hn k hk
      · cases op with
        | event e =>
          obtain ⟨gs4, evs, notes, r1, _, _, r4⟩ := h.event hP hF hl.1
          simp only [Watch.step, r1, Res.ok_bind, Res.ok.injEq, Prod.mk.injEq] at h1
          obtain ⟨_, rfl⟩ := h1
          rintro n hn' rfl
          simp only [List.mem_map, Item.note.injEq, exists_eq_right] at hn'
          obtain ⟨k, hk, _⟩ := r4 n hn'
          exact hn k hk
        | watch l b =>
          obtain ⟨gs4, L, r1, _⟩ := h.watch hF hl.1.1 hl.1.2
          simp only [Watch.step, r1, Res.ok.injEq, Prod.mk.injEq] at h1
          obtain ⟨_, rfl⟩ := h1
          simp
        | unwatch b =>
          obtain ⟨gs4, r1, _⟩ := h.unwatch hl.1
          simp only [Watch.step, r1, Res.ok_bind, Res.ok.injEq, Prod.mk.injEq] at h1
          obtain ⟨_, rfl⟩ := h1
          simp
    obtain ⟨s1, s2⟩ := ih key.1 hl.2 key.2.1 (fun k hk => hno k (by simp [hk])) h2
    refine ⟨?_, s2⟩
    intro n hn'
    rcases List.mem_append.1 hn' with hn' | hn'
    · exact key.2.2 n hn'
    · exact s1 n hn'

/-- C149.  When the last element with the key goes, the observer is told once that the set is being cleared, and from then on it is not subscribed and is not told anything, also
if elements with the key are added again, until it is subscribed again. -/
theorem c149_end {K : Keys α κ φ} (hP : StrictWeak K.ltP) (hF : StrictWeak K.ltF) {ops : List (Op α φ)} (hl : Spec.Legal K Spec.start ops)
    {gs : List (OSet α)} {items : List (Item α)} (hr : run K [] ops = .ok (gs, items)) {a : Nat} {k : φ} (hw : (Spec.after K Spec.start ops).watches a k)
    {e : Event α} (he : Spec.Allowed K (Spec.after K Spec.start ops) (.event e))
    (hlast : ∀ x, ¬ (applyEvent (Spec.after K Spec.start ops).has e x ∧ eqv K.ltF (K.fk x) k = true)) :
    ∃ gs' notes, step K gs (.event e) = .ok (gs', notes.map .note) ∧ eventsOf a notes = [.clearing] ∧
      ∀ ops', Spec.Legal K (Spec.next K (Spec.after K Spec.start ops) (.event e)) ops' → (∀ l, Op.watch l a ∉ ops') →
      ∃ gs'' items', run K gs' ops' = .ok (gs'', items') ∧ (∀ n, Item.note n ∈ items' → n.observer ≠ a) ∧ subscribed gs'' a = false := by
  have h := reach hP hF hl hr
  obtain ⟨gs', evs, notes, h1, h2, h3, h4⟩ := h.event hP hF he
  refine ⟨gs', notes, by simp only [step, h1, Res.ok_bind], ?_, ?_⟩
  · have hd := h3 a k hw
    obtain ⟨g, g1, _, g3⟩ := h.watched a k hw
    obtain ⟨y, hy, hyk⟩ := keyed_some h.fin g1 g3
    cases e with
    | added v => exact absurd ⟨Or.inl hy, hyk⟩ (hlast y)
    | clearing => exact hd
    | removing v =>
      rcases hd with ⟨_, ⟨x, hx, hxv⟩, _⟩ | ⟨_, _, hd⟩ | ⟨hv, _⟩
      · exact absurd ⟨⟨hx.1, hxv⟩, hx.2⟩ (hlast x)
      · exact hd
      · refine absurd ⟨⟨hy, ?_⟩, hyk⟩ (hlast y)
        rintro rfl
        rw [hyk] at hv; cases hv
  · intro ops' hl' hno
    obtain ⟨gs'', items', r1, _⟩ := h2.run hP hF ops' hl'
    have hnw : ∀ l, ¬ (Spec.next K (Spec.after K Spec.start ops) (.event e)).watches a l := by
      rintro l ⟨hl1, x, hx⟩
      have := h.uniq a k l hw hl1; subst this
      exact hlast x hx
    obtain ⟨s1, s2⟩ := h2.silent hP hF ops' hl' hnw hno r1
    exact ⟨gs'', items', r1, s1, s2⟩

/-- The events that a source with any order sends satisfy what is asked for here, if elements that the source distinguishes have different primary keys. -/
theorem c149_source {K : Keys α κ φ} {lt : α → α → Bool} {P : α → Prop} (hu : ∀ x y, P x → P y → eqv K.ltP (K.pk x) (K.pk y) = true → eqv lt x y = true) :
    ∀ (es : List (Event α)) {S T : α → Prop}, Replays lt S es T → (∀ x, S x → P x) → (∀ v, .added v ∈ es → P v) → Replays K.byPk S es T := by
  intro es
  induction es with
  | nil => intro S T h _ _; exact h
  | cons e es ih =>
    intro S T h hS hP
    refine ⟨?_, ih h.2 ?_ (fun v hv => hP v (by simp [hv]))⟩
    · cases e with
      | added v =>
        intro x hx
        cases hk : eqv K.byPk x v with
        | false => rfl
        | true =>
          have := hu x v (hS x hx) (hP v (by simp)) hk
          rw [h.1 x hx] at this; cases this
      | removing v => exact h.1
      | clearing => trivial
    · intro x hx
      cases e with
      | added v =>
        rcases hx with hx | rfl
        · exact hS x hx
        · exact hP x (by simp)
      | removing v => exact hS x hx.1
      | clearing => exact hx.elim

/-! ## A program -/

/-- Numbers by their last digit: observer 7 watches 3, sees 23 coming and 13 going; the last one goes and 33, which has the digit again, is not told. -/
def demo : List (Op Nat Nat) :=
  [.event (.added 13), .event (.added 4), .watch 3 7, .event (.added 23), .watch 4 8, .event (.removing 13), .event (.removing 23), .event (.added 33),
   .unwatch 8, .event .clearing]

def digits : Keys Nat Nat Nat := ⟨id, (· % 10), fun a b => decide (a < b), fun a b => decide (a < b)⟩

theorem demo_legal : Spec.Legal digits Spec.start demo := by
  simp [demo, Spec.Legal, Spec.Allowed, Spec.next, Spec.start, Spec.World.at, Valid, applyEvent, eqv, digits, Keys.byPk]
  refine ⟨by omega, 4, ⟨⟨rfl, 4, by omega⟩, 4, by omega⟩, Or.inl ⟨4, by omega⟩⟩

example : ∃ gs items, run digits [] demo = .ok (gs, items) ∧ knows 7 items = some ([13], [.added 23, .removing 13, .clearing]) ∧
    knows 8 items = some ([4], []) ∧ gs.length = 0 := ⟨_, _, rfl, rfl, rfl, rfl⟩

example : ∃ gs items, run digits [] (demo.take 6) = .ok (gs, items) ∧ (Spec.after digits Spec.start (demo.take 6)).watches 7 3 ∧
    Spec.Allowed digits (Spec.after digits Spec.start (demo.take 6)) (.event (.removing 23)) ∧ subscribed gs 7 = true :=
  ⟨_, _, rfl, by simp [demo, Spec.after, Spec.next, Spec.start, applyEvent, digits, eqv]; exact ⟨23, by omega⟩, by
    simp [demo, Spec.Allowed, Spec.after, Spec.next, Spec.start, applyEvent, Valid], rfl⟩

/-- A mirror in descending order of what observer 7 watches, and an unsubscription that is too late. -/
example : ∃ m notes, mirrorRun (fun a b => decide (b < a)) OSet.empty ([13].map .added ++ [.added 23, .removing 13]) = .ok (m, notes) ∧ m.set.forward = [23] ∧
    (∀ x y : Nat, eqv (fun a b => decide (b < a)) x y = true → eqv digits.ltP (digits.pk x) (digits.pk y) = true) ∧
    run digits [] (demo.take 7 ++ [.unwatch 7]) = .ub :=
  ⟨_, _, rfl, rfl, by simp [eqv, digits]; omega, rfl⟩

/-- A source in descending order. -/
example : Replays digits.byPk (fun _ => False) [.added 13, .added 4, .removing 13] (fun x => ((False ∨ x = 13) ∨ x = 4) ∧ x ≠ 13) :=
  c149_source (lt := fun a b => decide (b < a)) (P := fun _ => True) (by simp [eqv, digits]; omega) _
    ⟨by simp [Valid], by simp [Valid, applyEvent, eqv], by simp [Valid, applyEvent], fun _ => Iff.rfl⟩ (fun _ _ => trivial) (fun _ _ => trivial)

end Verif.ForeignSet.Watch
