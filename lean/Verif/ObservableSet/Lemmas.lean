import Verif.ObservableSet.Spec
import Verif.VectorSet.Props

namespace Verif.ObservableSet

open Verif.VectorSet
open Verif.VectorSet.Spec (eqv)

variable {α : Type}

/-! ## Replaying -/

theorem Replays.congr {lt : α → α → Bool} {es : List (Event α)} : ∀ {S S' T T' : α → Prop},
    (∀ a, S a ↔ S' a) → (∀ a, T a ↔ T' a) → Replays lt S es T → Replays lt S' es T' := by
  induction es with
  | nil => intro S S' T T' h1 h2 h a; rw [← h1, ← h2]; exact h a
  | cons e es ih =>
    intro S S' T T' h1 h2 h
    have : S = S' := funext fun a => propext (h1 a)
    subst this
    exact ⟨h.1, ih (fun _ => Iff.rfl) h2 h.2⟩

theorem Replays.append {lt : α → α → Bool} {es es' : List (Event α)} : ∀ {S T U : α → Prop},
    Replays lt S es T → Replays lt T es' U → Replays lt S (es ++ es') U := by
  induction es with
  | nil =>
    intro S T U h1 h2
    exact Replays.congr (fun a => (h1 a).symm) (fun _ => Iff.rfl) h2
  | cons e es ih => intro S T U h1 h2; exact ⟨h1.1, ih h1.2 h2⟩

theorem Replays.refl (lt : α → α → Bool) (S : α → Prop) : Replays lt S [] S := fun _ => Iff.rfl

/-! ## Sorted sequences -/

theorem sorted_unique {lt : α → α → Bool} {S : List α} (hs : S.Pairwise (fun a b => lt a b = true)) {a b : α}
    (ha : a ∈ S) (hb : b ∈ S) (h : eqv lt a b = true) : a = b := by
  induction S with
  | nil => simp at ha
  | cons x S ih =>
    rw [List.pairwise_cons] at hs
    simp only [eqv, Bool.and_eq_true, Bool.not_eq_true'] at h
    rcases List.mem_cons.1 ha with rfl | ha' <;> rcases List.mem_cons.1 hb with rfl | hb'
    · rfl
    · have := hs.1 b hb'; rw [h.1] at this; cases this
    · have := hs.1 a ha'; rw [h.2] at this; cases this
    · exact ih hs.2 ha' hb'

theorem eqv_refl {lt : α → α → Bool} (hlt : StrictWeak lt) (a : α) : eqv lt a a = true := by
  simp [eqv, hlt.irrefl]

theorem sorted_nodup {lt : α → α → Bool} (hlt : StrictWeak lt) {S : List α}
    (hs : S.Pairwise (fun a b => lt a b = true)) : S.Nodup :=
  hs.imp (fun {a b} h => by rintro rfl; rw [hlt.irrefl] at h; cases h)

theorem mem_insert {lt : α → α → Bool} {S : List α} {v : α} (h : S.any (fun a => eqv lt a v) = false) (a : α) :
    a ∈ S.filter (fun a => lt a v) ++ v :: S.filter (fun a => lt v a) ↔ a ∈ S ∨ a = v := by
  rw [List.any_eq_false] at h
  simp only [List.mem_append, List.mem_filter, List.mem_cons]
  constructor
  · rintro (⟨h1, _⟩ | rfl | ⟨h1, _⟩)
    · exact Or.inl h1
    · exact Or.inr rfl
    · exact Or.inl h1
  · rintro (h1 | rfl)
    · have := h a h1
      simp only [eqv, Bool.and_eq_true, Bool.not_eq_true', not_and, Bool.not_eq_false] at this
      cases h3 : lt a v with
      | true => exact Or.inl ⟨h1, rfl⟩
      | false => exact Or.inr (Or.inr ⟨h1, this h3⟩)
    · exact Or.inr (Or.inl rfl)

theorem mem_erase_eqv {lt : α → α → Bool} (hlt : StrictWeak lt) {S : List α}
    (hs : S.Pairwise (fun a b => lt a b = true)) {k x : α} (hx : x ∈ S) (hk : eqv lt x k = true) (a : α) :
    a ∈ S.filter (fun a => !eqv lt a k) ↔ a ∈ S ∧ a ≠ x := by
  simp only [List.mem_filter, Bool.not_eq_true']
  constructor
  · rintro ⟨h1, h2⟩
    refine ⟨h1, ?_⟩
    rintro rfl
    rw [hk] at h2; cases h2
  · rintro ⟨h1, h2⟩
    refine ⟨h1, ?_⟩
    cases h3 : eqv lt a k with
    | false => rfl
    | true =>
      exact (h2 (sorted_unique hs h1 hx (StrictWeak.eqv_trans hlt h3 (by rw [eqv_symm]; exact hk)))).elim

theorem mem_eraseIdx {lt : α → α → Bool} (hlt : StrictWeak lt) {S : List α}
    (hs : S.Pairwise (fun a b => lt a b = true)) {i : Nat} {x : α} (hx : S[i]? = some x) (a : α) :
    a ∈ S.eraseIdx i ↔ a ∈ S ∧ a ≠ x := by
  have hn := sorted_nodup hlt hs
  rw [List.mem_eraseIdx_iff_getElem?]
  constructor
  · rintro ⟨j, hj, h1⟩
    refine ⟨List.mem_of_getElem? h1, ?_⟩
    rintro rfl
    obtain ⟨hlt1, _⟩ := List.getElem?_eq_some_iff.1 h1
    exact hj ((List.getElem?_inj hlt1 hn).1 (h1.trans hx.symm))
  · rintro ⟨h1, h2⟩
    obtain ⟨j, hj, e⟩ := List.getElem_of_mem h1
    refine ⟨j, ?_, List.getElem?_eq_some_iff.2 ⟨hj, e⟩⟩
    rintro rfl
    rw [List.getElem?_eq_some_iff] at hx
    obtain ⟨_, e2⟩ := hx
    exact h2 (e.symm.trans e2)

/-- The events that have to be sent lead from the old contents to the new ones. -/
theorem expected_replays {lt : α → α → Bool} (hlt : StrictWeak lt) {S S' : List α}
    (hs : S.Pairwise (fun a b => lt a b = true)) {op : Spec.Op α} {out : Spec.Out α}
    (h : Spec.step lt S op = .ok (S', out)) :
    Replays lt (· ∈ S) ((expected lt S S' op).map Prod.fst) (· ∈ S') := by
  cases op with
  | insert v =>
    simp only [Spec.step] at h
    simp only [expected]
    cases hf : S.find? (fun a => eqv lt a v) with
    | some a =>
      simp only [hf, Res.ok.injEq, Prod.mk.injEq] at h
      obtain ⟨rfl, _⟩ := h
      have : S.any (fun a => eqv lt a v) = true := by
        rw [List.any_eq_true]
        exact ⟨a, List.mem_of_find?_eq_some hf, List.find?_some (p := fun a => eqv lt a v) hf⟩
      rw [if_pos this]
      exact Replays.refl _ _
    | none =>
      simp only [hf, Res.ok.injEq, Prod.mk.injEq] at h
      obtain ⟨rfl, _⟩ := h
      have : S.any (fun a => eqv lt a v) = false := by
        rw [List.any_eq_false]
        rw [List.find?_eq_none] at hf
        exact hf
      rw [if_neg (by simp [this])]
      refine ⟨?_, ?_⟩
      · intro a ha
        rw [List.any_eq_false] at this
        simpa using this a ha
      · intro a
        exact (mem_insert this a).symm
  | eraseKey k =>
    simp only [Spec.step, Res.ok.injEq, Prod.mk.injEq] at h
    obtain ⟨rfl, _⟩ := h
    simp only [expected]
    cases hf : S.find? (fun a => eqv lt a k) with
    | some x =>
      have hx := List.mem_of_find?_eq_some hf
      have hk := List.find?_some (p := fun a => eqv lt a k) hf
      exact ⟨hx, fun a => (mem_erase_eqv hlt hs hx hk a).symm⟩
    | none =>
      rw [List.find?_eq_none] at hf
      intro a
      simp only [List.mem_filter, Bool.not_eq_true']
      exact ⟨fun h => ⟨h, by simpa using hf a h⟩, fun h => h.1⟩
  | eraseAt i =>
    simp only [Spec.step] at h
    split at h
    · rename_i hi
      simp only [Res.ok.injEq, Prod.mk.injEq] at h
      obtain ⟨rfl, _⟩ := h
      have hx : S[i]? = some S[i] := List.getElem?_eq_getElem hi
      simp only [expected, hx]
      exact ⟨List.getElem_mem hi, fun a => (mem_eraseIdx hlt hs hx a).symm⟩
    · cases h
  | clear =>
    simp only [Spec.step, Res.ok.injEq, Prod.mk.injEq] at h
    obtain ⟨rfl, _⟩ := h
    simp only [expected]
    cases S with
    | nil => exact Replays.refl _ _
    | cons a S => exact ⟨trivial, fun a => by simp [applyEvent]⟩
  | _ =>
    simp only [Spec.step, Res.ok.injEq, Prod.mk.injEq] at h
    obtain ⟨rfl, _⟩ := h
    exact Replays.refl _ _

/-! ## Operations on one set -/

/-- The calls made for a list of events with what is seen. -/
def deliver (subs : List Nat) (es : List (Event α × List α)) : List (Note α) :=
  (es.map (fun e => subs.map (fun a => (⟨a, e.1, e.2⟩ : Note α)))).flatten

theorem notify_eq (o : OSet α) (e : Event α) : notify o e = deliver o.subs [(e, o.set.forward)] := by
  simp [notify, deliver]

theorem isEmpty_iff {lt : α → α → Bool} {s : VSet α} (hi : Inv lt s) : s.isEmpty = s.forward.isEmpty := by
  have h := hi.list
  simp only [VSet.isEmpty, VSet.forward, h]
  cases s.root with
  | nil => rfl
  | node => simp [toL]

theorem eraseIter_ok {lt : α → α → Bool} {o : OSet α} (hi : Inv lt o.set) {e : Elem α} {X Y : List (Elem α)}
    (h : toL o.set.root = X ++ e :: Y) :
    ∃ s, o.eraseIter e = .ok ({ o with set := s }, deliver o.subs [(.removing e.val, o.set.forward)]) ∧ Inv lt s ∧
      s.forward = X.map Elem.val ++ Y.map Elem.val := by
  obtain ⟨s', h1, h2, h3, _⟩ := eraseNode_ok hi h
  refine ⟨s', ?_, h3, ?_⟩
  · simp only [OSet.eraseIter, h1, Res.ok_bind, notify_eq]
  · simp [h3.forward, vals, h2]

theorem oset_step {lt : α → α → Bool} (hlt : StrictWeak lt) {o : OSet α} (hi : Inv lt o.set) (op : Spec.Op α)
    {S' : List α} {out : Spec.Out α} (h : Spec.step lt o.set.forward op = .ok (S', out)) :
    ∃ s, o.step lt op = .ok ({ o with set := s }, out, deliver o.subs (expected lt o.set.forward S' op)) ∧ Inv lt s ∧
      s.forward = S' := by
  have hfw := hi.forward
  have hgen : ∃ s', o.set.step lt op = .ok (s', out) ∧ Inv lt s' ∧ s'.forward = S' := by
    rw [hfw] at h
    obtain ⟨s', k1, k2, k3⟩ := step_refines hlt hi op h
    exact ⟨s', k1, k2, by rw [k2.forward, k3]⟩
  cases op with
  | insert v =>
    obtain ⟨s', k1, k2, k3⟩ := hgen
    simp only [VSet.step, Res.bind_eq_ok, Prod.exists] at k1
    obtain ⟨s1, e, isNew, k4, k5⟩ := k1
    simp only [Res.ok.injEq, Prod.mk.injEq] at k5
    obtain ⟨rfl, rfl⟩ := k5
    refine ⟨s1, ?_, k2, k3⟩
    simp only [OSet.step, OSet.insert, k4, Res.ok_bind, Res.ok.injEq, Prod.mk.injEq, true_and]
    simp only [Spec.step] at h
    cases hf : o.set.forward.find? (fun a => eqv lt a v) with
    | some a =>
      simp only [hf, Res.ok.injEq, Prod.mk.injEq, Spec.Out.inserted.injEq] at h
      obtain ⟨_, h2, rfl⟩ := h
      have : o.set.forward.any (fun a => eqv lt a v) = true := by
        rw [List.any_eq_true]
        exact ⟨a, List.mem_of_find?_eq_some hf, List.find?_some (p := fun a => eqv lt a v) hf⟩
      simp [expected, this, deliver]
    | none =>
      simp only [hf, Res.ok.injEq, Prod.mk.injEq, Spec.Out.inserted.injEq] at h
      obtain ⟨_, h2, rfl⟩ := h
      have : o.set.forward.any (fun a => eqv lt a v) = false := by
        rw [List.any_eq_false]
        rw [List.find?_eq_none] at hf
        exact hf
      rw [if_pos rfl, notify_eq, ← h2, k3, expected, if_neg (by simp [this])]
  | eraseKey k =>
    have hs := hi.vals_sorted
    simp only [Spec.step, Res.ok.injEq, Prod.mk.injEq] at h
    obtain ⟨rfl, rfl⟩ := h
    rcases findNode_root (s := o.set) (keyOK_of_sorted hlt hi.sorted k) with
      ⟨c, n, l, e, r, gs, p, X, Y, q1, q2, q3, q4⟩ | ⟨p, q1, q2⟩
    · obtain ⟨s, k1, k2, k3⟩ := eraseIter_ok hi q2
      have hv := vals_split q2
      rw [hv] at hs
      obtain ⟨hX, hY⟩ := sorted_hit hlt hs q3 q4
      refine ⟨s, ?_, k2, ?_⟩
      · simp only [OSet.step, OSet.eraseKey, VSet.find, q1, Res.ok_bind, k1, expected]
        have hf : o.set.forward.find? (fun a => eqv lt a k) = some e.val := by
          rw [hfw, hv]; exact hit_find hX q3 q4
        have ha : o.set.forward.any (fun a => eqv lt a k) = true := by
          rw [hfw, hv]; exact hit_any q3 q4
        rw [hf, ha]; rfl
      · rw [k3, hfw, hv]; exact (hit_filter hX hY q3 q4).symm
    · have hm := vals_all (lt := lt) (k := k) (s := o.set) q2
      refine ⟨o.set, ?_, hi, ?_⟩
      · simp only [OSet.step, OSet.eraseKey, VSet.find, q1, Res.ok_bind, expected]
        rw [hfw, miss_find hm, miss_any hm]; rfl
      · rw [hfw, miss_filter hm]
  | eraseAt i =>
    simp only [Spec.step] at h
    split at h
    · rename_i hlen
      simp only [Res.ok.injEq, Prod.mk.injEq] at h
      obtain ⟨rfl, rfl⟩ := h
      have hlen' : i < o.set.list.length := by simpa [VSet.forward] using hlen
      have hg : o.set.list[i]? = some o.set.list[i] := List.getElem?_eq_getElem hlen'
      have hsplit : toL o.set.root = o.set.list.take i ++ o.set.list[i] :: o.set.list.drop (i + 1) := by
        rw [← hi.list]
        rw [← List.drop_eq_getElem_cons hlen', List.take_append_drop]
      obtain ⟨s, k1, k2, k3⟩ := eraseIter_ok hi hsplit
      refine ⟨s, ?_, k2, ?_⟩
      · simp only [OSet.step, hg, k1, Res.ok_bind, expected]
        have : o.set.forward[i]? = some o.set.list[i].val := by simp [VSet.forward, hg]
        rw [this]
      · rw [k3, List.eraseIdx_eq_take_drop_succ]
        simp [VSet.forward, List.map_take, List.map_drop]
    · cases h
  | clear =>
    simp only [Spec.step, Res.ok.injEq, Prod.mk.injEq] at h
    obtain ⟨rfl, rfl⟩ := h
    simp only [OSet.step, OSet.clear, isEmpty_iff hi]
    cases hc : o.set.forward with
    | nil => exact ⟨o.set, by simp [expected, deliver], hi, hc⟩
    | cons a S =>
      refine ⟨o.set.clear, ?_, (clear_ok o.set).1, rfl⟩
      simp [expected, notify_eq, hc]
  | _ =>
    obtain ⟨s', k1, k2, k3⟩ := hgen
    refine ⟨s', ?_, k2, k3⟩
    simp only [OSet.step, k1, Res.ok_bind, expected, deliver, List.map_nil, List.flatten_nil]

theorem oset_step_ub {lt : α → α → Bool} {o : OSet α} {op : Spec.Op α} (h : Spec.step lt o.set.forward op = .ub) :
    o.step lt op = .ub := by
  cases op with
  | eraseAt i =>
    simp only [Spec.step] at h
    split at h
    · cases h
    · rename_i hlen
      have : o.set.list[i]? = none := List.getElem?_eq_none (by simpa [VSet.forward] using hlen)
      simp only [OSet.step, this]
  | insert v => simp only [Spec.step] at h; split at h <;> cases h
  | _ => simp only [Spec.step] at h; cases h

/-- A successful operation comes from a successful operation of the specification. -/
theorem oset_step_inv {lt : α → α → Bool} (hlt : StrictWeak lt) {o o' : OSet α} (hi : Inv lt o.set) {op : Spec.Op α}
    {out : Spec.Out α} {notes : List (Note α)} (h : o.step lt op = .ok (o', out, notes)) :
    Spec.step lt o.set.forward op = .ok (o'.set.forward, out) ∧ Inv lt o'.set ∧ o'.subs = o.subs ∧
      notes = deliver o.subs (expected lt o.set.forward o'.set.forward op) := by
  cases hs : Spec.step lt o.set.forward op with
  | ok r =>
    obtain ⟨S', out'⟩ := r
    obtain ⟨s, k1, k2, k3⟩ := oset_step hlt hi op hs
    rw [h] at k1
    simp only [Res.ok.injEq, Prod.mk.injEq] at k1
    obtain ⟨rfl, rfl, rfl⟩ := k1
    subst k3
    exact ⟨rfl, k2, rfl, rfl⟩
  | throw e => exact (spec_step_not_throw op e hs).elim
  | ub => rw [oset_step_ub hs] at h; cases h

/-! ## Who receives what -/

theorem eventsOf_append (a : Nat) (n n' : List (Note α)) : eventsOf a (n ++ n') = eventsOf a n ++ eventsOf a n' := by
  simp [eventsOf, List.filterMap_append]

theorem eventsOf_subs (a : Nat) (e : Event α) (S : List α) (subs : List Nat) (hn : subs.Nodup) :
    eventsOf a (subs.map (fun b => (⟨b, e, S⟩ : Note α))) = if a ∈ subs then [e] else [] := by
  induction subs with
  | nil => rfl
  | cons b subs ih =>
    rw [List.nodup_cons] at hn
    have ih := ih hn.2
    simp only [eventsOf, List.map_cons, List.filterMap_cons] at ih ⊢
    by_cases h : b = a
    · subst h
      simp only [if_true, ih, if_neg hn.1, List.mem_cons, true_or]
    · have h' : a ≠ b := fun h1 => h h1.symm
      simp only [if_neg h, ih, List.mem_cons, h', false_or]

theorem eventsOf_deliver (a : Nat) (subs : List Nat) (hn : subs.Nodup) (es : List (Event α × List α)) :
    eventsOf a (deliver subs es) = if a ∈ subs then es.map Prod.fst else [] := by
  induction es with
  | nil => simp [deliver, eventsOf]
  | cons e es ih =>
    simp only [deliver, List.map_cons, List.flatten_cons, eventsOf_append] at ih ⊢
    rw [ih, eventsOf_subs a e.1 e.2 subs hn]
    by_cases h : a ∈ subs <;> simp [h]

theorem knows_notes (a : Nat) (notes : List (Note α)) (k : Option (List α × List (Event α))) :
    (notes.map Item.note).foldl (knows1 a) k = k.map (fun p => (p.1, p.2 ++ eventsOf a notes)) := by
  induction notes generalizing k with
  | nil => cases k <;> simp [eventsOf]
  | cons n notes ih =>
    simp only [List.map_cons, List.foldl_cons, ih, knows1, eventsOf, List.filterMap_cons]
    by_cases h : n.observer = a
    · simp only [if_pos h]
      cases k <;> simp
    · simp only [if_neg h]

theorem knows_append_notes (a : Nat) (items : List (Item α)) (notes : List (Note α)) :
    knows a (items ++ notes.map Item.note) = (knows a items).map (fun p => (p.1, p.2 ++ eventsOf a notes)) := by
  simp only [knows, List.foldl_append, knows_notes]

/-- What observer `a` knows leads to the contents `T`. -/
def Follows (lt : α → α → Bool) (a : Nat) (items : List (Item α)) (T : List α) : Prop :=
  ∃ S es, knows a items = some (S, es) ∧ Replays lt (· ∈ S) es (· ∈ T) ∧ S.Pairwise (fun a b => lt a b = true)

theorem Follows.notes {lt : α → α → Bool} {a : Nat} {items : List (Item α)} {T T' : List α} {notes : List (Note α)}
    (h : Follows lt a items T) (hr : Replays lt (· ∈ T) (eventsOf a notes) (· ∈ T')) :
    Follows lt a (items ++ notes.map Item.note) T' := by
  obtain ⟨S, es, h1, h2, h3⟩ := h
  exact ⟨S, es ++ eventsOf a notes, by rw [knows_append_notes, h1]; rfl, h2.append hr, h3⟩

end Verif.ObservableSet
