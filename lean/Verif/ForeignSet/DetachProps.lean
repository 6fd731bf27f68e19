import Verif.ForeignSet.MovesProps

/-!
# C174: a `foreign_set` that is unsubscribed or subscribed by hand, in general
-/

namespace Verif.ForeignSet

open Verif.VectorSet
open Verif.VectorSet.Spec (eqv)
open Verif.ObservableSet
open Verif.ObservableSet.Throw (src_find)

variable {α κ φ : Type}

theorem deliver_clearing {K : Keys α κ φ} (S : List α) : ∀ (l : List Nat) (vs : Nat → Option (View α)), (∀ a ∈ l, vs a ≠ none) →
    ∃ vs', deliver K (l.map (fun a => ⟨a, .clearing, S⟩)) vs = .ok vs' ∧ ∀ a, a ∉ l → vs' a = vs a := by
  intro l
  induction l with
  | nil => intro vs _; exact ⟨vs, rfl, fun _ _ => rfl⟩
  | cons b l ih =>
    intro vs h
    cases hb : vs b with
    | none => exact (h b (by simp) hb).elim
    | some v =>
      obtain ⟨vs', k1, k2⟩ := ih (setView vs b (some ⟨(onClearing v.groups).1, v.bare⟩)) (fun a ha => by
        by_cases hab : a = b
        · subst hab; rw [setView_same]; simp
        · rw [setView_other _ _ hab]; exact h a (by simp [ha]))
      refine ⟨vs', ?_, fun a ha => ?_⟩
      · simp only [List.map_cons, deliver, hb, View.on, foreignOn, Res.ok_bind]
        exact k1
      · simp only [List.mem_cons, not_or] at ha
        rw [k2 a ha.2, setView_other _ _ ha.1]

/-- **C174 is violated** after every program, for every `foreign_set` that is attached to a set.  `UnsubscribeSelf` is accepted and takes it off the set, but it goes on showing all the elements
though it is attached to nothing; the set may be destroyed then, and the `foreign_set` still shows them (pointers to them, in the program). -/
theorem c174_every_unsubscribed_violated {K : Keys α κ φ} (hP : StrictWeak K.ltP) (hF : StrictWeak K.ltF) {lt : α → α → Bool} (hlt : StrictWeak lt)
    (hu : ∀ x y, eqv K.ltP (K.pk x) (K.pk y) = true → eqv lt x y = true) {lossy : Bool}
    {ops : List (FOp α)} (hk : KeptAll K lossy lt FState.init ops) {st : FState α} (hr : FState.init.run K lossy lt ops = .ok st) {k i : Nat} {o : OSet α}
    (hi : st.sets.sets i = some o) (ha : k ∈ o.subs) :
    ∃ st' v, st.step K lossy lt (.detach k) = .ok st' ∧ ¬ Attached st' k ∧ st'.views k = some v ∧ Shows K v.groups o.set.forward ∧
      ∃ st'', st'.step K lossy lt (.source (.destroy i)) = .ok st'' ∧ st''.sets.sets i = none ∧ st''.views k = some v := by
  have h := (GInv.init K lt).run hP hF hlt hu ops hk hr
  obtain ⟨v, hv, hve, _⟩ := h.att i o k hi ha
  have hc := (subscribed_iff h.sets.now k).2 ⟨i, o, hi, ha⟩
  refine ⟨⟨st.sets.leave k, st.views⟩, v, by simp only [FState.step, hv, hc, if_true], ?_, hv, hve.shows hF, ?_⟩
  · rintro ⟨j, q, hj, hq⟩
    obtain ⟨p, _, rfl⟩ := mapSubs_some hj
    exact (mem_leave.1 hq).1 rfl
  · have hg : (st.sets.leave k).sets i = some ⟨o.set, o.subs.filter (· ≠ k)⟩ := mapSubs_get _ hi
    have hd : ∃ vs', deliver K (if !o.set.isEmpty then notify ⟨o.set, o.subs.filter (· ≠ k)⟩ .clearing else []) st.views = .ok vs' ∧ vs' k = st.views k := by
      cases !o.set.isEmpty with
      | false => exact ⟨_, rfl, rfl⟩
      | true =>
        obtain ⟨vs', k1, k2⟩ := deliver_clearing (K := K) o.set.forward (o.subs.filter (· ≠ k)) st.views (fun a ha => by
          obtain ⟨u, hu, _⟩ := h.att i o a hi (mem_leave.1 ha).2
          rw [hu]; simp)
        exact ⟨vs', k1, k2 k (fun h => (mem_leave.1 h).1 rfl)⟩
    obtain ⟨vs', k1, k2⟩ := hd
    refine ⟨⟨⟨(st.sets.leave k).sets.set i none, (st.sets.leave k).names⟩, vs'⟩, ?_, set_same _ _ _, k2.trans hv⟩
    simp only [FState.step, State.step, ObservableSet.step, hg, Res.ok_bind, notesOf_notes, k1, Op.newName, List.nil_append]

/-- **C174 is violated** after every program, for every `foreign_set` that is attached to nothing and every set that has elements.  `Subscribe` of the set is accepted, but the `foreign_set` shows
none of the elements; and if no other observer was subscribed, erasing any of them is undefined (or throws, if the getters of the `foreign_set` were lost when it was moved from). -/
theorem c174_every_late_violated {K : Keys α κ φ} (hP : StrictWeak K.ltP) (hF : StrictWeak K.ltF) {lt : α → α → Bool} (hlt : StrictWeak lt)
    (hu : ∀ x y, eqv K.ltP (K.pk x) (K.pk y) = true → eqv lt x y = true) {lossy : Bool}
    {ops : List (FOp α)} (hk : KeptAll K lossy lt FState.init ops) {st : FState α} (hr : FState.init.run K lossy lt ops = .ok st) {k i : Nat} {o : OSet α} {v : View α}
    (hi : st.sets.sets i = some o) (hne : o.set.forward ≠ []) (hv : st.views k = some v) (hn : ¬ Attached st k) :
    ∃ st', st.step K lossy lt (.join k i) = .ok st' ∧ st'.sets.sets i = some { o with subs := o.subs ++ [k] } ∧ st'.views k = some v ∧ (∀ key, lookup K v.groups key = .ok none) ∧
      ¬ Shows K v.groups o.set.forward ∧
      (o.subs = [] → ∀ x ∈ o.set.forward, st'.step K lossy lt (.source (.on i (.eraseKey x))) = if v.bare then .throw .general else .ub) := by
  have h := (GInv.init K lt).run hP hF hlt hu ops hk hr
  have hg := h.det k v hv (fun i o hi hk => hn ⟨i, o, hi, hk⟩)
  have hl : ∀ key, lookup K v.groups key = .ok none := fun key => by rw [hg]; rfl
  have hsub : st.sets.subscribed k = false := by
    cases hc : st.sets.subscribed k with
    | false => rfl
    | true => exact (hn ((subscribed_iff h.sets.now k).1 hc)).elim
  refine ⟨⟨⟨st.sets.sets.set i (some { o with subs := o.subs ++ [k] }), st.sets.names⟩, st.views⟩, ?_, set_same _ _ _, hv, hl, ?_, ?_⟩
  · simp only [FState.step, hv, hi, step_subscribe hi hsub, Res.ok_bind]
  · intro hs
    cases hf : o.set.forward with
    | nil => exact hne hf
    | cons a S =>
      rcases hs.1 (K.fk a) with ⟨L, h1, _⟩ | ⟨_, h2⟩
      · rw [hl] at h1; cases h1
      · have := h2 a (by rw [hf]; simp)
        rw [eqv_refl hF] at this; cases this
  · intro hs x hx
    rcases src_find (o := (⟨o.set, o.subs ++ [k]⟩ : OSet α)) hlt (h.sets.inv i o hi) x with ⟨h0, _⟩ | ⟨e, h1, _, _, o', notes, h4, _⟩
    · have : o.set.forward.any (fun a => eqv lt a x) = true := List.any_eq_true.2 ⟨x, hx, eqv_refl hlt x⟩
      rw [show (⟨o.set, o.subs ++ [k]⟩ : OSet α).set = o.set from rfl, this] at h0; cases h0
    · have hnotes : notes = notify ⟨o.set, o.subs ++ [k]⟩ (.removing e.val) := by
        simp only [OSet.eraseIter, Res.bind_eq_ok, Res.ok.injEq, Prod.mk.injEq] at h4
        obtain ⟨_, _, _, h4⟩ := h4
        exact h4.symm
      have hset : (st.sets.sets.set i (some (⟨o.set, o.subs ++ [k]⟩ : OSet α))) i = some ⟨o.set, o.subs ++ [k]⟩ := set_same _ _ _
      simp only [FState.step, State.step, ObservableSet.step, hset, OSet.step, OSet.eraseKey, h1, h4, Res.ok_bind, notesOf_notes, hnotes]
      simp only [notify, hs, List.nil_append, List.map_cons, List.map_nil, deliver, hv]
      cases hbare : v.bare with
      | true => simp only [View.on, hbare, Res.throw_bind, if_true]
      | false => simp only [View.on, hbare, foreignOn, hg]; rfl

/-- The `foreign_set` 8 of the tale is attached to the set 2; unsubscribed, it still shows its elements when the set is gone.  The `foreign_set` 7, which was moved from, joins the set 3. -/
example : pictures 3 [6, 7, 8, 9] (FState.init.run digits false (fun a b => decide (a < b)) (tale ++ [.detach 8, .source (.destroy 2), .source (.create 3), .source (.on 3 (.insert 15)), .join 7 3])) =
    (some ([15], [7]), [some [], some [], some [[4, 24], [5]], some []]) := by decide +kernel

end Verif.ForeignSet
