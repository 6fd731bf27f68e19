import Verif.ObservableSet.MirrorsModel
import Verif.ObservableSet.Mirror
import Verif.ObservableSet.Props
import Verif.ObservableSet.ThrowLemmas

/-!
# C172: programs with several sets and mirrors
-/

namespace Verif.ObservableSet

open Verif.VectorSet
open Verif.VectorSet.Spec (eqv)
open Throw (sorted_of empty_inv)

variable {α : Type}

/-! ### What a set tells its subscribers in one operation -/

/-- The sets of a program, whatever happened before. -/
structure BInv (lt : α → α → Bool) (st : State α) : Prop where
  inv : ∀ i o, st.sets i = some o → Inv lt o.set
  nodup : ∀ i o, st.sets i = some o → o.subs.Nodup
  disj : ∀ i j o p a, st.sets i = some o → st.sets j = some p → a ∈ o.subs → a ∈ p.subs → i = j
  names : ∀ i o, st.sets i = some o → i ∈ st.names

/-- As if everyone had just been subscribed. -/
def nowItems (st : State α) : List Nat → List (Item α)
  | [] => []
  | i :: is => (match st.sets i with
    | none => []
    | some o => o.subs.map (fun a => Item.started a o.set.forward)) ++ nowItems st is

theorem knows_now {lt : α → α → Bool} {st : State α} (h : BInv lt st) {i : Nat} {o : OSet α} {a : Nat} (hi : st.sets i = some o) (ha : a ∈ o.subs) :
    ∀ (is : List Nat) (k : Option (List α × List (Event α))), (k = some (o.set.forward, []) ∨ i ∈ is) → (nowItems st is).foldl (knows1 a) k = some (o.set.forward, []) := by
  intro is
  induction is with
  | nil =>
    rintro k (h1 | h1)
    · exact h1
    · cases h1
  | cons j js ih =>
    intro k hk
    simp only [nowItems, List.foldl_append]
    apply ih
    cases hj : st.sets j with
    | none =>
      rcases hk with hk | hk
      · exact Or.inl (by simpa using hk)
      · rcases List.mem_cons.1 hk with rfl | hk
        · rw [hi] at hj; cases hj
        · exact Or.inr hk
    | some p =>
      have stay : ∀ (l : List Nat), a ∉ l → ∀ k, (l.map (fun b => Item.started b p.set.forward)).foldl (knows1 a) k = k := by
        intro l
        induction l with
        | nil => intro _ k; rfl
        | cons b l ihl =>
          intro hb k
          simp only [List.mem_cons, not_or] at hb
          simp only [List.map_cons, List.foldl_cons, knows1]
          rw [if_neg (fun h => hb.1 h.symm)]
          exact ihl hb.2 k
      by_cases hm : a ∈ p.subs
      · have hij := h.disj i j o p a hi hj ha hm
        subst hij
        rw [hi] at hj; cases hj
        left
        obtain ⟨l1, l2, hl⟩ := List.append_of_mem hm
        have hn := h.nodup i o hi
        rw [hl, List.nodup_append, List.nodup_cons] at hn
        show (o.subs.map (fun b => Item.started b o.set.forward)).foldl (knows1 a) k = _
        rw [hl, List.map_append, List.foldl_append, List.map_cons, List.foldl_cons]
        simp only [knows1, if_true]
        rw [stay l2 hn.2.1.1]
      · simp only [stay p.subs hm]
        rcases hk with hk | hk
        · exact Or.inl hk
        · rcases List.mem_cons.1 hk with rfl | hk
          · rw [hi] at hj; cases hj; exact (hm ha).elim
          · exact Or.inr hk

theorem BInv.now {lt : α → α → Bool} {st : State α} (h : BInv lt st) : WInv lt st (nowItems st st.names) :=
  ⟨h.inv, h.nodup, h.disj, h.names, fun i o a hi ha =>
    ⟨o.set.forward, [], knows_now h hi ha st.names none (Or.inr (h.names i o hi)), Replays.refl _ _, by rw [(h.inv i o hi).forward]; exact (h.inv i o hi).vals_sorted⟩⟩

/-- Not subscribing and unsubscribing. -/
def Plain : Op α → Prop
  | .subscribe _ _ => False
  | .unsubscribe _ _ => False
  | _ => True

theorem notesOf_notes (ns : List (Note α)) : notesOf (ns.map Item.note) = ns := by
  induction ns with
  | nil => rfl
  | cons n ns ih => simp only [notesOf, List.map_cons, List.filterMap_cons] at ih ⊢; rw [ih]

theorem eventsOf_clearing {o : OSet α} (hn : o.subs.Nodup) (a : Nat) :
    eventsOf a (if !o.set.isEmpty then notify o .clearing else []) = if (!o.set.isEmpty) = true ∧ a ∈ o.subs then [.clearing] else [] :=
  eventsOf_if o hn _ _ a

theorem lost_replays {lt : α → α → Bool} {o : OSet α} (hi : Inv lt o.set) (hn : o.subs.Nodup) {a : Nat} (ha : a ∈ o.subs) :
    Replays lt (· ∈ o.set.forward) (eventsOf a (if !o.set.isEmpty then notify o .clearing else [])) (fun _ => False) := by
  rw [eventsOf_clearing hn]
  have := replays_clear hi (!o.set.isEmpty) (by cases o.set.isEmpty <;> simp)
  refine Replays.congr (fun _ => Iff.rfl) (fun x => by simp) (T := (· ∈ ([] : List α))) ?_
  simpa [ha] using this

/-- What is told of an operation: those who stay subscribed, to whichever set, arrive at its contents; those who do not, at nothing; nobody else is told anything. -/
theorem told {lt : α → α → Bool} (hlt : StrictWeak lt) {st st' : State α} (h : BInv lt st) {op : Op α} (hp : Plain op) {out : Spec.Out α} {items : List (Item α)}
    (hs : st.step lt op = .ok (st', out, items)) :
    BInv lt st' ∧ ∃ notes, items = notes.map Item.note ∧
      (∀ i o a, st'.sets i = some o → a ∈ o.subs → ∃ j p, st.sets j = some p ∧ a ∈ p.subs ∧ Replays lt (· ∈ p.set.forward) (eventsOf a notes) (· ∈ o.set.forward)) ∧
      (∀ j p a, st.sets j = some p → a ∈ p.subs → (∀ i o, st'.sets i = some o → a ∉ o.subs) → Replays lt (· ∈ p.set.forward) (eventsOf a notes) (fun _ => False)) ∧
      (∀ a, (∀ j p, st.sets j = some p → a ∉ p.subs) → eventsOf a notes = []) := by
  have hw := h.now.step hlt hs
  refine ⟨⟨hw.inv, hw.nodup, hw.disj, hw.names⟩, ?_⟩
  -- the rest: by cases
  have main : ∃ notes, items = notes.map Item.note ∧
      (∀ i o a, st'.sets i = some o → a ∈ o.subs → ∃ j p, st.sets j = some p ∧ a ∈ p.subs) ∧
      (∀ j p a, st.sets j = some p → a ∈ p.subs → (∀ i o, st'.sets i = some o → a ∉ o.subs) → Replays lt (· ∈ p.set.forward) (eventsOf a notes) (fun _ => False)) ∧
      (∀ a, (∀ j p, st.sets j = some p → a ∉ p.subs) → eventsOf a notes = []) := by
    clear hw
    simp only [State.step, Res.bind_eq_ok, Prod.exists] at hs
    obtain ⟨w, out', its, hs, he⟩ := hs
    simp only [Res.ok.injEq, Prod.mk.injEq] at he
    obtain ⟨rfl, rfl, rfl⟩ := he
    -- a set `i` becomes `o'`
    have one : ∀ {i : Nat} {o' : OSet α} {notes : List (Note α)}, (∀ a ∈ o'.subs, ∃ j p, st.sets j = some p ∧ a ∈ p.subs) →
        (∀ p a, st.sets i = some p → a ∈ p.subs → a ∈ o'.subs ∨ Replays lt (· ∈ p.set.forward) (eventsOf a notes) (fun _ => False)) →
        (∀ a, (∀ j p, st.sets j = some p → a ∉ p.subs) → eventsOf a notes = []) →
        ∃ ns : List (Note α), notes.map Item.note = ns.map Item.note ∧
          (∀ k o a, (st.sets.set i (some o')) k = some o → a ∈ o.subs → ∃ j p, st.sets j = some p ∧ a ∈ p.subs) ∧
          (∀ j p a, st.sets j = some p → a ∈ p.subs → (∀ k o, (st.sets.set i (some o')) k = some o → a ∉ o.subs) → Replays lt (· ∈ p.set.forward) (eventsOf a ns) (fun _ => False)) ∧
          (∀ a, (∀ j p, st.sets j = some p → a ∉ p.subs) → eventsOf a ns = []) := by
      intro i o' notes h1 h2 h3
      refine ⟨notes, rfl, ?_, ?_, h3⟩
      · intro k o a hk ha
        by_cases hki : k = i
        · subst hki; rw [set_same] at hk; cases hk; exact h1 a ha
        · rw [set_other _ _ hki] at hk; exact ⟨k, o, hk, ha⟩
      · intro j p a hj ha hno
        by_cases hji : j = i
        · subst hji
          rcases h2 p a hj ha with h4 | h4
          · exact (hno j o' (set_same _ _ _) h4).elim
          · exact h4
        · exact (hno j p (by rw [set_other _ _ hji]; exact hj) ha).elim
    -- two sets
    have two : ∀ {i j : Nat} {o' p' : OSet α} {notes : List (Note α)}, i ≠ j → (∀ a, a ∈ o'.subs ∨ a ∈ p'.subs → ∃ j p, st.sets j = some p ∧ a ∈ p.subs) →
        (∀ p a, st.sets i = some p ∨ st.sets j = some p → a ∈ p.subs → a ∈ o'.subs ∨ a ∈ p'.subs ∨ Replays lt (· ∈ p.set.forward) (eventsOf a notes) (fun _ => False)) →
        (∀ a, (∀ j p, st.sets j = some p → a ∉ p.subs) → eventsOf a notes = []) →
        ∃ ns : List (Note α), notes.map Item.note = ns.map Item.note ∧
          (∀ k o a, ((st.sets.set i (some o')).set j (some p')) k = some o → a ∈ o.subs → ∃ j p, st.sets j = some p ∧ a ∈ p.subs) ∧
          (∀ k p a, st.sets k = some p → a ∈ p.subs → (∀ k o, ((st.sets.set i (some o')).set j (some p')) k = some o → a ∉ o.subs) →
            Replays lt (· ∈ p.set.forward) (eventsOf a ns) (fun _ => False)) ∧
          (∀ a, (∀ j p, st.sets j = some p → a ∉ p.subs) → eventsOf a ns = []) := by
      intro i j o' p' notes hij h1 h2 h3
      have gi : ((st.sets.set i (some o')).set j (some p')) i = some o' := by rw [set_other _ _ hij, set_same]
      have gj : ((st.sets.set i (some o')).set j (some p')) j = some p' := set_same _ _ _
      have gk : ∀ k, k ≠ i → k ≠ j → ((st.sets.set i (some o')).set j (some p')) k = st.sets k := by
        intro k k1 k2; rw [set_other _ _ k2, set_other _ _ k1]
      refine ⟨notes, rfl, ?_, ?_, h3⟩
      · intro k o a hk ha
        by_cases hkj : k = j
        · subst hkj; rw [gj] at hk; cases hk; exact h1 a (Or.inr ha)
        · by_cases hki : k = i
          · subst hki; rw [gi] at hk; cases hk; exact h1 a (Or.inl ha)
          · rw [gk k hki hkj] at hk; exact ⟨k, o, hk, ha⟩
      · intro k p a hk ha hno
        by_cases hkk : k = i ∨ k = j
        · have : st.sets i = some p ∨ st.sets j = some p := by
            rcases hkk with rfl | rfl
            · exact Or.inl hk
            · exact Or.inr hk
          rcases h2 p a this ha with h4 | h4 | h4
          · exact (hno i o' gi h4).elim
          · exact (hno j p' gj h4).elim
          · exact h4
        · simp only [not_or] at hkk
          exact (hno k p (by rw [gk k hkk.1 hkk.2]; exact hk) ha).elim
    cases op with
    | create i =>
      simp only [ObservableSet.step] at hs
      split at hs
      · cases hs
      · rename_i hn
        simp only [Res.ok.injEq, Prod.mk.injEq] at hs
        obtain ⟨rfl, _, rfl⟩ := hs
        exact one (notes := []) (by simp [OSet.empty]) (by intro p a hp; rw [hp] at hn; simp at hn) (fun _ _ => rfl)
    | createFrom i vs =>
      simp only [ObservableSet.step] at hs
      split at hs
      · cases hs
      · rename_i hn
        simp only [Res.bind_eq_ok] at hs
        obtain ⟨s, hs1, hs⟩ := hs
        simp only [Res.ok.injEq, Prod.mk.injEq] at hs
        obtain ⟨rfl, _, rfl⟩ := hs
        exact one (notes := []) (by simp) (by intro p a hp; rw [hp] at hn; simp at hn) (fun _ _ => rfl)
    | on i op =>
      simp only [ObservableSet.step] at hs
      cases ho : st.sets i with
      | none => simp only [ho] at hs; cases hs
      | some o =>
        simp only [ho, Res.bind_eq_ok, Prod.exists] at hs
        obtain ⟨o', out1, notes, k1, hs⟩ := hs
        simp only [Res.ok.injEq, Prod.mk.injEq] at hs
        obtain ⟨rfl, _, rfl⟩ := hs
        obtain ⟨q1, q2, q3, q4⟩ := oset_step_inv hlt (h.inv i o ho) k1
        refine one (fun a ha => ⟨i, o, ho, q3 ▸ ha⟩) (fun p a hp ha => Or.inl ?_) (fun a ha => ?_)
        · rw [ho] at hp; cases hp; rw [q3]; exact ha
        · rw [q4, eventsOf_deliver a o.subs (h.nodup i o ho), if_neg (ha i o ho)]
    | subscribe i a => exact hp.elim
    | unsubscribe i a => exact hp.elim
    | moveConstruct i j =>
      simp only [ObservableSet.step] at hs
      cases hi : st.sets i with
      | some o => simp only [hi] at hs; cases hs
      | none =>
        cases hj : st.sets j with
        | none => simp only [hi, hj] at hs; cases hs
        | some p =>
          simp only [hi, hj] at hs
          simp only [Res.ok.injEq, Prod.mk.injEq] at hs
          obtain ⟨rfl, _, rfl⟩ := hs
          refine two (notes := []) (by rintro rfl; rw [hi] at hj; cases hj) ?_ ?_ (fun _ _ => rfl)
          · rintro a (ha | ha)
            · exact ⟨j, p, hj, ha⟩
            · cases ha
          · rintro q a (hq | hq) ha
            · rw [hi] at hq; cases hq
            · rw [hj] at hq; cases hq; exact Or.inl ha
    | moveAssign i j =>
      simp only [ObservableSet.step] at hs
      cases hi : st.sets i with
      | none => simp only [hi] at hs; cases hs
      | some o =>
        cases hj : st.sets j with
        | none => simp only [hi, hj] at hs; cases hs
        | some p =>
          simp only [hi, hj] at hs
          have hno := h.nodup i o hi
          have quiet : ∀ a, (∀ j p, st.sets j = some p → a ∉ p.subs) → eventsOf a (if !o.set.isEmpty then notify o .clearing else []) = [] := by
            intro a ha
            rw [eventsOf_clearing hno, if_neg (fun h => ha i o hi h.2)]
          split at hs
          · rename_i hij
            subst hij
            simp only [Res.ok.injEq, Prod.mk.injEq, selfMoveAssign] at hs
            obtain ⟨rfl, _, rfl⟩ := hs
            refine one (by simp) (fun q a hq ha => Or.inr ?_) quiet
            rw [hi] at hq; cases hq
            exact lost_replays (h.inv i o hi) hno ha
          · rename_i hij
            simp only [Res.ok.injEq, Prod.mk.injEq, moveAssign] at hs
            obtain ⟨rfl, _, rfl⟩ := hs
            refine two hij ?_ ?_ quiet
            · rintro a (ha | ha)
              · exact ⟨j, p, hj, ha⟩
              · cases ha
            · rintro q a (hq | hq) ha
              · rw [hi] at hq; cases hq
                exact Or.inr (Or.inr (lost_replays (h.inv i o hi) hno ha))
              · rw [hj] at hq; cases hq; exact Or.inl ha
    | migrate i j =>
      simp only [ObservableSet.step] at hs
      cases hi : st.sets i with
      | none => simp only [hi] at hs; cases hs
      | some o =>
        cases hj : st.sets j with
        | none => simp only [hi, hj] at hs; cases hs
        | some p =>
          simp only [hi, hj] at hs
          have hno := h.nodup i o hi
          have hnp := h.nodup j p hj
          have hc1 : o.clear.1.subs = o.subs := by simp only [OSet.clear]; split <;> rfl
          have hc2 : ∀ a, a ∉ o.subs → eventsOf a o.clear.2 = [] := by
            intro a ha
            have : o.clear.2 = if !o.set.isEmpty then notify o .clearing else [] := by
              simp only [OSet.clear]; split <;> rfl
            rw [this, eventsOf_clearing hno, if_neg (fun h => ha h.2)]
          split at hs
          · rename_i hij
            subst hij
            rw [hi] at hj; cases hj
            simp only [Res.ok.injEq, Prod.mk.injEq, selfMigrate] at hs
            obtain ⟨rfl, _, rfl⟩ := hs
            refine one (fun a ha => ⟨i, o, hi, hc1 ▸ ha⟩) (fun q a hq ha => Or.inl ?_) ?_
            · rw [hi] at hq; cases hq; show a ∈ o.clear.1.subs; rw [hc1]; exact ha
            · intro a ha
              have ha' := ha i o hi
              rw [eventsOf_append, eventsOf_append, eventsOf_notify _ (by rw [hc1]; exact hno), hc1, if_neg ha', hc2 a ha']
              simp [VSet.forward, VSet.clear, VSet.selfMoveAssign, eventsOf]
          · rename_i hij
            simp only [Res.ok.injEq, Prod.mk.injEq, migrate] at hs
            obtain ⟨rfl, _, rfl⟩ := hs
            refine two hij ?_ ?_ ?_
            · rintro a (ha | ha)
              · exact ⟨i, o, hi, hc1 ▸ ha⟩
              · exact ⟨j, p, hj, ha⟩
            · rintro q a (hq | hq) ha
              · rw [hi] at hq; cases hq; left; show a ∈ o.clear.1.subs; rw [hc1]; exact ha
              · rw [hj] at hq; cases hq; exact Or.inr (Or.inl ha)
            · intro a ha
              have h1 := ha i o hi
              have h2 := ha j p hj
              rw [eventsOf_append, eventsOf_append, hc2 a h1, eventsOf_notify p hnp, if_neg h2, eventsOf_notifyAll _ (by rw [hc1]; exact hno)]
              simp only [hc1, if_neg h1, List.nil_append]
    | destroy i =>
      simp only [ObservableSet.step] at hs
      cases ho : st.sets i with
      | none => simp only [ho] at hs; cases hs
      | some o =>
        simp only [ho] at hs
        simp only [Res.ok.injEq, Prod.mk.injEq] at hs
        obtain ⟨rfl, _, rfl⟩ := hs
        have hno := h.nodup i o ho
        refine ⟨_, rfl, ?_, ?_, ?_⟩
        · intro k q a hk ha
          change (st.sets.set i none) k = some q at hk
          by_cases hki : k = i
          · subst hki; rw [set_same] at hk; cases hk
          · rw [set_other _ _ hki] at hk; exact ⟨k, q, hk, ha⟩
        · intro k q a hk ha hn
          change ∀ k o, (st.sets.set i none) k = some o → _ at hn
          by_cases hki : k = i
          · subst hki
            rw [ho] at hk; cases hk
            exact lost_replays (h.inv _ _ ho) hno ha
          · exact (hn k q (by rw [set_other _ _ hki]; exact hk) ha).elim
        · intro a ha
          rw [eventsOf_clearing hno, if_neg (fun h => ha i o ho h.2)]
  obtain ⟨notes, rfl, m1, m2, m3⟩ := main
  refine ⟨notes, rfl, ?_, m2, m3⟩
  intro i o a hi ha
  obtain ⟨j, p, hj, hp'⟩ := m1 i o a hi ha
  refine ⟨j, p, hj, hp', ?_⟩
  obtain ⟨S, es, h1, h2, -⟩ := hw.follows i o a hi ha
  rw [knows_append_notes] at h1
  have h3 : knows a (nowItems st st.names) = some (p.set.forward, []) := knows_now h hj hp' st.names none (Or.inr (h.names j p hj))
  rw [h3] at h1
  simp only [Option.map_some, List.nil_append, Option.some.injEq, Prod.mk.injEq] at h1
  obtain ⟨rfl, rfl⟩ := h1
  exact h2

/-! ### What the mirrors make of it -/

theorem setMirror_same (ms : Nat → Option (VSet α)) (k : Nat) (v : Option (VSet α)) : setMirror ms k v k = v := if_pos rfl

theorem setMirror_other (ms : Nat → Option (VSet α)) {k l : Nat} (v : Option (VSet α)) (h : l ≠ k) : setMirror ms k v l = ms l := if_neg h

theorem deliverAll_ok {lt lt' : α → α → Bool} (hlt' : StrictWeak lt') (hfine : ∀ x y, eqv lt' x y = true → eqv lt x y = true) {T : Nat → α → Prop} :
    ∀ (ns : List (Note α)) (ms : Nat → Option (VSet α)),
    (∀ a v, ms a = some v → Inv lt' v ∧ Replays lt (· ∈ v.forward) (eventsOf a ns) (T a)) → (∀ a, ms a = none → eventsOf a ns = []) →
    ∃ ms', deliverAll lt' ns ms = .ok ms' ∧ (∀ a, ms' a = none ↔ ms a = none) ∧ ∀ a v, ms' a = some v → Inv lt' v ∧ ∀ x, x ∈ v.forward ↔ T a x := by
  intro ns
  induction ns with
  | nil => intro ms h _; exact ⟨ms, rfl, fun _ => Iff.rfl, fun a v hv => ⟨(h a v hv).1, (h a v hv).2⟩⟩
  | cons n ns ih =>
    intro ms h hnone
    have hcons : ∀ a, eventsOf a (n :: ns) = if a = n.observer then n.event :: eventsOf a ns else eventsOf a ns := by
      intro a
      simp only [eventsOf, List.filterMap_cons]
      by_cases ha : a = n.observer
      · simp [ha]
      · rw [if_neg ha]; simp [show ¬ n.observer = a from fun h => ha h.symm]
    cases hm : ms n.observer with
    | none =>
      have := hnone n.observer hm
      rw [hcons, if_pos rfl] at this
      cases this
    | some v =>
      obtain ⟨hi, hr⟩ := h n.observer v hm
      rw [hcons, if_pos rfl] at hr
      obtain ⟨m', nn, k1, k2, _, k4, _⟩ := mirrorOn_ok (lt := lt) hlt' (P := fun _ => True) (S := (· ∈ v.forward)) (fun x y _ _ => hfine x y) (m := ⟨v, []⟩) hi
        (fun _ => Iff.rfl) List.nodup_nil (fun _ _ => trivial) (e := n.event) (by cases n.event <;> trivial) hr.1
      obtain ⟨ms', g1, g2, g3⟩ := ih (setMirror ms n.observer (some m'.set)) (by
        intro a u hu
        by_cases ha : a = n.observer
        · subst ha
          rw [setMirror_same] at hu; cases hu
          exact ⟨k2, Replays.congr (fun x => (k4 x).symm) (fun _ => Iff.rfl) hr.2⟩
        · rw [setMirror_other _ _ ha] at hu
          have := h a u hu
          rw [hcons, if_neg ha] at this
          exact this) (by
        intro a hu
        by_cases ha : a = n.observer
        · subst ha
          rw [setMirror_same] at hu; cases hu
        · rw [setMirror_other _ _ ha] at hu
          have := hnone a hu
          rw [hcons, if_neg ha] at this
          exact this)
      refine ⟨ms', ?_, ?_, g3⟩
      · simp only [deliverAll, hm, onEvent, k1, Res.ok_bind, g1]
      · intro a
        rw [g2]
        by_cases ha : a = n.observer
        · subst ha
          rw [setMirror_same, hm]; simp
        · rw [setMirror_other _ _ ha]

/-- What holds between the operations of a program. -/
structure MInv (lt lt' : α → α → Bool) (st : MState α) : Prop where
  sets : BInv lt st.sets
  inv : ∀ k v, st.mirrors k = some v → Inv lt' v
  att : ∀ i o k, st.sets.sets i = some o → k ∈ o.subs → ∃ v, st.mirrors k = some v ∧ ∀ x, x ∈ v.forward ↔ x ∈ o.set.forward
  det : ∀ k v, st.mirrors k = some v → (∀ i o, st.sets.sets i = some o → k ∉ o.subs) → v.forward = []

theorem MInv.of {lt lt' : α → α → Bool} {s : State α} {ms : Nat → Option (VSet α)} (h1 : BInv lt s) (h2 : ∀ k v, ms k = some v → Inv lt' v)
    (h3 : ∀ i o k, s.sets i = some o → k ∈ o.subs → ∃ v, ms k = some v ∧ ∀ x, x ∈ v.forward ↔ x ∈ o.set.forward)
    (h4 : ∀ k v, ms k = some v → (∀ i o, s.sets i = some o → k ∉ o.subs) → v.forward = []) : MInv lt lt' ⟨s, ms⟩ := ⟨h1, h2, h3, h4⟩

theorem MInv.init (lt lt' : α → α → Bool) : MInv lt lt' (MState.init : MState α) := by
  refine ⟨⟨?_, ?_, ?_, ?_⟩, ?_, ?_, ?_⟩
  · intro _ _ h; cases h
  · intro _ _ h; cases h
  · intro _ _ _ _ _ h; cases h
  · intro _ _ h; cases h
  · intro _ _ h; cases h
  · intro _ _ _ h; cases h
  · intro _ _ h; cases h

theorem mapSubs_some {st : State α} {f : List Nat → List Nat} {i : Nat} {o : OSet α} (h : (st.mapSubs f).sets i = some o) :
    ∃ p, st.sets i = some p ∧ o = { p with subs := f p.subs } := by
  simp only [State.mapSubs, Option.map_eq_some_iff] at h
  obtain ⟨p, h1, h2⟩ := h
  exact ⟨p, h1, h2.symm⟩

theorem mapSubs_get {st : State α} (f : List Nat → List Nat) {i : Nat} {p : OSet α} (h : st.sets i = some p) :
    (st.mapSubs f).sets i = some { p with subs := f p.subs } := by
  simp only [State.mapSubs, h, Option.map_some]

theorem mem_leave {l : List Nat} {a k : Nat} : a ∈ l.filter (fun b => decide (b ≠ k)) ↔ a ≠ k ∧ a ∈ l := by
  simp [and_comm]

theorem mem_takePlace {s : List Nat} {a k l : Nat} : a ∈ s.map (fun b => if b = l then k else b) ↔ (a = k ∧ l ∈ s) ∨ (a ≠ l ∧ a ∈ s) := by
  rw [List.mem_map]
  constructor
  · rintro ⟨b, hb, rfl⟩
    by_cases h : b = l
    · subst h; exact Or.inl ⟨if_pos rfl, hb⟩
    · rw [if_neg h]; exact Or.inr ⟨h, hb⟩
  · rintro (⟨rfl, h⟩ | ⟨h1, h2⟩)
    · exact ⟨l, h, if_pos rfl⟩
    · exact ⟨a, h2, if_neg h1⟩

theorem BInv.leave {lt : α → α → Bool} {st : State α} (h : BInv lt st) (k : Nat) : BInv lt (st.leave k) := by
  refine ⟨?_, ?_, ?_, ?_⟩
  · intro i o hi
    obtain ⟨p, h1, rfl⟩ := mapSubs_some hi
    exact h.inv i p h1
  · intro i o hi
    obtain ⟨p, h1, rfl⟩ := mapSubs_some hi
    exact (h.nodup i p h1).filter _
  · intro i j o p a hi hj ha hb
    obtain ⟨o1, h1, rfl⟩ := mapSubs_some hi
    obtain ⟨p1, h2, rfl⟩ := mapSubs_some hj
    exact h.disj i j o1 p1 a h1 h2 (mem_leave.1 ha).2 (mem_leave.1 hb).2
  · intro i o hi
    obtain ⟨p, h1, rfl⟩ := mapSubs_some hi
    exact h.names i p h1

theorem BInv.takePlace {lt : α → α → Bool} {st : State α} (h : BInv lt st) {k l : Nat} (hk : ∀ i o, st.sets i = some o → k ∉ o.subs) : BInv lt (st.takePlace k l) := by
  refine ⟨?_, ?_, ?_, ?_⟩
  · intro i o hi
    obtain ⟨p, h1, rfl⟩ := mapSubs_some hi
    exact h.inv i p h1
  · intro i o hi
    obtain ⟨p, h1, rfl⟩ := mapSubs_some hi
    refine List.pairwise_map.2 (List.Pairwise.imp_of_mem ?_ (h.nodup i p h1))
    intro a b ha hb hab
    have hka := hk i p h1
    by_cases e1 : a = l <;> by_cases e2 : b = l <;> simp only [e1, e2, if_true, if_false]
    · exact (hab (e1.trans e2.symm)).elim
    · rintro rfl; exact hka hb
    · rintro rfl; exact hka ha
    · exact hab
  · intro i j o p a hi hj ha hb
    obtain ⟨o1, h1, rfl⟩ := mapSubs_some hi
    obtain ⟨p1, h2, rfl⟩ := mapSubs_some hj
    rcases mem_takePlace.1 ha with ⟨e1, ha1⟩ | ⟨_, ha1⟩
    · rcases mem_takePlace.1 hb with ⟨_, hb1⟩ | ⟨_, hb1⟩
      · exact h.disj i j o1 p1 l h1 h2 ha1 hb1
      · exact (hk j p1 h2 (e1 ▸ hb1)).elim
    · rcases mem_takePlace.1 hb with ⟨e2, hb1⟩ | ⟨_, hb1⟩
      · exact (hk i o1 h1 (e2 ▸ ha1)).elim
      · exact h.disj i j o1 p1 a h1 h2 ha1 hb1
  · intro i o hi
    obtain ⟨p, h1, rfl⟩ := mapSubs_some hi
    exact h.names i p h1

/-- Any operation of the sets: the mirrors handle it. -/
theorem MInv.source {lt lt' : α → α → Bool} (hlt : StrictWeak lt) (hlt' : StrictWeak lt') (hfine : ∀ x y, eqv lt' x y = true → eqv lt x y = true) {st : MState α}
    (h : MInv lt lt' st) {op : Op α} (hp : Plain op) {s' : State α} {out : Spec.Out α} {items : List (Item α)} (hs : st.sets.step lt op = .ok (s', out, items)) :
    ∃ ms', st.step lt lt' (.source op) = .ok ⟨s', ms'⟩ ∧ MInv lt lt' ⟨s', ms'⟩ := by
  obtain ⟨hb, notes, rfl, t1, t2, t3⟩ := told hlt h.sets hp hs
  let T : Nat → α → Prop := fun a x => ∃ i o, s'.sets i = some o ∧ a ∈ o.subs ∧ x ∈ o.set.forward
  have hT : ∀ i o a, s'.sets i = some o → a ∈ o.subs → ∀ x, x ∈ o.set.forward ↔ T a x := by
    intro i o a hi ha x
    constructor
    · intro hx; exact ⟨i, o, hi, ha, hx⟩
    · rintro ⟨j, p, hj, hp, hx⟩
      have := hb.disj i j o p a hi hj ha hp
      subst this
      rw [hi] at hj; cases hj; exact hx
  have hT0 : ∀ a, (∀ i o, s'.sets i = some o → a ∉ o.subs) → ∀ x, ¬ T a x := by
    rintro a ha x ⟨i, o, hi, hm, _⟩; exact ha i o hi hm
  obtain ⟨ms', g1, g2, g3⟩ := deliverAll_ok (lt := lt) hlt' hfine (T := T) notes st.mirrors (by
    intro a v hv
    refine ⟨h.inv a v hv, ?_⟩
    by_cases hnew : ∃ i o, s'.sets i = some o ∧ a ∈ o.subs
    · obtain ⟨i, o, hi, ha⟩ := hnew
      obtain ⟨j, p, hj, hp', hr⟩ := t1 i o a hi ha
      obtain ⟨u, hu, hue⟩ := h.att j p a hj hp'
      rw [hv] at hu; cases hu
      exact Replays.congr (fun x => (hue x).symm) (hT i o a hi ha) hr
    · have hno : ∀ i o, s'.sets i = some o → a ∉ o.subs := fun i o hi ha => hnew ⟨i, o, hi, ha⟩
      by_cases hold : ∃ j p, st.sets.sets j = some p ∧ a ∈ p.subs
      · obtain ⟨j, p, hj, ha⟩ := hold
        obtain ⟨u, hu, hue⟩ := h.att j p a hj ha
        rw [hv] at hu; cases hu
        exact Replays.congr (fun x => (hue x).symm) (fun x => iff_of_false (fun h => h) (hT0 a hno x)) (t2 j p a hj ha hno)
      · have hno' : ∀ j p, st.sets.sets j = some p → a ∉ p.subs := fun j p hj ha => hold ⟨j, p, hj, ha⟩
        rw [t3 a hno', h.det a v hv hno']
        intro x
        exact iff_of_false (by simp) (hT0 a hno x)) (by
    intro a hv
    refine t3 a (fun j p hj ha => ?_)
    obtain ⟨u, hu, _⟩ := h.att j p a hj ha
    rw [hv] at hu; cases hu)
  refine ⟨ms', ?_, MInv.of hb (fun k v hv => (g3 k v hv).1) ?_ ?_⟩
  · have : st.step lt lt' (.source op) = (do
        let (s, _, items) ← st.sets.step lt op
        let ms ← deliverAll lt' (notesOf items) st.mirrors
        .ok ⟨s, ms⟩) := by
      cases op <;> first | rfl | exact hp.elim
    rw [this, hs]
    simp only [Res.ok_bind, notesOf_notes, g1]
  · intro i o k hi hk
    obtain ⟨j, p, hj, hp', _⟩ := t1 i o k hi hk
    obtain ⟨u, hu, _⟩ := h.att j p k hj hp'
    cases hv : ms' k with
    | none => rw [g2] at hv; rw [hu] at hv; cases hv
    | some v => exact ⟨v, rfl, fun x => ((g3 k v hv).2 x).trans (hT i o k hi hk x).symm⟩
  · intro k v hv hno
    rw [List.eq_nil_iff_forall_not_mem]
    intro x hx
    exact hT0 k hno x (((g3 k v hv).2 x).1 hx)

/-- A mirror that is attached nowhere may be attached to any set. -/
theorem MInv.reflect {lt lt' : α → α → Bool} (hlt : StrictWeak lt) (hlt' : StrictWeak lt') (hfine : ∀ x y, eqv lt' x y = true → eqv lt x y = true) {st : MState α}
    (h : MInv lt lt' st) {k i : Nat} {v : VSet α} {o : OSet α} (hk : st.mirrors k = some v) (hi : st.sets.sets i = some o) (hno : ∀ i o, st.sets.sets i = some o → k ∉ o.subs) :
    ∃ st', st.step lt lt' (.reflect k i) = .ok st' ∧ MInv lt lt' st' ∧ st'.sets.sets i = some { o with subs := o.subs ++ [k] } := by
  have hsort : o.set.forward.Pairwise (fun a b => lt a b = true) := sorted_of (h.sets.inv i o hi)
  have hv0 := h.det k v hk hno
  obtain ⟨m, notes, k1, k2, k3, k4, _⟩ := mirrorRun_ok (lt := lt) hlt' (P := fun _ => True) (fun x y _ _ => hfine x y) (o.set.forward.map .added) (m := ⟨v, []⟩) (h.inv k v hk)
    (S := fun _ => False) (fun x => by rw [hv0]; simp) List.nodup_nil (fun _ _ => trivial) (fun e _ => by cases e <;> trivial)
    (Replays.congr (fun _ => Iff.rfl) (T' := (· ∈ o.set.forward)) (fun x => by simp) (replays_sorted o.set.forward (S := fun _ => False) (fun x h => h.elim) hsort))
  have hsub : st.sets.subscribed k = false := by
    cases hc : st.sets.subscribed k with
    | false => rfl
    | true =>
      obtain ⟨j, p, hj, hp⟩ := (subscribed_iff h.sets.now k).1 hc
      exact (hno j p hj hp).elim
  have hs : st.sets.step lt (.subscribe i k) = .ok (⟨st.sets.sets.set i (some { o with subs := o.subs ++ [k] }), st.sets.names⟩, .unit, [.started k o.set.forward]) := by
    simp only [State.step, ObservableSet.step, hi, hsub]
    rfl
  have hw := h.sets.now.step hlt hs
  refine ⟨⟨_, setMirror st.mirrors k (some m.set)⟩, ?_, MInv.of ⟨hw.inv, hw.nodup, hw.disj, hw.names⟩ ?_ ?_ ?_, set_same _ _ _⟩
  · simp only [MState.step, hk, hi, ObservableSet.reflect, k1, Res.ok_bind, hs]
  · intro l u hu
    by_cases hl : l = k
    · subst hl; rw [setMirror_same] at hu; cases hu; exact k2
    · rw [setMirror_other _ _ hl] at hu; exact h.inv l u hu
  · intro j p l hj hl
    change (st.sets.sets.set i (some { o with subs := o.subs ++ [k] })) j = some p at hj
    have other : ∀ q : OSet α, st.sets.sets j = some q → q.set = p.set → l ∈ q.subs → ∃ v, (setMirror st.mirrors k (some m.set)) l = some v ∧ ∀ x, x ∈ v.forward ↔ x ∈ p.set.forward := by
      intro q hq he hlq
      obtain ⟨u, hu, hue⟩ := h.att j q l hq hlq
      refine ⟨u, ?_, by rw [← he]; exact hue⟩
      rw [setMirror_other _ _ (by rintro rfl; exact hno j q hq hlq)]; exact hu
    by_cases hji : j = i
    · subst hji
      rw [set_same] at hj; cases hj
      rcases List.mem_append.1 hl with hl | hl
      · exact other o hi rfl hl
      · simp only [List.mem_singleton] at hl
        subst hl
        exact ⟨m.set, setMirror_same _ _ _, k4⟩
    · rw [set_other _ _ hji] at hj
      exact other p hj rfl hl
  · intro l u hu hn
    change ∀ j p, (st.sets.sets.set i (some { o with subs := o.subs ++ [k] })) j = some p → _ at hn
    by_cases hl : l = k
    · subst hl
      exact (hn i _ (set_same _ _ _) (by simp)).elim
    · rw [setMirror_other _ _ hl] at hu
      refine h.det l u hu (fun j p hj hm => ?_)
      by_cases hji : j = i
      · subst hji
        rw [hi] at hj; cases hj
        exact hn j _ (set_same _ _ _) (by simp [hm])
      · exact hn j p (by rw [set_other _ _ hji]; exact hj) hm

/-- Not unsubscribing a mirror by hand. -/
def Kept : MOp α → Prop
  | .detach _ => False
  | _ => True

/-- The mirror `k` is attached to some set of the state. -/
def Attached (st : MState α) (k : Nat) : Prop := ∃ i o, st.sets.sets i = some o ∧ k ∈ o.subs

theorem MInv.step {lt lt' : α → α → Bool} (hlt : StrictWeak lt) (hlt' : StrictWeak lt') (hfine : ∀ x y, eqv lt' x y = true → eqv lt x y = true) {st st' : MState α}
    (h : MInv lt lt' st) {op : MOp α} (hk : Kept op) (hs : st.step lt lt' op = .ok st') : MInv lt lt' st' := by
  cases op with
  | source op =>
    have hp : Plain op := by
      cases op <;> trivial
    have : st.step lt lt' (.source op) = (do
        let (s, _, items) ← st.sets.step lt op
        let ms ← deliverAll lt' (notesOf items) st.mirrors
        .ok ⟨s, ms⟩) := by
      cases op <;> first | rfl | exact hp.elim
    have hs0 := hs
    rw [this] at hs
    simp only [Res.bind_eq_ok, Prod.exists] at hs
    obtain ⟨s, out, items, h1, ms, h2, h3⟩ := hs
    obtain ⟨ms', g1, g2⟩ := h.source hlt hlt' hfine hp h1
    rw [hs0] at g1; cases g1
    exact g2
  | newMirror k =>
    simp only [MState.step] at hs
    cases hm : st.mirrors k with
    | some v => simp only [hm] at hs; cases hs
    | none =>
      simp only [hm, Res.ok.injEq] at hs
      subst hs
      refine MInv.of h.sets ?_ ?_ ?_
      · intro l u hu
        by_cases hl : l = k
        · subst hl; rw [setMirror_same] at hu; cases hu; exact empty_inv lt'
        · rw [setMirror_other _ _ hl] at hu; exact h.inv l u hu
      · intro i o l hi hl
        obtain ⟨u, hu, hue⟩ := h.att i o l hi hl
        exact ⟨u, by rw [setMirror_other _ _ (by rintro rfl; rw [hm] at hu; cases hu)]; exact hu, hue⟩
      · intro l u hu hn
        by_cases hl : l = k
        · subst hl; rw [setMirror_same] at hu; cases hu; rfl
        · rw [setMirror_other _ _ hl] at hu; exact h.det l u hu hn
  | reflect k i =>
    have hs0 := hs
    simp only [MState.step] at hs
    cases hm : st.mirrors k with
    | none => simp only [hm] at hs; cases hs
    | some v =>
      cases hi : st.sets.sets i with
      | none => simp only [hm, hi] at hs; cases hs
      | some o =>
        simp only [hm, hi, Res.bind_eq_ok, Prod.exists] at hs
        obtain ⟨m, n, _, s, out, items, h1, _⟩ := hs
        have hno : ∀ i o, st.sets.sets i = some o → k ∉ o.subs := by
          intro j p hj hp
          have hc := (subscribed_iff h.sets.now k).2 ⟨j, p, hj, hp⟩
          simp only [State.step, ObservableSet.step, hi, hc] at h1
          cases h1
        obtain ⟨st1, g1, g2, _⟩ := h.reflect hlt hlt' hfine hm hi hno
        rw [hs0] at g1; cases g1
        exact g2
  | moveMirror k l =>
    simp only [MState.step] at hs
    cases hm : st.mirrors k with
    | some v => simp only [hm] at hs; cases hs
    | none =>
      cases hl : st.mirrors l with
      | none => simp only [hm, hl] at hs; cases hs
      | some v =>
        simp only [hm, hl, Res.ok.injEq] at hs
        subst hs
        have hkl : k ≠ l := by rintro rfl; rw [hm] at hl; cases hl
        have hno : ∀ i o, st.sets.sets i = some o → k ∉ o.subs := by
          intro i o hi hk
          obtain ⟨u, hu, _⟩ := h.att i o k hi hk
          rw [hm] at hu; cases hu
        have gk : setMirror (setMirror st.mirrors k (some (VSet.empty.moveAssign v).1)) l (some (VSet.empty.moveAssign v).2) k = some (VSet.empty.moveAssign v).1 := by
          rw [setMirror_other _ _ hkl, setMirror_same]
        refine MInv.of (h.sets.takePlace hno) ?_ ?_ ?_
        · intro a u hu
          by_cases ha : a = l
          · subst ha; rw [setMirror_same] at hu; cases hu; exact moveAssign_inv2
          · by_cases hak : a = k
            · subst hak; rw [gk] at hu; cases hu; exact moveAssign_inv (h.inv l v hl)
            · rw [setMirror_other _ _ ha, setMirror_other _ _ hak] at hu; exact h.inv a u hu
        · intro i o a hi ha
          obtain ⟨p, h1, rfl⟩ := mapSubs_some hi
          rcases mem_takePlace.1 ha with ⟨rfl, hl'⟩ | ⟨hal, hap⟩
          · obtain ⟨u, hu, hue⟩ := h.att i p l h1 hl'
            rw [hl] at hu; cases hu
            exact ⟨_, gk, hue⟩
          · obtain ⟨u, hu, hue⟩ := h.att i p a h1 hap
            refine ⟨u, ?_, hue⟩
            rw [setMirror_other _ _ hal, setMirror_other _ _ (by rintro rfl; exact hno i p h1 hap)]; exact hu
        · intro a u hu hn
          by_cases ha : a = l
          · subst ha; rw [setMirror_same] at hu; cases hu; rfl
          · by_cases hak : a = k
            · subst hak; rw [gk] at hu; cases hu
              exact h.det l v hl (fun i p hp hlp => hn i _ (mapSubs_get _ hp) (mem_takePlace.2 (Or.inl ⟨rfl, hlp⟩)))
            · rw [setMirror_other _ _ ha, setMirror_other _ _ hak] at hu
              exact h.det a u hu (fun i p hp hlp => hn i _ (mapSubs_get _ hp) (mem_takePlace.2 (Or.inr ⟨ha, hlp⟩)))
  | assignMirror k l =>
    simp only [MState.step] at hs
    cases hm : st.mirrors k with
    | none => simp only [hm] at hs; cases hs
    | some w =>
      cases hl : st.mirrors l with
      | none => simp only [hm, hl] at hs; cases hs
      | some v =>
        simp only [hm, hl] at hs
        split at hs
        · rename_i hkl
          subst hkl
          simp only [Res.ok.injEq] at hs
          subst hs
          refine MInv.of (h.sets.leave k) ?_ ?_ ?_
          · intro a u hu
            by_cases ha : a = k
            · subst ha; rw [setMirror_same] at hu; cases hu
              exact (clear_ok w).1
            · rw [setMirror_other _ _ ha] at hu; exact h.inv a u hu
          · intro i o a hi ha
            obtain ⟨p, h1, rfl⟩ := mapSubs_some hi
            obtain ⟨e1, e2⟩ := mem_leave.1 ha
            obtain ⟨u, hu, hue⟩ := h.att i p a h1 e2
            exact ⟨u, by rw [setMirror_other _ _ e1]; exact hu, hue⟩
          · intro a u hu hn
            by_cases ha : a = k
            · subst ha; rw [setMirror_same] at hu; cases hu; rfl
            · rw [setMirror_other _ _ ha] at hu
              exact h.det a u hu (fun i p hp hap => hn i _ (mapSubs_get _ hp) (mem_leave.2 ⟨ha, hap⟩))
        · rename_i hkl
          simp only [Res.ok.injEq] at hs
          subst hs
          have hno : ∀ i o, (st.sets.leave k).sets i = some o → k ∉ o.subs := by
            intro i o hi hk
            obtain ⟨p, h1, rfl⟩ := mapSubs_some hi
            exact (mem_leave.1 hk).1 rfl
          have gk : setMirror (setMirror st.mirrors k (some (w.moveAssign v).1)) l (some (w.moveAssign v).2) k = some (w.moveAssign v).1 := by
            rw [setMirror_other _ _ hkl, setMirror_same]
          refine MInv.of ((h.sets.leave k).takePlace hno) ?_ ?_ ?_
          · intro a u hu
            by_cases ha : a = l
            · subst ha; rw [setMirror_same] at hu; cases hu; exact moveAssign_inv2
            · by_cases hak : a = k
              · subst hak; rw [gk] at hu; cases hu; exact moveAssign_inv (h.inv l v hl)
              · rw [setMirror_other _ _ ha, setMirror_other _ _ hak] at hu; exact h.inv a u hu
          · intro i o a hi ha
            obtain ⟨p0, h0, rfl⟩ := mapSubs_some hi
            obtain ⟨p, h1, rfl⟩ := mapSubs_some h0
            rcases mem_takePlace.1 ha with ⟨rfl, hl'⟩ | ⟨hal, hap⟩
            · obtain ⟨u, hu, hue⟩ := h.att i p l h1 (mem_leave.1 hl').2
              rw [hl] at hu; cases hu
              exact ⟨_, gk, hue⟩
            · obtain ⟨hak, hap⟩ := mem_leave.1 hap
              obtain ⟨u, hu, hue⟩ := h.att i p a h1 hap
              refine ⟨u, ?_, hue⟩
              rw [setMirror_other _ _ hal, setMirror_other _ _ hak]; exact hu
          · intro a u hu hn
            by_cases ha : a = l
            · subst ha; rw [setMirror_same] at hu; cases hu; rfl
            · by_cases hak : a = k
              · subst hak; rw [gk] at hu; cases hu
                exact h.det l v hl (fun i p hp hlp => hn i _ (mapSubs_get _ (mapSubs_get _ hp)) (mem_takePlace.2 (Or.inl ⟨rfl, mem_leave.2 ⟨fun e => hkl e.symm, hlp⟩⟩)))
              · rw [setMirror_other _ _ ha, setMirror_other _ _ hak] at hu
                exact h.det a u hu (fun i p hp hlp => hn i _ (mapSubs_get _ (mapSubs_get _ hp)) (mem_takePlace.2 (Or.inr ⟨ha, mem_leave.2 ⟨hak, hlp⟩⟩)))
  | destroyMirror k =>
    simp only [MState.step] at hs
    cases hm : st.mirrors k with
    | none => simp only [hm] at hs; cases hs
    | some w =>
      simp only [hm, Res.ok.injEq] at hs
      subst hs
      refine MInv.of (h.sets.leave k) ?_ ?_ ?_
      · intro a u hu
        by_cases ha : a = k
        · subst ha; rw [setMirror_same] at hu; cases hu
        · rw [setMirror_other _ _ ha] at hu; exact h.inv a u hu
      · intro i o a hi ha
        obtain ⟨p, h1, rfl⟩ := mapSubs_some hi
        obtain ⟨e1, e2⟩ := mem_leave.1 ha
        obtain ⟨u, hu, hue⟩ := h.att i p a h1 e2
        exact ⟨u, by rw [setMirror_other _ _ e1]; exact hu, hue⟩
      · intro a u hu hn
        by_cases ha : a = k
        · subst ha; rw [setMirror_same] at hu; cases hu
        · rw [setMirror_other _ _ ha] at hu
          exact h.det a u hu (fun i p hp hap => hn i _ (mapSubs_get _ hp) (mem_leave.2 ⟨ha, hap⟩))
  | detach k => exact hk.elim

theorem MInv.run {lt lt' : α → α → Bool} (hlt : StrictWeak lt) (hlt' : StrictWeak lt') (hfine : ∀ x y, eqv lt' x y = true → eqv lt x y = true) :
    ∀ (ops : List (MOp α)) {st st' : MState α}, MInv lt lt' st → (∀ op ∈ ops, Kept op) → st.run lt lt' ops = .ok st' → MInv lt lt' st' := by
  intro ops
  induction ops with
  | nil => intro st st' h _ hr; simp only [MState.run, Res.ok.injEq] at hr; exact hr ▸ h
  | cons op ops ih =>
    intro st st' h hk hr
    simp only [MState.run, Res.bind_eq_ok] at hr
    obtain ⟨st1, h1, h2⟩ := hr
    exact ih (h.step hlt hlt' hfine (hk op (by simp)) h1) (fun o ho => hk o (by simp [ho])) h2

/-! ### The property -/

/-- C172, as long as no mirror is unsubscribed by hand.  In every program with sets and mirrors, whatever is moved and destroyed: a mirror that is attached to a set
exists, is attached to no other set, and has exactly the elements of that set, in its own order; a mirror that is attached to nothing is empty. -/
theorem c172_mirrors_follow_partial {lt lt' : α → α → Bool} (hlt : StrictWeak lt) (hlt' : StrictWeak lt') (hfine : ∀ x y, eqv lt' x y = true → eqv lt x y = true)
    {ops : List (MOp α)} (hk : ∀ op ∈ ops, Kept op) {st : MState α} (hr : MState.init.run lt lt' ops = .ok st) :
    (∀ i o k, st.sets.sets i = some o → k ∈ o.subs →
      (∃ v, st.mirrors k = some v ∧ v.forward.Pairwise (fun a b => lt' a b = true) ∧ (∀ x, x ∈ v.forward ↔ x ∈ o.set.forward) ∧ v.forward.length = o.set.forward.length) ∧
      ∀ j p, st.sets.sets j = some p → k ∈ p.subs → j = i) ∧
    (∀ k v, st.mirrors k = some v → ¬ Attached st k → v.forward = []) := by
  have h := (MInv.init lt lt').run hlt hlt' hfine ops hk hr
  refine ⟨?_, fun k v hv hn => h.det k v hv (fun i o hi hk => hn ⟨i, o, hi, hk⟩)⟩
  intro i o k hi hk
  obtain ⟨v, hv, hve⟩ := h.att i o k hi hk
  have hs' : v.forward.Pairwise (fun a b => lt' a b = true) := by rw [(h.inv k v hv).forward]; exact (h.inv k v hv).vals_sorted
  have hs := sorted_of (h.sets.inv i o hi)
  exact ⟨⟨v, hv, hs', hve, ((List.perm_ext_iff_of_nodup (sorted_nodup hlt' hs') (sorted_nodup hlt hs)).2 hve).length_eq⟩,
    fun j p hj hp => (h.sets.disj i j o p k hi hj hk hp).symm⟩

/-- C172, as long as no mirror is unsubscribed by hand: no operation of a set fails because of the mirrors attached to it. -/
theorem c172_sets_unhindered_partial {lt lt' : α → α → Bool} (hlt : StrictWeak lt) (hlt' : StrictWeak lt') (hfine : ∀ x y, eqv lt' x y = true → eqv lt x y = true)
    {ops : List (MOp α)} (hk : ∀ op ∈ ops, Kept op) {st : MState α} (hr : MState.init.run lt lt' ops = .ok st) {op : Op α} (hp : Plain op) {s' : State α}
    {out : Spec.Out α} {items : List (Item α)} (hs : st.sets.step lt op = .ok (s', out, items)) :
    ∃ ms', st.step lt lt' (.source op) = .ok ⟨s', ms'⟩ := by
  obtain ⟨ms', h1, _⟩ := ((MInv.init lt lt').run hlt hlt' hfine ops hk hr).source hlt hlt' hfine hp hs
  exact ⟨ms', h1⟩

/-- C172, as long as no mirror is unsubscribed by hand: a mirror that is attached to nothing (new, moved from, or its set is gone) may be attached to any set, and has the elements of
that set then. -/
theorem c172_attach_partial {lt lt' : α → α → Bool} (hlt : StrictWeak lt) (hlt' : StrictWeak lt') (hfine : ∀ x y, eqv lt' x y = true → eqv lt x y = true)
    {ops : List (MOp α)} (hk : ∀ op ∈ ops, Kept op) {st : MState α} (hr : MState.init.run lt lt' ops = .ok st) {k i : Nat} {v : VSet α} {o : OSet α}
    (hm : st.mirrors k = some v) (hi : st.sets.sets i = some o) (hn : ¬ Attached st k) :
    ∃ st' v', st.step lt lt' (.reflect k i) = .ok st' ∧ st'.sets.sets i = some { o with subs := o.subs ++ [k] } ∧ st'.mirrors k = some v' ∧
      ∀ x, x ∈ v'.forward ↔ x ∈ o.set.forward := by
  obtain ⟨st', h1, h2, h3⟩ := ((MInv.init lt lt').run hlt hlt' hfine ops hk hr).reflect hlt hlt' hfine hm hi (fun i o hi hk => hn ⟨i, o, hi, hk⟩)
  obtain ⟨v', h4, h5⟩ := h2.att i _ k h3 (by simp)
  exact ⟨st', v', h1, h3, h4, h5⟩

/-- C172, as long as no mirror is unsubscribed by hand.  Moving a mirror moves what it has and its place among the observers: the new one is attached where the old one was, and
nowhere else; the old one is attached to nothing and empty; the sets and the other mirrors are as before. -/
theorem c172_moved_partial {lt lt' : α → α → Bool} (hlt : StrictWeak lt) (hlt' : StrictWeak lt') (hfine : ∀ x y, eqv lt' x y = true → eqv lt x y = true)
    {ops : List (MOp α)} (hops : ∀ op ∈ ops, Kept op) {st : MState α} (hr : MState.init.run lt lt' ops = .ok st) {k l : Nat} {v : VSet α} (hm : st.mirrors l = some v) (hkl : k ≠ l)
    {st' : MState α} (hs : st.step lt lt' (.moveMirror k l) = .ok st' ∨ st.step lt lt' (.assignMirror k l) = .ok st') :
    (∃ v', st'.mirrors k = some v' ∧ v'.forward = v.forward) ∧ (∃ u, st'.mirrors l = some u ∧ u.forward = []) ∧
    (∀ a, a ≠ k → a ≠ l → st'.mirrors a = st.mirrors a) ∧
    (∀ i, (st'.sets.sets i).isSome = (st.sets.sets i).isSome) ∧
    ∀ i o, st.sets.sets i = some o → ∃ o', st'.sets.sets i = some o' ∧ o'.set = o.set ∧
      ∀ a, a ∈ o'.subs ↔ (a = k ∧ l ∈ o.subs) ∨ (a ≠ k ∧ a ≠ l ∧ a ∈ o.subs) := by
  have h := (MInv.init lt lt').run hlt hlt' hfine ops hops hr
  have fin : ∀ (w : VSet α),
      (∃ v', setMirror (setMirror st.mirrors k (some (w.moveAssign v).1)) l (some (w.moveAssign v).2) k = some v' ∧ v'.forward = v.forward) ∧
      (∃ u, setMirror (setMirror st.mirrors k (some (w.moveAssign v).1)) l (some (w.moveAssign v).2) l = some u ∧ u.forward = []) ∧
      (∀ a, a ≠ k → a ≠ l → setMirror (setMirror st.mirrors k (some (w.moveAssign v).1)) l (some (w.moveAssign v).2) a = st.mirrors a) := by
    intro w
    exact ⟨⟨(w.moveAssign v).1, by rw [setMirror_other _ _ hkl, setMirror_same], rfl⟩, ⟨_, setMirror_same _ _ _, rfl⟩, fun a h1 h2 => by rw [setMirror_other _ _ h2, setMirror_other _ _ h1]⟩
  rcases hs with hs | hs
  · simp only [MState.step, hm] at hs
    cases hk : st.mirrors k with
    | some w => simp only [hk] at hs; cases hs
    | none =>
      simp only [hk, Res.ok.injEq] at hs
      subst hs
      obtain ⟨f3, f4, f5⟩ := fin VSet.empty
      refine ⟨f3, f4, f5, fun i => by simp [State.takePlace, State.mapSubs], ?_⟩
      intro i o hi
      refine ⟨_, mapSubs_get _ hi, rfl, fun a => ?_⟩
      have hno : k ∉ o.subs := by
        intro hko
        obtain ⟨u, hu, _⟩ := h.att i o k hi hko
        rw [hk] at hu; cases hu
      rw [mem_takePlace]
      constructor
      · rintro (h1 | ⟨h1, h2⟩)
        · exact Or.inl h1
        · exact Or.inr ⟨fun e => hno (e ▸ h2), h1, h2⟩
      · rintro (h1 | ⟨_, h1, h2⟩)
        · exact Or.inl h1
        · exact Or.inr ⟨h1, h2⟩
  · simp only [MState.step, hm] at hs
    cases hk : st.mirrors k with
    | none => simp only [hk] at hs; cases hs
    | some w =>
      simp only [hk, if_neg hkl, Res.ok.injEq] at hs
      subst hs
      obtain ⟨f3, f4, f5⟩ := fin w
      refine ⟨f3, f4, f5, fun i => by simp [State.leave, State.takePlace, State.mapSubs], ?_⟩
      intro i o hi
      refine ⟨_, mapSubs_get _ (mapSubs_get _ hi), rfl, fun a => ?_⟩
      rw [mem_takePlace]
      simp only [mem_leave]
      constructor
      · rintro (⟨h1, _, h2⟩ | ⟨h1, h2, h3⟩)
        · exact Or.inl ⟨h1, h2⟩
        · exact Or.inr ⟨h2, h1, h3⟩
      · rintro (⟨h1, h2⟩ | ⟨h1, h2, h3⟩)
        · exact Or.inl ⟨h1, fun e => hkl e.symm, h2⟩
        · exact Or.inr ⟨h2, h1, h3⟩

/-- The elements of a set and of its mirrors, for the examples. -/
def shows (i : Nat) (ks : List Nat) (r : Res (MState Nat)) : Option (List Nat × List Nat) × List (Option (List Nat)) :=
  match r with
  | .ok st => ((st.sets.sets i).map (fun o => (o.set.forward, o.subs)), ks.map (fun k => (st.mirrors k).map VSet.forward))
  | _ => (none, [])

/-- A set with two mirrors in descending order; one is moved, the set is moved, and goes on. -/
def story : List (MOp Nat) :=
  [.source (.create 1), .source (.on 1 (.insert 5)), .newMirror 7, .reflect 7 1, .source (.on 1 (.insert 3)), .newMirror 8, .reflect 8 1, .moveMirror 9 7,
   .source (.create 2), .source (.on 2 (.insert 1)), .reflect 7 2, .source (.moveAssign 2 1), .source (.on 2 (.insert 4))]

example : shows 2 [7, 8, 9] (MState.init.run (fun a b => decide (a < b)) (fun a b => decide (b < a)) story) =
    (some ([3, 4, 5], [9, 8]), [some [], some [5, 4, 3], some [5, 4, 3]]) := by decide +kernel

example : ∀ op ∈ story, Kept op := by
  intro op h
  simp only [story, List.mem_cons, List.not_mem_nil, or_false] at h
  rcases h with rfl | rfl | rfl | rfl | rfl | rfl | rfl | rfl | rfl | rfl | rfl | rfl | rfl <;> trivial

/-- **C172 is violated** by a mirror that was unsubscribed by hand: it keeps what it had.  Attached to another set it has more than that set; attached to the same
one it throws. -/
theorem c172_unsubscribed_violated :
    (∃ st v o, MState.init.run (fun a b : Nat => decide (a < b)) (fun a b => decide (a < b))
        [.source (.create 1), .source (.on 1 (.insert 5)), .source (.create 2), .source (.on 2 (.insert 6)), .newMirror 7, .reflect 7 1, .detach 7, .reflect 7 2] = .ok st ∧
      st.sets.sets 2 = some o ∧ 7 ∈ o.subs ∧ o.set.forward = [6] ∧ st.mirrors 7 = some v ∧ v.forward = [5, 6]) ∧
    MState.init.run (fun a b : Nat => decide (a < b)) (fun a b => decide (a < b))
      [.source (.create 1), .source (.on 1 (.insert 5)), .newMirror 7, .reflect 7 1, .detach 7, .reflect 7 1] = .throw .logic :=
  ⟨⟨_, _, _, rfl, rfl, by decide, rfl, rfl, rfl⟩, rfl⟩

/-- A mirror that is attached must not be attached again: it throws, and stays as it was, or (if the set is empty) the same observer would be in two lists. -/
theorem c172_attached_twice {lt lt' : α → α → Bool} (hlt : StrictWeak lt) (hlt' : StrictWeak lt') (hfine : ∀ x y, eqv lt' x y = true → eqv lt x y = true)
    {ops : List (MOp α)} (hk : ∀ op ∈ ops, Kept op) {st : MState α} (hr : MState.init.run lt lt' ops = .ok st) {k : Nat} (ha : Attached st k) (i : Nat) :
    ∀ st', st.step lt lt' (.reflect k i) ≠ .ok st' := by
  intro st' hs
  have h := (MInv.init lt lt').run hlt hlt' hfine ops hk hr
  obtain ⟨j, p, hj, hp⟩ := ha
  simp only [MState.step] at hs
  cases hm : st.mirrors k with
  | none => simp only [hm] at hs; cases hs
  | some v =>
    cases hi : st.sets.sets i with
    | none => simp only [hm, hi] at hs; cases hs
    | some o =>
      simp only [hm, hi, Res.bind_eq_ok, Prod.exists] at hs
      obtain ⟨m, n, _, s, out, items, h1, _⟩ := hs
      have hc := (subscribed_iff h.sets.now k).2 ⟨j, p, hj, hp⟩
      simp only [State.step, ObservableSet.step, hi, hc] at h1
      cases h1

end Verif.ObservableSet
