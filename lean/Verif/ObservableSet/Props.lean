import Verif.ObservableSet.Mirror

/-!
# C19, C20, C70: `observable_set` and `mirror_set`
-/

namespace Verif.ObservableSet

open Verif.VectorSet
open Verif.VectorSet.Spec (eqv)

variable {α : Type}

/-- C19.  After any history over any family of sets, an operation on one of them answers what the plain ordered set
answers, and sends exactly the events it has to: every subscriber of that set is called once for each of them, in the order
of subscription, sees the contents after an insertion and before a removal or clearing, and nobody else is called. -/
theorem c19_events_exact {lt : α → α → Bool} (hlt : StrictWeak lt) {ops : List (Op α)} {st : State α}
    {items : List (Item α)} (hr : State.init.run lt ops = .ok (st, items)) {i : Nat} {o : OSet α}
    (hi : st.sets i = some o) (op : Spec.Op α) :
    (∀ S' out, Spec.step lt o.set.forward op = .ok (S', out) →
      ∃ o', o.step lt op = .ok (o', out, ((expected lt o.set.forward S' op).map
          (fun e => o.subs.map (fun b => (⟨b, e.1, e.2⟩ : Note α)))).flatten) ∧
        o'.set.forward = S' ∧ o'.subs = o.subs) ∧
    (Spec.step lt o.set.forward op = .ub → o.step lt op = .ub) ∧ o.subs.Nodup := by
  have hw := (WInv.init lt).run hlt ops hr
  refine ⟨fun S' out h => ?_, oset_step_ub, hw.nodup i o hi⟩
  obtain ⟨s, h1, _, h3⟩ := oset_step hlt (hw.inv i o hi) op h
  exact ⟨_, h1, h3, rfl⟩

/-- A history in which an observer sees an insertion, an ignored duplicate, a removal and a clearing. -/
def demo : List (Op Nat) :=
  [.create 0, .on 0 (.insert 5), .subscribe 0 7, .on 0 (.insert 3), .on 0 (.insert 3), .on 0 (.eraseKey 5),
   .on 0 (.eraseKey 9), .on 0 (.insert 8), .create 1, .on 1 (.insert 1), .moveAssign 1 0, .on 1 (.insert 4)]

/-- The history is possible, and this is what happens in it. -/
example : ∃ st items o, State.init.run (fun a b => decide (a < b)) demo = .ok (st, items) ∧
    knows 7 items = some ([5], [.added 3, .removing 5, .added 8, .added 4]) ∧ st.sets 1 = some o ∧ o.subs = [7] ∧
    o.set.forward = [3, 4, 8] := ⟨_, _, _, rfl, rfl, rfl, rfl, rfl⟩

example : ∃ st items o S' out, State.init.run (fun a b => decide (a < b)) demo = .ok (st, items) ∧
    st.sets 1 = some o ∧ Spec.step (fun a b => decide (a < b)) o.set.forward (.eraseKey 4) = .ok (S', out) ∧
    expected (fun a b => decide (a < b)) o.set.forward S' (.eraseKey 4) = [(.removing 4, [3, 4, 8])] :=
  ⟨_, _, _, _, _, rfl, rfl, rfl, rfl⟩

/-- C70 (and the second half of C19).  Whatever a program does with a family of sets and their subscribers (constructing,
inserting, erasing, clearing, subscribing, unsubscribing, moving, migrating, destroying): a subscriber that starts from
what it saw when it was subscribed and applies the events it was sent always makes sense of them and arrives at exactly the
contents of the set that it is subscribed to. -/
theorem c70_subscriber_knows_contents {lt : α → α → Bool} (hlt : StrictWeak lt) {ops : List (Op α)} {st : State α}
    {items : List (Item α)} (hr : State.init.run lt ops = .ok (st, items)) {i : Nat} {o : OSet α}
    (hi : st.sets i = some o) {a : Nat} (ha : a ∈ o.subs) :
    ∃ S es, knows a items = some (S, es) ∧ Replays lt (· ∈ S) es (· ∈ o.set.forward) := by
  obtain ⟨S, es, h1, h2, _⟩ := ((WInv.init lt).run hlt ops hr).follows i o a hi ha
  exact ⟨S, es, h1, h2⟩

/-- No observer is ever subscribed to two sets, or twice to one. -/
theorem c70_single_subscription {lt : α → α → Bool} (hlt : StrictWeak lt) {ops : List (Op α)} {st : State α}
    {items : List (Item α)} (hr : State.init.run lt ops = .ok (st, items)) {i j : Nat} {o p : OSet α} {a : Nat}
    (hi : st.sets i = some o) (hj : st.sets j = some p) (ha : a ∈ o.subs) (ha' : a ∈ p.subs) :
    i = j ∧ o.subs.Nodup :=
  ⟨((WInv.init lt).run hlt ops hr).disj i j o p a hi hj ha ha', ((WInv.init lt).run hlt ops hr).nodup i o hi⟩

example : ∃ st items o, State.init.run (fun a b => decide (a < b)) demo = .ok (st, items) ∧
    st.sets 1 = some o ∧ 7 ∈ o.subs := ⟨_, _, _, rfl, rfl, by decide⟩

theorem tells_notify {o : OSet α} {e : Event α} {n : Note α} (hn : n ∈ notify o e) (h : Tells ⟨0, e, o.set.forward⟩) : Tells n := by
  obtain ⟨a, -, rfl⟩ := List.mem_map.1 hn
  exact h

theorem tells_clearing {lt : α → α → Bool} {o : OSet α} (hi : Inv lt o.set) {n : Note α}
    (hn : n ∈ if !o.set.isEmpty then notify o .clearing else []) : Tells n := by
  cases he : o.set.isEmpty with
  | true => rw [he] at hn; cases hn
  | false =>
    rw [he] at hn
    refine tells_notify hn ?_
    rw [isEmpty_iff hi] at he
    show o.set.forward ≠ []
    intro h; rw [h] at he; cases he

theorem tells_step {lt : α → α → Bool} (hlt : StrictWeak lt) {o o' : OSet α} (hi : Inv lt o.set) {op : Spec.Op α} {out : Spec.Out α}
    {notes : List (Note α)} (h : o.step lt op = .ok (o', out, notes)) {n : Note α} (hn : n ∈ notes) : Tells n := by
  obtain ⟨h1, -, -, rfl⟩ := oset_step_inv hlt hi h
  have hr := expected_replays hlt (by rw [hi.forward]; exact hi.vals_sorted) h1
  simp only [deliver, List.mem_flatten, List.mem_map] at hn
  obtain ⟨_, ⟨e, he, rfl⟩, hn⟩ := hn
  obtain ⟨a, -, rfl⟩ := List.mem_map.1 hn
  cases op with
  | insert v =>
    simp only [expected] at he hr
    split at he
    · cases he
    · rename_i hc
      obtain rfl := List.mem_singleton.1 he
      rw [if_neg hc] at hr
      exact (hr.2 v).1 (.inr rfl)
  | eraseKey k =>
    simp only [expected] at he hr
    split at he
    · rename_i x hx
      obtain rfl := List.mem_singleton.1 he
      exact List.mem_of_find?_eq_some hx
    · cases he
  | eraseAt i =>
    simp only [expected] at he hr
    split at he
    · rename_i x hx
      obtain rfl := List.mem_singleton.1 he
      exact List.mem_of_getElem? hx
    · cases he
  | clear =>
    simp only [expected] at he hr
    split at he
    · cases he
    · rename_i hc
      obtain rfl := List.mem_singleton.1 he
      show o.set.forward ≠ []
      intro h; rw [h] at hc; exact hc rfl
  | _ => cases he

/-- C70: events are sent only when something changes, in every operation but `migrate` from an empty set.  Missing: that one, see
`c70_migrate_spurious_violated`. -/
theorem c70_only_changes_partial {lt : α → α → Bool} (hlt : StrictWeak lt) {ops : List (Op α)} {st st' : State α} {items items' : List (Item α)}
    (hr : State.init.run lt ops = .ok (st, items)) (op : Op α) (out : Spec.Out α) (hs : st.step lt op = .ok (st', out, items'))
    (hm : ∀ i j, op = .migrate i j → i ≠ j ∧ ∃ p, st.sets j = some p ∧ p.set.forward ≠ []) :
    ∀ n, .note n ∈ items' → Tells n := by
  have hw := (WInv.init lt).run hlt ops hr
  intro n hn
  obtain ⟨⟨w, out1, its⟩, h1, h2⟩ := Res.bind_eq_ok.1 hs
  simp only [Res.ok.injEq, Prod.mk.injEq] at h2
  obtain ⟨-, -, rfl⟩ := h2
  cases op with
  | create i =>
    simp only [step] at h1
    split at h1
    · cases h1
    · cases h1; cases hn
  | createFrom i vs =>
    simp only [step] at h1
    split at h1
    · cases h1
    · obtain ⟨s, -, h1⟩ := Res.bind_eq_ok.1 h1
      cases h1; cases hn
  | on i op =>
    simp only [step] at h1
    cases ho : st.sets i with
    | none => rw [ho] at h1; cases h1
    | some o =>
      rw [ho] at h1
      obtain ⟨⟨o', out2, notes⟩, h3, h4⟩ := Res.bind_eq_ok.1 h1
      cases h4
      obtain ⟨m, hm', e⟩ := List.mem_map.1 hn
      cases e
      exact tells_step hlt (hw.inv i o ho) h3 hm'
  | subscribe i a =>
    simp only [step] at h1
    cases ho : st.sets i with
    | none => rw [ho] at h1; cases h1
    | some o =>
      rw [ho] at h1
      simp only at h1
      split at h1
      · cases h1
      · cases h1; simp at hn
  | unsubscribe i a =>
    simp only [step] at h1
    cases ho : st.sets i with
    | none => rw [ho] at h1; cases h1
    | some o =>
      rw [ho] at h1
      simp only at h1
      split at h1
      · cases h1; cases hn
      · cases h1
  | moveConstruct i j =>
    simp only [step] at h1
    cases ho : st.sets i <;> cases hp : st.sets j <;> rw [ho, hp] at h1 <;> cases h1
    cases hn
  | moveAssign i j =>
    simp only [step] at h1
    cases ho : st.sets i with
    | none => rw [ho] at h1; cases h1
    | some o =>
      cases hp : st.sets j with
      | none => rw [ho, hp] at h1; cases h1
      | some p =>
        rw [ho, hp] at h1
        simp only at h1
        split at h1 <;> cases h1 <;> obtain ⟨m, hm', e⟩ := List.mem_map.1 hn <;> cases e <;> exact tells_clearing (hw.inv i o ho) hm'
  | migrate i j =>
    obtain ⟨hij, p, hp, hne⟩ := hm i j rfl
    simp only [step] at h1
    cases ho : st.sets i with
    | none => rw [ho] at h1; cases h1
    | some o =>
      rw [ho, hp] at h1
      simp only [if_neg hij] at h1
      cases h1
      obtain ⟨m, hm', e⟩ := List.mem_map.1 hn
      cases e
      simp only [migrate, List.mem_append] at hm'
      rcases hm' with (h | h) | h
      · have : o.clear.2 = if !o.set.isEmpty then notify o .clearing else [] := by
          unfold OSet.clear; cases o.set.isEmpty <;> rfl
        rw [this] at h
        exact tells_clearing (hw.inv i o ho) h
      · exact tells_notify h hne
      · simp only [List.mem_flatten, List.mem_map] at h
        obtain ⟨_, ⟨v, hv, rfl⟩, h⟩ := h
        exact tells_notify h hv
  | destroy i =>
    simp only [step] at h1
    cases ho : st.sets i with
    | none => rw [ho] at h1; cases h1
    | some o =>
      rw [ho] at h1
      cases h1
      obtain ⟨m, hm', e⟩ := List.mem_map.1 hn
      cases e
      exact tells_clearing (hw.inv i o ho) hm'

/-- A migration that clears a set, takes over two elements and tells its observer. -/
example : ∃ st st' items items' o, State.init.run (fun a b => decide (a < b)) [.create 0, .on 0 (.insert 5), .subscribe 0 7, .createFrom 1 [2, 1]] = .ok (st, items) ∧
    st.step (fun a b => decide (a < b)) (.migrate 0 1) = .ok (st', .unit, items') ∧ st.sets 1 = some o ∧ o.set.forward = [1, 2] ∧
    knows 7 (items ++ items') = some ([5], [.clearing, .added 1, .added 2]) := ⟨_, _, _, _, _, rfl, rfl, rfl, rfl, rfl⟩

/-- C70 is not true in the stronger form "events are sent only when something changes": migrating from an empty set tells
the subscribers of that set that it is being cleared. -/
theorem c70_migrate_spurious_violated :
    ∃ (ops : List (Op Nat)) (st st' : State Nat) (items items' : List (Item Nat)) (o o' : OSet Nat),
      State.init.run (fun a b => decide (a < b)) ops = .ok (st, items) ∧
      st.step (fun a b => decide (a < b)) (.migrate 0 1) = .ok (st', .unit, items') ∧
      st.sets 1 = some o ∧ o.set.forward = [] ∧ st'.sets 1 = some o' ∧ o'.set.forward = [] ∧
      knows 7 (items ++ items') = some ([], [.clearing]) :=
  ⟨[.create 0, .create 1, .subscribe 1 7], _, _, _, _, _, _, rfl, rfl, rfl, rfl, rfl, rfl, rfl⟩

/-- So it is in every state: `migrate` from an empty set to another one that is empty, too, changes neither, and every subscriber of the source is told that it is being cleared. -/
theorem c70_migrate_empty_violated {lt : α → α → Bool} (hlt : StrictWeak lt) {ops : List (Op α)} {st : State α} {items : List (Item α)} (hr : State.init.run lt ops = .ok (st, items))
    (i j : Nat) (hij : i ≠ j) (o p : OSet α) (ho : st.sets i = some o) (hp : st.sets j = some p) (hoe : o.set.forward = []) (hpe : p.set.forward = []) :
    ∃ st' o' p' items', st.step lt (.migrate i j) = .ok (st', .unit, items') ∧ st'.sets i = some o' ∧ st'.sets j = some p' ∧ o'.set.forward = [] ∧ p'.set.forward = [] ∧
      o'.subs = o.subs ∧ p'.subs = p.subs ∧ items' = p.subs.map (fun a => .note ⟨a, .clearing, []⟩) := by
  have hw := (WInv.init lt).run hlt ops hr
  have he : o.set.isEmpty = true := by rw [isEmpty_iff (hw.inv i o ho), hoe]; rfl
  have hc : o.clear = (o, []) := by simp [OSet.clear, he]
  have hji : j ≠ i := fun e => hij e.symm
  have hf : (o.set.moveAssign p.set).1.forward = [] := hpe
  refine ⟨_, ⟨(o.set.moveAssign p.set).1, o.subs⟩, ⟨(o.set.moveAssign p.set).2.clear, p.subs⟩, _, by simp only [State.step, step, ho, hp, if_neg hij, migrate, hc, hf]; rfl, ?_⟩
  refine ⟨by simp only [World.set, if_neg hij, if_true], by simp only [World.set, if_true], hf, rfl, rfl, rfl, ?_⟩
  simp [notify, hpe, List.map_map]

/-- C20.  A mirror (with its own order `lt'`) that reflects a set of a program and handles the events the set sends to it:
if the mirror's order distinguishes the elements of the source that the source's order distinguishes, no handler ever
throws, and the mirror always contains exactly the elements of the source, in its own order; and its own subscribers, which
saw the mirror before it was attached, are sent events that lead to the same contents. -/
theorem c20_mirror_follows_source {lt lt' : α → α → Bool} (hlt : StrictWeak lt) (hlt' : StrictWeak lt')
    {ops : List (Op α)} {st : State α} {items : List (Item α)} (hr : State.init.run lt ops = .ok (st, items)) {i : Nat}
    {o : OSet α} (hi : st.sets i = some o) {a : Nat} (ha : a ∈ o.subs) {S : List α} {es : List (Event α)}
    (hk : knows a items = some (S, es))
    (hfine : ∀ x y, (x ∈ S ∨ .added x ∈ es) → (y ∈ S ∨ .added y ∈ es) → eqv lt' x y = true → eqv lt x y = true)
    (subs : List Nat) (hn : subs.Nodup) :
    ∃ m notes, mirrorRun lt' ⟨VSet.empty, subs⟩ (S.map .added ++ es) = .ok (m, notes) ∧
      (∀ x, x ∈ m.set.forward ↔ x ∈ o.set.forward) ∧ m.set.forward.Pairwise (fun a b => lt' a b = true) ∧
      m.set.forward.length = o.set.forward.length ∧ m.subs = subs ∧
      (∀ b ∈ subs, Replays lt' (fun _ => False) (eventsOf b notes) (· ∈ o.set.forward)) := by
  have hw := (WInv.init lt).run hlt ops hr
  obtain ⟨S', es', h1, h2, h3⟩ := hw.follows i o a hi ha
  rw [List.nil_append, hk] at h1
  simp only [Option.some.injEq, Prod.mk.injEq] at h1
  obtain ⟨rfl, rfl⟩ := h1
  have hrep : Replays lt (fun _ => False) (S.map .added ++ es) (· ∈ o.set.forward) := by
    refine Replays.append (T := (· ∈ S)) ?_ h2
    exact Replays.congr (fun _ => Iff.rfl) (fun x => by simp) (replays_sorted S (S := fun _ => False) (fun x h => h.elim) h3)
  have hemp : Inv lt' (VSet.empty : VSet α) := ⟨trivial, Or.inl rfl, rfl, List.Pairwise.nil, by simp [VSet.empty, toL],
    List.Pairwise.nil⟩
  obtain ⟨m, notes, k1, k2, k3, k4, _, k6, _⟩ := mirrorRun_ok (lt := lt) hlt' (P := fun x => x ∈ S ∨ Event.added x ∈ es) hfine
    (S.map .added ++ es) (m := ⟨VSet.empty, subs⟩) hemp (S := fun _ => False) (fun x => by simp [VSet.empty, VSet.forward])
    hn (fun x h => h.elim) (by
      intro e he
      rcases List.mem_append.1 he with he | he
      · obtain ⟨x, hx, rfl⟩ := List.mem_map.1 he
        exact Or.inl hx
      · cases e with
        | added v => exact Or.inr he
        | _ => trivial) hrep
  have hs' : m.set.forward.Pairwise (fun a b => lt' a b = true) := by rw [k2.forward]; exact k2.vals_sorted
  have ho := hw.inv i o hi
  have hs : o.set.forward.Pairwise (fun a b => lt a b = true) := by rw [ho.forward]; exact ho.vals_sorted
  refine ⟨m, notes, k1, k4, hs', ?_, k3, ?_⟩
  · exact ((List.perm_ext_iff_of_nodup (sorted_nodup hlt' hs') (sorted_nodup hlt hs)).2 k4).length_eq
  · intro b hb
    exact Replays.congr (fun x => by simp [VSet.empty, VSet.forward]) k4 (k6 b hb)

/-- A mirror of the demo set in descending order; observer 7 is the mirror. -/
example : ∃ st items o m notes, State.init.run (fun a b => decide (a < b)) demo = .ok (st, items) ∧
    st.sets 1 = some o ∧ 7 ∈ o.subs ∧ knows 7 items = some ([5], [.added 3, .removing 5, .added 8, .added 4]) ∧
    (∀ x y : Nat, eqv (fun a b => decide (b < a)) x y = true → eqv (fun a b => decide (a < b)) x y = true) ∧
    mirrorRun (fun a b => decide (b < a)) ⟨VSet.empty, [9]⟩ ([5].map .added ++ [.added 3, .removing 5, .added 8, .added 4])
      = .ok (m, notes) ∧ m.set.forward = [8, 4, 3] :=
  ⟨_, _, _, _, _, rfl, rfl, by decide, rfl, by simp [eqv]; omega, rfl, rfl⟩

/-- C20, chains.  A chain of mirrors of mirrors, each with its own order: while the source sends events that make sense,
no mirror throws, and at the end every mirror of the chain contains exactly the elements of the source. -/
theorem c20_mirror_chain {P : α → Prop} {lt : α → α → Bool} {ls : List (Link α)} (hc : ChainOK P lt ls) {S T : α → Prop}
    (hm : ∀ l ∈ ls, ∀ a, a ∈ l.mirror.set.forward ↔ S a) (hP : ∀ a, S a → P a) {es : List (Event α)}
    (he : ∀ v, .added v ∈ es → P v) (hr : Replays lt S es T) :
    ∃ ms, chainRun ls es = .ok ms ∧ ms.length = ls.length ∧ ∀ m ∈ ms, ∀ a, a ∈ m.set.forward ↔ T a :=
  chainRun_ok ls hc hm hP (fun e h => by
    cases e with
    | added v => exact he v h
    | _ => trivial) hr

example : ∃ ms, chainRun [⟨fun a b : Nat => decide (b < a), ⟨VSet.empty, [1]⟩, 1⟩, ⟨fun a b => decide (a < b), ⟨VSet.empty, [2]⟩, 2⟩]
    [.added 4, .added 6, .removing 4, .added 9] = .ok ms ∧ ms.map (fun m => m.set.forward) = [[9, 6], [6, 9]] :=
  ⟨_, rfl, rfl⟩

/-- C20, the precondition is needed: when the mirror's order does not distinguish the new element from one that is already
in the mirror, the handler throws, although the source accepted the element. -/
theorem c20_mirror_collision_throws {lt' : α → α → Bool} (hlt' : StrictWeak lt') {m : OSet α} (hi : Inv lt' m.set)
    {v x : α} (hx : x ∈ m.set.forward) (hxv : eqv lt' x v = true) : mirrorOn lt' m (.added v) = .throw .logic := by
  obtain ⟨y, hy⟩ : ∃ y, m.set.forward.find? (fun a => eqv lt' a v) = some y := by
    cases h : m.set.forward.find? (fun a => eqv lt' a v) with
    | some y => exact ⟨y, rfl⟩
    | none =>
      rw [List.find?_eq_none] at h
      exact absurd hxv (h x hx)
  obtain ⟨s, k1, _, _⟩ := oset_step (o := m) hlt' hi (.insert v) (S' := m.set.forward) (out := .inserted y false)
    (by simp only [Spec.step, hy])
  simp only [OSet.step] at k1
  simp only [mirrorOn, k1, Res.ok_bind]

/-- Two elements with the same last digit, distinguished by the source only. -/
example : (match mirrorRun (fun a b : Nat => decide (a % 10 < b % 10)) ⟨VSet.empty, []⟩ [.added 3, .added 13] with
    | .throw .logic => true | _ => false) = true := rfl

end Verif.ObservableSet
