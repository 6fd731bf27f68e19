import Verif.ObservableSet.Lemmas

/-! # The invariant of a family of sets with observers -/

namespace Verif.ObservableSet

open Verif.VectorSet
open Verif.VectorSet.Spec (eqv)

variable {α : Type}

structure WInv (lt : α → α → Bool) (st : State α) (items : List (Item α)) : Prop where
  inv : ∀ i o, st.sets i = some o → Inv lt o.set
  nodup : ∀ i o, st.sets i = some o → o.subs.Nodup
  disj : ∀ i j o p a, st.sets i = some o → st.sets j = some p → a ∈ o.subs → a ∈ p.subs → i = j
  names : ∀ i o, st.sets i = some o → i ∈ st.names
  follows : ∀ i o a, st.sets i = some o → a ∈ o.subs → Follows lt a items o.set.forward

theorem moveAssign_inv {lt : α → α → Bool} {a b : VSet α} (hb : Inv lt b) : Inv lt (a.moveAssign b).1 :=
  ⟨hb.cnt, hb.black, hb.list, hb.uniq, fun x hx => Nat.lt_of_lt_of_le (hb.fresh x hx) (Nat.le_max_right _ _), hb.sorted⟩

theorem moveAssign_inv2 {lt : α → α → Bool} {a b : VSet α} : Inv lt (a.moveAssign b).2 :=
  ⟨trivial, Or.inl rfl, rfl, List.Pairwise.nil, by simp [VSet.moveAssign, toL], List.Pairwise.nil⟩

theorem insertAll_inv {lt : α → α → Bool} (hlt : StrictWeak lt) : ∀ (vs : List α) {s s' : VSet α}, Inv lt s →
    s.insertAll lt vs = .ok s' → Inv lt s' := by
  intro vs
  induction vs with
  | nil => intro s s' hi h; simp only [VSet.insertAll, Res.ok.injEq] at h; subst h; exact hi
  | cons v vs ih =>
    intro s s' hi h
    simp only [VSet.insertAll, Res.bind_eq_ok, Prod.exists] at h
    obtain ⟨s1, e, b, h1, h2⟩ := h
    refine ih (step_inv hlt hi (op := .insert v) (o := .inserted e.val b) ?_) h2
    simp only [VSet.step, h1, Res.ok_bind]

theorem subscribed_iff {lt : α → α → Bool} {st : State α} {items : List (Item α)} (h : WInv lt st items) (a : Nat) :
    st.subscribed a = true ↔ ∃ i o, st.sets i = some o ∧ a ∈ o.subs := by
  simp only [State.subscribed, List.any_eq_true]
  constructor
  · rintro ⟨i, _, h1⟩
    cases hi : st.sets i with
    | none => rw [hi] at h1; cases h1
    | some o => rw [hi] at h1; exact ⟨i, o, hi, by simpa using h1⟩
  · rintro ⟨i, o, h1, h2⟩
    exact ⟨i, h.names i o h1, by rw [h1]; simpa using h2⟩

/-- Replaying the insertion of the elements of a sorted sequence into the empty set. -/
theorem replays_sorted {lt : α → α → Bool} : ∀ (L : List α) {S : α → Prop},
    (∀ a, S a → ∀ b ∈ L, lt a b = true) → L.Pairwise (fun a b => lt a b = true) →
    Replays lt S (L.map .added) (fun a => S a ∨ a ∈ L) := by
  intro L
  induction L with
  | nil => intro S _ _ a; simp
  | cons v L ih =>
    intro S h hp
    rw [List.pairwise_cons] at hp
    refine ⟨fun a ha => eqv_of_lt (h a ha v (by simp)), ?_⟩
    refine Replays.congr (fun _ => Iff.rfl) ?_ (ih (S := applyEvent S (.added v)) ?_ hp.2)
    · intro a; simp only [applyEvent, List.mem_cons, or_assoc]
    · rintro a (ha | rfl) b hb
      · exact h a ha b (by simp [hb])
      · exact hp.1 b hb

theorem eventsOf_notify (o : OSet α) (hn : o.subs.Nodup) (e : Event α) (a : Nat) :
    eventsOf a (notify o e) = if a ∈ o.subs then [e] else [] := by
  rw [notify_eq, eventsOf_deliver a o.subs hn]; rfl

theorem eventsOf_notifyAll (o : OSet α) (hn : o.subs.Nodup) (L : List α) (a : Nat) :
    eventsOf a ((L.map (fun v => notify o (.added v))).flatten) = if a ∈ o.subs then L.map .added else [] := by
  have : (L.map (fun v => notify o (.added v))).flatten = deliver o.subs (L.map (fun v => (.added v, o.set.forward))) := by
    simp only [deliver, List.map_map]; rfl
  rw [this, eventsOf_deliver a o.subs hn]
  simp only [List.map_map]
  rfl

theorem eventsOf_if (o : OSet α) (hn : o.subs.Nodup) (b : Bool) (e : Event α) (a : Nat) :
    eventsOf a (if b then notify o e else []) = if b ∧ a ∈ o.subs then [e] else [] := by
  cases b
  · simp [eventsOf]
  · simp only [if_true, eventsOf_notify o hn, true_and]

/-- Clearing leads to the empty set. -/
theorem replays_clear {lt : α → α → Bool} {s : VSet α} (hi : Inv lt s) (b : Bool) (h : b = true ∨ s.isEmpty = true) :
    Replays lt (· ∈ s.forward) (if b then [.clearing] else []) (· ∈ ([] : List α)) := by
  cases b with
  | true => exact ⟨trivial, fun a => by simp [applyEvent]⟩
  | false =>
    have h : s.isEmpty = true := by simpa using h
    rw [isEmpty_iff hi] at h
    intro a
    rw [List.isEmpty_iff.1 h]

theorem follows_nil {lt : α → α → Bool} {a : Nat} {items : List (Item α)} {T : List α} (h : Follows lt a items T) :
    Follows lt a (items ++ []) T := by rw [List.append_nil]; exact h

theorem set_same (w : World α) (i : Nat) (o : Option (OSet α)) : w.set i o i = o := by simp [World.set]
theorem set_other (w : World α) {i k : Nat} (o : Option (OSet α)) (h : k ≠ i) : w.set i o k = w k := by
  simp [World.set, h]

/-- The case of an operation that changes the objects `i` only. -/
theorem WInv.one {lt : α → α → Bool} {st : State α} {items : List (Item α)} (h : WInv lt st items) {i : Nat}
    {o' : OSet α} {ns : List Nat} {notes : List (Note α)} {pre : List (Item α)}
    (hi : i ∈ ns ∨ ∃ o, st.sets i = some o) (hinv : Inv lt o'.set) (hn : o'.subs.Nodup)
    (hd : ∀ a ∈ o'.subs, ∀ j p, st.sets j = some p → a ∈ p.subs → j = i)
    (hf : ∀ a ∈ o'.subs, Follows lt a (items ++ (pre ++ notes.map .note)) o'.set.forward)
    (hother : ∀ j p a, j ≠ i → st.sets j = some p → a ∈ p.subs → eventsOf a notes = [])
    (hpre : ∀ j p a, j ≠ i → st.sets j = some p → a ∈ p.subs → knows a (items ++ pre) = knows a items) :
    WInv lt ⟨st.sets.set i (some o'), ns ++ st.names⟩ (items ++ (pre ++ notes.map .note)) := by
  have look : ∀ k q, (st.sets.set i (some o')) k = some q →
      (k = i ∧ q = o') ∨ (k ≠ i ∧ st.sets k = some q) := by
    intro k q hk
    by_cases hki : k = i
    · subst hki; rw [set_same] at hk; cases hk; exact Or.inl ⟨rfl, rfl⟩
    · rw [set_other _ _ hki] at hk; exact Or.inr ⟨hki, hk⟩
  refine ⟨?_, ?_, ?_, ?_, ?_⟩
  · intro k q hk
    rcases look k q hk with ⟨_, rfl⟩ | ⟨_, hk⟩
    · exact hinv
    · exact h.inv k q hk
  · intro k q hk
    rcases look k q hk with ⟨_, rfl⟩ | ⟨_, hk⟩
    · exact hn
    · exact h.nodup k q hk
  · intro j k p q a hj hk hp hq
    rcases look j p hj with ⟨j1, rfl⟩ | ⟨j1, j2⟩ <;> rcases look k q hk with ⟨k1, rfl⟩ | ⟨k1, k2⟩
    · rw [j1, k1]
    · exact (k1 (hd a hp k q k2 hq)).elim
    · exact (j1 (hd a hq j p j2 hp)).elim
    · exact h.disj j k p q a j2 k2 hp hq
  · intro k q hk
    rcases look k q hk with ⟨k1, _⟩ | ⟨_, k2⟩
    · subst k1
      rcases hi with hi | ⟨o, ho⟩
      · exact List.mem_append.2 (Or.inl hi)
      · exact List.mem_append.2 (Or.inr (h.names k o ho))
    · exact List.mem_append.2 (Or.inr (h.names k q k2))
  · intro k q a hk ha
    rcases look k q hk with ⟨k1, rfl⟩ | ⟨k1, k2⟩
    · exact hf a ha
    · obtain ⟨S, es, h1, h2⟩ := h.follows k q a k2 ha
      refine ⟨S, es, ?_, h2⟩
      rw [← List.append_assoc, knows_append_notes, hpre k q a k1 k2 ha, h1, hother k q a k1 k2 ha]
      simp

theorem disj_of_none {lt : α → α → Bool} {st : State α} {items : List (Item α)} (h : WInv lt st items) {i j : Nat}
    {o p : OSet α} (hi : st.sets i = some o) (hj : st.sets j = some p) (hne : j ≠ i) {a : Nat} (ha : a ∈ p.subs) :
    a ∉ o.subs := fun ha' => hne (h.disj i j o p a hi hj ha' ha).symm

/-- An operation that changes two different existing or new objects. -/
theorem WInv.two {lt : α → α → Bool} {st : State α} {items : List (Item α)} (h : WInv lt st items) {i j : Nat}
    {o' p' : OSet α} {ns : List Nat} {notes : List (Note α)} (hij : i ≠ j)
    (hi : i ∈ ns ∨ ∃ o, st.sets i = some o) (hj : ∃ o, st.sets j = some o)
    (hinv : Inv lt o'.set) (hinv' : Inv lt p'.set) (hn : o'.subs.Nodup) (hn' : p'.subs.Nodup)
    (hd : ∀ a ∈ o'.subs, ∀ k q, st.sets k = some q → a ∈ q.subs → k = i ∨ k = j)
    (hd' : ∀ a ∈ p'.subs, ∀ k q, st.sets k = some q → a ∈ q.subs → k = i ∨ k = j)
    (hdd : ∀ a ∈ o'.subs, a ∉ p'.subs)
    (hf : ∀ a ∈ o'.subs, Follows lt a (items ++ notes.map .note) o'.set.forward)
    (hf' : ∀ a ∈ p'.subs, Follows lt a (items ++ notes.map .note) p'.set.forward)
    (hother : ∀ k p a, k ≠ i → k ≠ j → st.sets k = some p → a ∈ p.subs → eventsOf a notes = []) :
    WInv lt ⟨(st.sets.set i (some o')).set j (some p'), ns ++ st.names⟩ (items ++ notes.map .note) := by
  have look : ∀ k q, ((st.sets.set i (some o')).set j (some p')) k = some q →
      (k = j ∧ q = p') ∨ (k = i ∧ k ≠ j ∧ q = o') ∨ (k ≠ i ∧ k ≠ j ∧ st.sets k = some q) := by
    intro k q hk
    by_cases hkj : k = j
    · subst hkj; rw [set_same] at hk; cases hk; exact Or.inl ⟨rfl, rfl⟩
    · rw [set_other _ _ hkj] at hk
      by_cases hki : k = i
      · subst hki; rw [set_same] at hk; cases hk; exact Or.inr (Or.inl ⟨rfl, hkj, rfl⟩)
      · rw [set_other _ _ hki] at hk; exact Or.inr (Or.inr ⟨hki, hkj, hk⟩)
  refine ⟨?_, ?_, ?_, ?_, ?_⟩
  · intro k q hk
    rcases look k q hk with ⟨_, rfl⟩ | ⟨_, _, rfl⟩ | ⟨_, _, hk⟩
    · exact hinv'
    · exact hinv
    · exact h.inv k q hk
  · intro k q hk
    rcases look k q hk with ⟨_, rfl⟩ | ⟨_, _, rfl⟩ | ⟨_, _, hk⟩
    · exact hn'
    · exact hn
    · exact h.nodup k q hk
  · intro k l q r a hk hl hq hr
    rcases look k q hk with ⟨k1, rfl⟩ | ⟨k1, k2, rfl⟩ | ⟨k1, k2, k3⟩ <;>
      rcases look l r hl with ⟨l1, rfl⟩ | ⟨l1, l2, rfl⟩ | ⟨l1, l2, l3⟩
    · rw [k1, l1]
    · exact (hdd a hr hq).elim
    · rcases hd' a hq l r l3 hr with h1 | h1 <;> contradiction
    · exact (hdd a hq hr).elim
    · rw [k1, l1]
    · rcases hd a hq l r l3 hr with h1 | h1 <;> contradiction
    · rcases hd' a hr k q k3 hq with h1 | h1 <;> contradiction
    · rcases hd a hr k q k3 hq with h1 | h1 <;> contradiction
    · exact h.disj k l q r a k3 l3 hq hr
  · intro k q hk
    rcases look k q hk with ⟨k1, _⟩ | ⟨k1, _, _⟩ | ⟨_, _, k3⟩
    · subst k1; obtain ⟨o, ho⟩ := hj; exact List.mem_append.2 (Or.inr (h.names k o ho))
    · subst k1
      rcases hi with hi | ⟨o, ho⟩
      · exact List.mem_append.2 (Or.inl hi)
      · exact List.mem_append.2 (Or.inr (h.names k o ho))
    · exact List.mem_append.2 (Or.inr (h.names k q k3))
  · intro k q a hk ha
    rcases look k q hk with ⟨k1, rfl⟩ | ⟨k1, _, rfl⟩ | ⟨k1, k2, k3⟩
    · exact hf' a ha
    · exact hf a ha
    · obtain ⟨S, es, h1, h2⟩ := h.follows k q a k3 ha
      refine ⟨S, es, ?_, h2⟩
      rw [knows_append_notes, h1, hother k q a k1 k2 k3 ha]
      simp

theorem knows_started_other {a b : Nat} (items : List (Item α)) (S : List α) (h : b ≠ a) :
    knows a (items ++ [Item.started b S]) = knows a items := by
  simp [knows, List.foldl_append, knows1, h]

theorem WInv.step {lt : α → α → Bool} (hlt : StrictWeak lt) {st st' : State α} {items items' : List (Item α)}
    {op : Op α} {out : Spec.Out α} (h : WInv lt st items) (hs : st.step lt op = .ok (st', out, items')) :
    WInv lt st' (items ++ items') := by
  simp only [State.step, Res.bind_eq_ok, Prod.exists] at hs
  obtain ⟨w, out', its, hs, he⟩ := hs
  simp only [Res.ok.injEq, Prod.mk.injEq] at he
  obtain ⟨rfl, rfl, rfl⟩ := he
  cases op with
  | create i =>
    simp only [ObservableSet.step] at hs
    split at hs
    · cases hs
    · simp only [Res.ok.injEq, Prod.mk.injEq] at hs
      obtain ⟨rfl, _, rfl⟩ := hs
      exact h.one (o' := OSet.empty) (ns := [i]) (notes := []) (pre := []) (Or.inl (by simp)) (Inv.empty lt)
        List.nodup_nil (by simp [OSet.empty]) (by simp [OSet.empty]) (by simp [eventsOf]) (by simp)
  | createFrom i vs =>
    simp only [ObservableSet.step] at hs
    split at hs
    · cases hs
    · simp only [Res.bind_eq_ok] at hs
      obtain ⟨s, hs1, hs⟩ := hs
      simp only [Res.ok.injEq, Prod.mk.injEq] at hs
      obtain ⟨rfl, _, rfl⟩ := hs
      exact h.one (o' := ⟨s, []⟩) (ns := [i]) (notes := []) (pre := []) (Or.inl (by simp))
        (insertAll_inv hlt vs (Inv.empty lt) hs1)
        List.nodup_nil (by simp) (by simp) (by simp [eventsOf]) (by simp)
  | on i op =>
    simp only [ObservableSet.step] at hs
    cases ho : st.sets i with
    | none => simp only [ho] at hs; cases hs
    | some o =>
      simp only [ho, Res.bind_eq_ok, Prod.exists] at hs
      obtain ⟨o', out1, notes, k1, hs⟩ := hs
      simp only [Res.ok.injEq, Prod.mk.injEq] at hs
      obtain ⟨rfl, _, rfl⟩ := hs
      have hi := h.inv i o ho
      have hn := h.nodup i o ho
      obtain ⟨q1, q2, q3, q4⟩ := oset_step_inv hlt hi k1
      have hr := expected_replays hlt (by rw [hi.forward]; exact hi.vals_sorted) q1
      refine h.one (o' := o') (ns := []) (notes := notes) (pre := []) (Or.inr ⟨o, ho⟩) q2 (by rw [q3]; exact hn)
        ?_ ?_ ?_ (by simp)
      · intro a ha j p hj hp
        rw [q3] at ha
        exact h.disj j i p o a hj ho hp ha
      · intro a ha
        rw [q3] at ha
        refine (h.follows i o a ho ha).notes ?_
        rw [q4, eventsOf_deliver a o.subs hn, if_pos ha]
        exact hr
      · intro j p a hj hp ha
        rw [q4, eventsOf_deliver a o.subs hn, if_neg (disj_of_none h ho hp hj ha)]
  | subscribe i a =>
    simp only [ObservableSet.step] at hs
    cases ho : st.sets i with
    | none => simp only [ho] at hs; cases hs
    | some o =>
      simp only [ho] at hs
      split at hs
      · cases hs
      · rename_i hsub
        simp only [Res.ok.injEq, Prod.mk.injEq] at hs
        obtain ⟨rfl, _, rfl⟩ := hs
        have hfree : ∀ j p, st.sets j = some p → a ∉ p.subs := by
          intro j p hj hp
          exact hsub ((subscribed_iff h a).2 ⟨j, p, hj, hp⟩)
        refine h.one (o' := { o with subs := o.subs ++ [a] }) (ns := []) (notes := [])
          (pre := [.started a o.set.forward]) (Or.inr ⟨o, ho⟩) (h.inv i o ho) ?_ ?_ ?_ (by simp [eventsOf]) ?_
        · rw [List.nodup_append]
          exact ⟨h.nodup i o ho, by simp, by
            intro x hx y hy; rw [List.mem_singleton] at hy; subst hy
            rintro rfl; exact hfree i o ho hx⟩
        · intro b hb j p hj hp
          rcases List.mem_append.1 hb with hb | hb
          · exact h.disj j i p o b hj ho hp hb
          · rw [List.mem_singleton] at hb; subst hb; exact (hfree j p hj hp).elim
        · intro b hb
          rcases List.mem_append.1 hb with hb | hb
          · obtain ⟨S, es, h1, h2⟩ := h.follows i o b ho hb
            refine ⟨S, es, ?_, h2⟩
            have : a ≠ b := by rintro rfl; exact hfree i o ho hb
            simp only [List.map_nil, List.append_nil]
            rw [knows_started_other items _ this, h1]
          · rw [List.mem_singleton] at hb; subst hb
            refine ⟨o.set.forward, [], ?_, Replays.refl _ _, ?_⟩
            rotate_left
            · rw [(h.inv i o ho).forward]; exact (h.inv i o ho).vals_sorted
            simp [knows, List.foldl_append, knows1]
        · intro j p b hj hp hb
          apply knows_started_other
          rintro rfl
          exact hfree j p hp hb
  | unsubscribe i a =>
    simp only [ObservableSet.step] at hs
    cases ho : st.sets i with
    | none => simp only [ho] at hs; cases hs
    | some o =>
      simp only [ho] at hs
      split at hs
      · simp only [Res.ok.injEq, Prod.mk.injEq] at hs
        obtain ⟨rfl, _, rfl⟩ := hs
        refine h.one (o' := { o with subs := o.subs.filter (· ≠ a) }) (ns := []) (notes := [])
          (pre := []) (Or.inr ⟨o, ho⟩) (h.inv i o ho) ((h.nodup i o ho).sublist List.filter_sublist) ?_ ?_
          (by simp [eventsOf]) (by simp)
        · intro b hb j p hj hp
          exact h.disj j i p o b hj ho hp (List.mem_filter.1 hb).1
        · intro b hb
          simpa using h.follows i o b ho (List.mem_filter.1 hb).1
      · cases hs
  | moveConstruct i j =>
    simp only [ObservableSet.step] at hs
    cases hi : st.sets i with
    | some o => simp only [hi] at hs; cases hs
    | none =>
      cases hj : st.sets j with
      | none => simp only [hi, hj] at hs; cases hs
      | some p =>
        simp only [hi, hj] at hs
        simp only [Res.ok.injEq, Prod.mk.injEq] at hs
        obtain ⟨rfl, _, rfl⟩ := hs
        have hij : i ≠ j := by rintro rfl; rw [hi] at hj; cases hj
        have hinv := h.inv j p hj
        refine h.two (ns := [i]) (notes := []) hij (Or.inl (by simp)) ⟨p, hj⟩ (moveAssign_inv hinv)
          (moveAssign_inv2 (a := VSet.empty)) (h.nodup j p hj) List.nodup_nil ?_ (by simp) (by simp) ?_ (by simp) (by simp [eventsOf])
        · intro a ha k q hk hq
          exact Or.inr (h.disj k j q p a hk hj hq ha)
        · intro a ha
          have := h.follows j p a hj ha
          rw [List.map_nil, List.append_nil]
          exact this
  | moveAssign i j =>
    simp only [ObservableSet.step] at hs
    cases hi : st.sets i with
    | none => simp only [hi] at hs; cases hs
    | some o =>
      cases hj : st.sets j with
      | none => simp only [hi, hj] at hs; cases hs
      | some p =>
        simp only [hi, hj] at hs
        split at hs
        · rename_i hij
          subst hij
          simp only [Res.ok.injEq, Prod.mk.injEq, selfMoveAssign] at hs
          obtain ⟨rfl, _, rfl⟩ := hs
          refine h.one (ns := []) (pre := []) (Or.inr ⟨o, hi⟩) (clear_ok o.set).1
            List.nodup_nil (by simp) (by simp) ?_ (by simp)
          intro k q a hk hq ha
          rw [eventsOf_if o (h.nodup i o hi), if_neg]
          rintro ⟨_, ha'⟩
          exact hk (h.disj k i q o a hq hi ha ha')
        · rename_i hij
          simp only [Res.ok.injEq, Prod.mk.injEq, moveAssign] at hs
          obtain ⟨rfl, _, rfl⟩ := hs
          have hinv := h.inv j p hj
          refine h.two (ns := []) hij (Or.inr ⟨o, hi⟩) ⟨p, hj⟩ (moveAssign_inv hinv)
            (moveAssign_inv2 (a := o.set)) (h.nodup j p hj) List.nodup_nil ?_ (by simp) (by simp) ?_ (by simp) ?_
          · intro a ha k q hk hq
            exact Or.inr (h.disj k j q p a hk hj hq ha)
          · intro a ha
            refine (h.follows j p a hj ha).notes ?_
            rw [eventsOf_if o (h.nodup i o hi), if_neg]
            · exact Replays.refl _ _
            · rintro ⟨_, ha'⟩
              exact hij (h.disj i j o p a hi hj ha' ha)
          · intro k q a hki hkj hk ha
            rw [eventsOf_if o (h.nodup i o hi), if_neg]
            rintro ⟨_, ha'⟩
            exact hki (h.disj k i q o a hk hi ha ha')
  | migrate i j =>
    simp only [ObservableSet.step] at hs
    cases hi : st.sets i with
    | none => simp only [hi] at hs; cases hs
    | some o =>
      cases hj : st.sets j with
      | none => simp only [hi, hj] at hs; cases hs
      | some p =>
        simp only [hi, hj] at hs
        have hno := h.nodup i o hi
        have hnp := h.nodup j p hj
        have hinvo := h.inv i o hi
        have hinvp := h.inv j p hj
        -- the first step: clear
        have hc1 : o.clear.1.subs = o.subs := by simp only [OSet.clear]; split <;> rfl
        have hc2 : ∀ a, eventsOf a o.clear.2 = if (!o.set.isEmpty) = true ∧ a ∈ o.subs then [.clearing] else [] := by
          intro a
          have : o.clear.2 = if !o.set.isEmpty then notify o .clearing else [] := by
            simp only [OSet.clear]; split <;> rfl
          rw [this, eventsOf_if o hno]
        have hrc : ∀ a, a ∈ o.subs → Replays lt (· ∈ o.set.forward) (eventsOf a o.clear.2) (· ∈ ([] : List α)) := by
          intro a ha
          rw [hc2]
          have := replays_clear hinvo (!o.set.isEmpty) (by cases o.set.isEmpty <;> simp)
          simpa [ha] using this
        split at hs
        · rename_i hij
          subst hij
          rw [hi] at hj; cases hj
          simp only [Res.ok.injEq, Prod.mk.injEq, selfMigrate] at hs
          obtain ⟨rfl, _, rfl⟩ := hs
          refine h.one (ns := []) (pre := []) (Or.inr ⟨o, hi⟩) (clear_ok _).1 (by rw [hc1]; exact hno) ?_ ?_ ?_ (by simp)
          · intro a ha k q hk hq
            simp only [hc1] at ha
            exact h.disj k i q o a hk hi hq ha
          · intro a ha
            simp only [hc1] at ha
            refine (h.follows i o a hi ha).notes ?_
            rw [eventsOf_append, eventsOf_append, eventsOf_notify _ (by rw [hc1]; exact hno), hc1, if_pos ha]
            refine ((hrc a ha).append (es' := [.clearing]) (U := (· ∈ ([] : List α))) ⟨trivial, fun x => by simp [applyEvent]⟩).append ?_
            simp [VSet.forward, VSet.clear, VSet.selfMoveAssign, eventsOf, Replays]
          · intro k q a hk hq ha
            have ha' : a ∉ o.subs := fun ha' => hk (h.disj k i q o a hq hi ha ha')
            rw [eventsOf_append, eventsOf_append, eventsOf_notify _ (by rw [hc1]; exact hno), hc1, if_neg ha', hc2]
            simp [ha', VSet.forward, VSet.clear, VSet.selfMoveAssign, eventsOf]
        · rename_i hij
          simp only [Res.ok.injEq, Prod.mk.injEq, migrate] at hs
          obtain ⟨rfl, _, rfl⟩ := hs
          have hev : ∀ a, eventsOf a (o.clear.2 ++ notify p .clearing ++
              (((o.clear.1.set.moveAssign p.set).1.forward).map (fun v => notify
                { o.clear.1 with set := (o.clear.1.set.moveAssign p.set).1 } (.added v))).flatten) =
              (if (!o.set.isEmpty) = true ∧ a ∈ o.subs then [.clearing] else []) ++
              (if a ∈ p.subs then [.clearing] else []) ++
              (if a ∈ o.subs then (p.set.forward).map .added else []) := by
            intro a
            rw [eventsOf_append, eventsOf_append, hc2, eventsOf_notify p hnp, eventsOf_notifyAll _ (by rw [hc1]; exact hno)]
            simp only [hc1]
            rfl
          refine h.two (ns := []) hij (Or.inr ⟨o, hi⟩) ⟨p, hj⟩ (moveAssign_inv hinvp) (clear_ok _).1
            (by rw [hc1]; exact hno) hnp ?_ ?_ ?_ ?_ ?_ ?_
          · intro a ha k q hk hq
            simp only [hc1] at ha
            exact Or.inl (h.disj k i q o a hk hi hq ha)
          · intro a ha k q hk hq
            exact Or.inr (h.disj k j q p a hk hj hq ha)
          · intro a ha ha'
            simp only [hc1] at ha
            exact hij (h.disj i j o p a hi hj ha ha')
          · intro a ha
            simp only [hc1] at ha
            have hnp' : a ∉ p.subs := fun ha' => hij (h.disj i j o p a hi hj ha ha')
            refine (h.follows i o a hi ha).notes ?_
            rw [hev, if_neg hnp', if_pos ha, List.append_nil]
            have := hrc a ha
            rw [hc2] at this
            refine this.append ?_
            refine Replays.congr (fun _ => Iff.rfl) ?_ (replays_sorted (lt := lt) p.set.forward (S := (· ∈ ([] : List α)))
              (by simp) (by rw [hinvp.forward]; exact hinvp.vals_sorted))
            intro x
            simp only [List.not_mem_nil, false_or]
            exact Iff.rfl
          · intro a ha
            have hno' : a ∉ o.subs := fun ha' => hij (h.disj i j o p a hi hj ha' ha)
            refine (h.follows j p a hj ha).notes ?_
            rw [hev, if_pos ha, if_neg (by simp [hno']), if_neg hno']
            exact ⟨trivial, fun x => by simp [applyEvent, VSet.forward, VSet.clear]⟩
          · intro k q a hki hkj hk ha
            have h1 : a ∉ o.subs := fun ha' => hki (h.disj k i q o a hk hi ha ha')
            have h2 : a ∉ p.subs := fun ha' => hkj (h.disj k j q p a hk hj ha ha')
            rw [hev]
            simp [h1, h2]
  | destroy i =>
    simp only [ObservableSet.step] at hs
    cases ho : st.sets i with
    | none => simp only [ho] at hs; cases hs
    | some o =>
      simp only [ho] at hs
      simp only [Res.ok.injEq, Prod.mk.injEq] at hs
      obtain ⟨rfl, _, rfl⟩ := hs
      have look : ∀ k q, (st.sets.set i none) k = some q → k ≠ i ∧ st.sets k = some q := by
        intro k q hk
        by_cases hki : k = i
        · subst hki; rw [set_same] at hk; cases hk
        · rw [set_other _ _ hki] at hk; exact ⟨hki, hk⟩
      refine ⟨?_, ?_, ?_, ?_, ?_⟩
      · intro k q hk; exact h.inv k q (look k q hk).2
      · intro k q hk; exact h.nodup k q (look k q hk).2
      · intro k l q r a hk hl; exact h.disj k l q r a (look k q hk).2 (look l r hl).2
      · intro k q hk; exact List.mem_append.2 (Or.inr (h.names k q (look k q hk).2))
      · intro k q a hk ha
        obtain ⟨h1, h2⟩ := look k q hk
        refine (h.follows k q a h2 ha).notes ?_
        rw [eventsOf_if o (h.nodup i o ho), if_neg]
        · exact Replays.refl _ _
        · rintro ⟨_, ha'⟩
          exact h1 (h.disj k i q o a h2 ho ha ha')

theorem WInv.run {lt : α → α → Bool} (hlt : StrictWeak lt) : ∀ (ops : List (Op α)) {st st' : State α}
    {items items' : List (Item α)}, WInv lt st items → st.run lt ops = .ok (st', items') →
    WInv lt st' (items ++ items') := by
  intro ops
  induction ops with
  | nil =>
    intro st st' items items' h hr
    simp only [State.run, Res.ok.injEq, Prod.mk.injEq] at hr
    obtain ⟨rfl, rfl⟩ := hr
    simpa using h
  | cons op ops ih =>
    intro st st' items items' h hr
    simp only [State.run, Res.bind_eq_ok, Prod.exists] at hr
    obtain ⟨st1, out, it1, h1, st2, it2, h2, h3⟩ := hr
    simp only [Res.ok.injEq, Prod.mk.injEq] at h3
    obtain ⟨rfl, rfl⟩ := h3
    rw [← List.append_assoc]
    exact ih (h.step hlt h1) h2

theorem WInv.init (lt : α → α → Bool) : WInv lt (State.init : State α) [] :=
  ⟨by simp [State.init], by simp [State.init], by simp [State.init], by simp [State.init], by simp [State.init]⟩

end Verif.ObservableSet
