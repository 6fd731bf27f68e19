import Verif.VectorSet.Props
import Verif.VectorSet.ChangeModel
import Verif.Compare.Props

/-!
# C169: an element of a `vector_set` may be changed through an iterator, if `position_changed` is asked
-/

namespace Verif.VectorSet

open Spec

variable {α : Type}

theorem change_id (p : Nat) (v : α) (e : Elem α) : (e.change p v).id = e.id := by
  unfold Elem.change; split <;> rfl

theorem toL_change (p : Nat) (v : α) (t : Tree α) : toL (t.change p v) = (toL t).map (Elem.change p v) := by
  induction t with
  | nil => rfl
  | node c n l e r ihl ihr => simp [Tree.change, toL, ihl, ihr]

theorem cntOK_change (p : Nat) (v : α) (t : Tree α) (h : CntOK t) : CntOK (t.change p v) := by
  induction t with
  | nil => trivial
  | node c n l e r ihl ihr =>
    obtain ⟨h1, h2, h3⟩ := h
    exact ⟨by rw [toL_change, toL_change, List.length_map, List.length_map, h1], ihl h2, ihr h3⟩

theorem blackRoot_change (p : Nat) (v : α) (t : Tree α) (h : t = .nil ∨ BlackRoot t) :
    t.change p v = .nil ∨ BlackRoot (t.change p v) := by
  cases t with
  | nil => exact Or.inl rfl
  | node c n l e r =>
    rcases h with h | h
    · cases h
    · right; cases c with
      | red => exact h.elim
      | black => trivial

/-- Everything but the order. -/
theorem change_inv {lt lt' : α → α → Bool} {s : VSet α} (hi : Inv lt s) (p : Nat) (v : α)
    (hs : Sorted lt' ((toL s.root).map (Elem.change p v))) : Inv lt' (s.change p v) where
  cnt := cntOK_change p v _ hi.cnt
  black := blackRoot_change p v _ hi.black
  list := by simp only [VSet.change, toL_change, hi.list]
  uniq := by
    simp only [VSet.change, toL_change, Uniq, List.pairwise_map, change_id]
    exact hi.uniq
  fresh := by
    intro a ha
    simp only [VSet.change, toL_change, List.mem_map] at ha
    obtain ⟨b, hb, rfl⟩ := ha
    rw [change_id]
    exact hi.fresh b hb
  sorted := by simpa only [VSet.change, toL_change] using hs

theorem map_change {X Y : List (Elem α)} {e : Elem α} (hu : Uniq (X ++ e :: Y)) (v : α) :
    (X ++ e :: Y).map (Elem.change e.id v) = X ++ ⟨e.id, v⟩ :: Y := by
  rw [Uniq, List.pairwise_append] at hu
  obtain ⟨_, h2, h3⟩ := hu
  rw [List.pairwise_cons] at h2
  have hx : X.map (Elem.change e.id v) = X := by
    conv => rhs; rw [← List.map_id X]
    exact List.map_congr_left fun a ha => by simp [Elem.change, h3 a ha e (by simp)]
  have hy : Y.map (Elem.change e.id v) = Y := by
    conv => rhs; rw [← List.map_id Y]
    exact List.map_congr_left fun a ha => by simp [Elem.change, (h2.1 a ha).symm]
  rw [List.map_append, List.map_cons, hx, hy]
  simp [Elem.change]

theorem sublist_mid {X Y : List α} {e : α} : (X ++ Y).Sublist (X ++ e :: Y) :=
  List.Sublist.append_left (List.Sublist.cons _ (List.Sublist.refl _)) _

/-- A changed element can be erased through its iterator, whatever it was changed to. -/
theorem change_erase {lt : α → α → Bool} {s : VSet α} (hi : Inv lt s) {X Y : List (Elem α)} {e : Elem α} (v : α)
    (h : toL s.root = X ++ e :: Y) :
    ∃ s', (s.change e.id v).eraseNode e.id = .ok s' ∧ toL s'.root = X ++ Y ∧ Inv lt s' := by
  have hu := hi.uniq
  rw [h] at hu
  have hm := map_change hu v
  have hi' : Inv (fun _ _ => true) (s.change e.id v) := change_inv hi e.id v (by
    rw [Sorted, List.pairwise_iff_forall_sublist]; intros; rfl)
  have hl : toL (s.change e.id v).root = X ++ ⟨e.id, v⟩ :: Y := by
    simp only [VSet.change, toL_change, h, hm]
  obtain ⟨s', k1, k2, k3, _⟩ := eraseNode_ok hi' hl
  refine ⟨s', k1, k2, ⟨k3.cnt, k3.black, k3.list, k3.uniq, k3.fresh, ?_⟩⟩
  have hs := hi.sorted
  rw [h] at hs
  rw [k2]
  exact List.Pairwise.sublist sublist_mid hs

theorem filter_below {lt : α → α → Bool} (hlt : StrictWeak lt) {X Y : List α} {v : α} (hx : ∀ a ∈ X, lt a v = true)
    (hy : ∀ a ∈ Y, lt v a = true) :
    (X ++ Y).filter (fun a => lt a v) = X ∧ (X ++ Y).filter (fun a => lt v a) = Y ∧
      (X ++ Y).any (fun a => eqv lt a v) = false := by
  refine ⟨?_, ?_, ?_⟩
  · rw [List.filter_append, List.filter_eq_self.2 hx, List.filter_eq_nil_iff.2, List.append_nil]
    intro a ha; rw [hlt.asymm (hy a ha)]; simp
  · rw [List.filter_append, List.filter_eq_self.2 hy, List.filter_eq_nil_iff.2, List.nil_append]
    intro a ha; rw [hlt.asymm (hx a ha)]; simp
  · rw [List.any_eq_false]
    intro a ha
    rcases List.mem_append.1 ha with ha | ha
    · simp [eqv, hx a ha]
    · simp [eqv, hy a ha]

theorem insert_spec {lt : α → α → Bool} {R : List α} {v : α} : ∃ o, Spec.step lt R (.insert v) =
    .ok (if R.any (fun a => eqv lt a v) then R else R.filter (fun a => lt a v) ++ v :: R.filter (fun a => lt v a), o) := by
  simp only [Spec.step]
  cases hf : R.find? (fun a => eqv lt a v) with
  | some a =>
    have : R.any (fun a => eqv lt a v) = true := by
      rw [List.any_eq_true]
      exact ⟨a, List.mem_of_find?_eq_some hf, List.find?_some (p := fun a => eqv lt a v) hf⟩
    exact ⟨_, by rw [if_pos this]⟩
  | none =>
    have : R.any (fun a => eqv lt a v) = false := by
      rw [List.any_eq_false]
      exact fun a ha => List.find?_eq_none.1 hf a ha
    exact ⟨_, by simp only [this, Bool.false_eq_true, if_false]; rfl⟩

theorem ustep_refines {lt : α → α → Bool} (hlt : StrictWeak lt) {s : VSet α} (hi : Inv lt s) (i : Nat) (v : α)
    (h : i < (vals s).length) : ∃ s', s.update lt i v = .ok s' ∧ Inv lt s' ∧
      Spec.ustep lt (vals s) (.update i v) = .ok (vals s', .unit) := by
  have hlen : i < (toL s.root).length := by simpa [vals] using h
  obtain ⟨X, e, Y, hxy, hX⟩ : ∃ X e Y, toL s.root = X ++ e :: Y ∧ X.length = i := by
    refine ⟨(toL s.root).take i, (toL s.root)[i], (toL s.root).drop (i + 1), ?_, by simp; omega⟩
    rw [List.getElem_cons_drop, List.take_append_drop]
  have hget : s.list[i]? = some e := by rw [hi.list, hxy, ← hX]; simp
  have hu := hi.uniq
  rw [hxy] at hu
  have hm := map_change hu v
  have hf : (s.change e.id v).forward = X.map Elem.val ++ v :: Y.map Elem.val := by
    simp only [VSet.forward, VSet.change, hi.list, hxy, hm]
    simp
  have hv : vals s = X.map Elem.val ++ e.val :: Y.map Elem.val := by simp [vals, hxy]
  have hsorted := hi.vals_sorted
  rw [hv] at hsorted
  obtain ⟨b, hb1, hb2⟩ := Compare.c49_position_changed lt hlt (X.map Elem.val) (Y.map Elem.val) e.val v hsorted
  rw [List.length_map, hX] at hb1
  have hspec : Spec.ustep lt (vals s) (.update i v) = .ok (if (X.map Elem.val ++ Y.map Elem.val).any (fun a => eqv lt a v)
      then X.map Elem.val ++ Y.map Elem.val
      else (X.map Elem.val ++ Y.map Elem.val).filter (fun a => lt a v) ++
        v :: (X.map Elem.val ++ Y.map Elem.val).filter (fun a => lt v a), .unit) := by
    have he : (vals s).eraseIdx i = X.map Elem.val ++ Y.map Elem.val := by
      rw [hv, List.eraseIdx_append_of_length_le (by simp [hX])]
      simp [hX]
    simp only [Spec.ustep, if_pos h, he]
  simp only [VSet.update, hget, hf, hb1, Res.ok_bind]
  cases b with
  | false =>
    have hst := hb2.1 rfl
    have hi' : Inv lt (s.change e.id v) := change_inv hi e.id v (by
      rw [hxy, hm, Sorted]
      have : ((X ++ (⟨e.id, v⟩ : Elem α) :: Y).map Elem.val).Pairwise (fun a b => lt a b = true) := by
        simpa [Compare.Strict] using hst
      rwa [List.pairwise_map] at this)
    refine ⟨_, by simp, hi', ?_⟩
    obtain ⟨_, h1, h2⟩ := (Compare.strict_mid _ _ _).1 hst
    obtain ⟨f1, f2, f3⟩ := filter_below hlt h1 h2
    rw [hspec, f3, f1, f2, ← hi'.forward, hf]
    simp
  | true =>
    obtain ⟨s2, k1, k2, k3⟩ := change_erase hi v hxy
    have hv2 : vals s2 = X.map Elem.val ++ Y.map Elem.val := by simp [vals, k2]
    obtain ⟨o, ho⟩ := insert_spec (lt := lt) (R := vals s2) (v := v)
    obtain ⟨s3, j1, j2, j3⟩ := step_refines hlt k3 (.insert v) ho
    simp only [VSet.step] at j1
    obtain ⟨⟨s3', e3, n3⟩, j4, j5⟩ := Res.bind_eq_ok.1 j1
    simp only [Res.ok.injEq, Prod.mk.injEq] at j5
    refine ⟨s3, by simp only [if_true, k1, Res.ok_bind, j4, j5.1], j2, ?_⟩
    rw [hspec, j3, hv2]

/-- **C169.**  For every strict weak order and every history of operations and of changes of elements through iterators,
where an element is erased and inserted again if `position_changed` says so, the set reports exactly what the
mathematical sorted set reports, and has the same elements; it is undefined exactly when a precondition is broken. -/
theorem c169_elements_may_be_changed {lt : α → α → Bool} (hlt : StrictWeak lt) (ops : List (UOp α)) :
    (do let (s, outs) ← VSet.empty.urun lt ops; .ok (s.forward, outs)) = Spec.urun lt [] ops := by
  have main : ∀ (ops : List (UOp α)) {s : VSet α}, Inv lt s →
      (do let (s', os) ← s.urun lt ops; .ok (s'.forward, os)) = Spec.urun lt s.forward ops := by
    intro ops
    induction ops with
    | nil => intro s hi; rfl
    | cons op ops ih =>
      intro s hi
      have cont : ∀ (s' : VSet α) (o : Out α), Inv lt s' → s.ustep lt op = .ok (s', o) →
          Spec.ustep lt s.forward op = .ok (s'.forward, o) →
          (do let (s', os) ← s.urun lt (op :: ops); .ok (s'.forward, os)) = Spec.urun lt s.forward (op :: ops) := by
        intro s' o hi' h1 h2
        simp only [VSet.urun, Spec.urun, h1, h2, Res.ok_bind]
        rw [← ih hi']
        cases s'.urun lt ops <;> rfl
      have bad : s.ustep lt op = .ub → Spec.ustep lt s.forward op = .ub →
          (do let (s', os) ← s.urun lt (op :: ops); .ok (s'.forward, os)) = Spec.urun lt s.forward (op :: ops) := by
        intro h1 h2
        simp only [VSet.urun, Spec.urun, h1, h2]
        rfl
      cases op with
      | op o =>
        have h := step_eq hlt hi o
        cases hm : s.step lt o with
        | ok r =>
          obtain ⟨s', out⟩ := r
          rw [hm] at h
          exact cont s' out (step_inv hlt hi hm) hm h.symm
        | throw e => rw [hm] at h; exact (spec_step_not_throw o e h.symm).elim
        | ub => rw [hm] at h; exact bad hm h.symm
      | update i v =>
        by_cases hl : i < (vals s).length
        · obtain ⟨s', k1, k2, k3⟩ := ustep_refines hlt hi i v hl
          refine cont s' .unit k2 (by simp only [VSet.ustep, k1, Res.ok_bind]) ?_
          rw [hi.forward, k3, k2.forward]
        · refine bad ?_ (by simp only [Spec.ustep, hi.forward, if_neg hl])
          have : s.list[i]? = none := by
            rw [hi.list, List.getElem?_eq_none_iff]; simpa [vals] using hl
          simp only [VSet.ustep, VSet.update, this]
          rfl
  exact main ops (Inv.empty lt)

example : Spec.urun (fun a b : Nat => decide (a < b)) []
    [.op (.insert 10), .op (.insert 20), .op (.insert 30), .update 1 25, .op (.find 25), .update 0 99, .op (.contains 10), .update 0 30, .op .size]
    = .ok ([30, 99], [.inserted 10 true, .inserted 20 true, .inserted 30 true, .unit, .iter (some 25), .unit, .bool false, .unit, .num 2]) := by decide

/-- Why `position_changed` has to be asked: 10 is changed to 99 in {10, 20, 30} and left where it is; the set does not
find 99 although it has it, takes another one, and then has both. -/
theorem c169_unasked_violated : ∃ s : VSet Nat, Reachable (fun a b => decide (a < b)) s ∧ s.forward = [10, 20, 30] ∧
    ∃ e, s.list[0]? = some e ∧ (s.change e.id 99).forward = [99, 20, 30] ∧
      (s.change e.id 99).contains (fun a => decide (99 < a)) (fun a => decide (a < 99)) = false ∧
      ∃ s' e', (s.change e.id 99).insert (fun a b => decide (a < b)) 99 = .ok (s', e', true) ∧ s'.forward = [99, 20, 30, 99] :=
  ⟨_, ⟨[.insert 10, .insert 20, .insert 30], _, rfl⟩, rfl, _, rfl, rfl, rfl, _, _, rfl, rfl⟩

end Verif.VectorSet
