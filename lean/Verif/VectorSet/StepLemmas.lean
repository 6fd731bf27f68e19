import Verif.VectorSet.Inv

/-! # Each operation of `vector_set` refines the operation of the sorted-set specification -/

namespace Verif.VectorSet

open Spec

variable {α : Type}

/-- The values in the set. -/
def vals (s : VSet α) : List α := (toL s.root).map Elem.val

theorem Inv.forward {lt : α → α → Bool} {s : VSet α} (h : Inv lt s) : s.forward = vals s := by
  simp only [VSet.forward, vals, h.list]

theorem Inv.vals_sorted {lt : α → α → Bool} {s : VSet α} (h : Inv lt s) :
    (vals s).Pairwise (fun a b => lt a b = true) := by
  rw [vals, List.pairwise_map]; exact h.sorted

/-- An element equivalent to the key splits a sorted sequence into the smaller and the greater elements. -/
theorem sorted_hit {lt : α → α → Bool} (hlt : StrictWeak lt) {X Y : List α} {w v : α}
    (hs : (X ++ w :: Y).Pairwise (fun a b => lt a b = true)) (h1 : lt v w = false) (h2 : lt w v = false) :
    (∀ a ∈ X, lt a v = true) ∧ (∀ b ∈ Y, lt v b = true) := by
  rw [List.pairwise_append, List.pairwise_cons] at hs
  obtain ⟨_, ⟨h3, _⟩, h4⟩ := hs
  exact ⟨fun a ha => hlt.lt_of_lt_of_eqv (h4 a ha w (by simp)) h2 h1,
    fun b hb => hlt.lt_of_eqv_of_lt h1 h2 (h3 b hb)⟩

theorem eqv_of_lt {lt : α → α → Bool} {a b : α} (h : lt a b = true) : eqv lt a b = false := by simp [eqv, h]
theorem eqv_of_gt {lt : α → α → Bool} {a b : α} (h : lt b a = true) : eqv lt a b = false := by simp [eqv, h]

theorem filter_all {p : α → Bool} (l : List α) (h : ∀ a ∈ l, p a = true) : l.filter p = l := List.filter_eq_self.2 h

theorem filter_none {p : α → Bool} (l : List α) (h : ∀ a ∈ l, p a = false) : l.filter p = [] :=
  List.filter_eq_nil_iff.2 (by intro a ha; simp [h a ha])

section Hit

variable {lt : α → α → Bool} {X Y : List α} {w v : α}

theorem hit_find (hX : ∀ a ∈ X, lt a v = true) (h1 : lt v w = false) (h2 : lt w v = false) :
    (X ++ w :: Y).find? (fun a => eqv lt a v) = some w := by
  rw [List.find?_append, List.find?_eq_none.2 (by intro a ha; simp [eqv_of_lt (hX a ha)])]
  simp [eqv, h1, h2]

theorem hit_any (h1 : lt v w = false) (h2 : lt w v = false) :
    (X ++ w :: Y).any (fun a => eqv lt a v) = true := by
  simp [eqv, h1, h2]

theorem hit_filter (hX : ∀ a ∈ X, lt a v = true) (hY : ∀ b ∈ Y, lt v b = true) (h1 : lt v w = false)
    (h2 : lt w v = false) : (X ++ w :: Y).filter (fun a => !eqv lt a v) = X ++ Y := by
  rw [List.filter_append, List.filter_cons, List.filter_eq_self.2 (by intro a ha; simp [eqv_of_lt (hX a ha)]),
    filter_all Y (by intro a ha; simp [eqv_of_gt (hY a ha)])]
  simp [eqv, h1, h2]

theorem hit_lower (hX : ∀ a ∈ X, lt a v = true) (h2 : lt w v = false) :
    (X ++ w :: Y).find? (fun a => !lt a v) = some w := by
  rw [List.find?_append, List.find?_eq_none.2 (by intro a ha; simp [hX a ha])]
  simp [h2]

theorem hit_upper (hlt : StrictWeak lt) (hX : ∀ a ∈ X, lt a v = true) (hY : ∀ b ∈ Y, lt v b = true) (h1 : lt v w = false) :
    (X ++ w :: Y).find? (fun a => lt v a) = Y.head? := by
  rw [List.find?_append, List.find?_eq_none.2 (by intro a ha; simp [hlt.asymm (hX a ha)])]
  cases Y with
  | nil => simp [h1]
  | cons y Y => simp [h1, hY y (by simp)]

theorem hit_less (hlt : StrictWeak lt) (hX : ∀ a ∈ X, lt a v = true) (hY : ∀ b ∈ Y, lt v b = true)
    (h2 : lt w v = false) : (X ++ w :: Y).filter (fun a => lt a v) = X := by
  rw [List.filter_append, List.filter_cons, List.filter_eq_self.2 hX,
    filter_none Y (by intro a ha; simp [hlt.asymm (hY a ha)])]
  simp [h2]

end Hit

section Miss

variable {lt : α → α → Bool} {S : List α} {v : α}

theorem miss_eqv (h : ∀ a ∈ S, lt v a = true ∨ lt a v = true) : ∀ a ∈ S, eqv lt a v = false := by
  intro a ha
  rcases h a ha with h | h
  · exact eqv_of_gt h
  · exact eqv_of_lt h

theorem miss_find (h : ∀ a ∈ S, lt v a = true ∨ lt a v = true) : S.find? (fun a => eqv lt a v) = none :=
  List.find?_eq_none.2 (by intro a ha; simp [miss_eqv h a ha])

theorem miss_any (h : ∀ a ∈ S, lt v a = true ∨ lt a v = true) : S.any (fun a => eqv lt a v) = false := by
  rw [List.any_eq_false]; intro a ha; simp [miss_eqv h a ha]

theorem miss_filter (h : ∀ a ∈ S, lt v a = true ∨ lt a v = true) : S.filter (fun a => !eqv lt a v) = S :=
  List.filter_eq_self.2 (by intro a ha; simp [miss_eqv h a ha])

theorem find?_congr' {p q : α → Bool} (h : ∀ a ∈ S, p a = q a) : S.find? p = S.find? q := by
  induction S with
  | nil => rfl
  | cons a S ih =>
    simp only [List.find?_cons, h a (by simp)]
    rw [ih (fun b hb => h b (by simp [hb]))]

theorem miss_lower (hlt : StrictWeak lt) (h : ∀ a ∈ S, lt v a = true ∨ lt a v = true) :
    S.find? (fun a => !lt a v) = S.find? (fun a => lt v a) := by
  apply find?_congr'
  intro a ha
  rcases h a ha with h | h
  · simp [h, hlt.asymm h]
  · simp [h, hlt.asymm h]

end Miss

theorem vals_split {s : VSet α} {X Y : List (Elem α)} {e : Elem α} (h : toL s.root = X ++ e :: Y) :
    vals s = X.map Elem.val ++ e.val :: Y.map Elem.val := by simp [vals, h]

theorem vals_all {s : VSet α} {lt : α → α → Bool} {k : α}
    (h : ∀ a ∈ toL s.root, lt k a.val = true ∨ lt a.val k = true) :
    ∀ a ∈ vals s, lt k a = true ∨ lt a k = true := by
  intro a ha
  simp only [vals, List.mem_map] at ha
  obtain ⟨e, he, rfl⟩ := ha
  exact h e he

theorem insert_refines {lt : α → α → Bool} (hlt : StrictWeak lt) {s : VSet α} (hi : Inv lt s) (v : α) {S' : List α}
    {o : Out α} (h : Spec.step lt (vals s) (.insert v) = .ok (S', o)) :
    ∃ s', s.step lt (.insert v) = .ok (s', o) ∧ Inv lt s' ∧ vals s' = S' := by
  rcases insert_ok hlt hi v with ⟨e, X, Y, q1, q2, q3, q4⟩ | ⟨s', A, B, q1, q2, q3, q4, q5, q6, _⟩
  · have hv := vals_split q2
    have hs := hi.vals_sorted
    rw [hv] at hs
    obtain ⟨hX, hY⟩ := sorted_hit hlt hs q3 q4
    simp only [Spec.step, hv, hit_find hX q3 q4, Res.ok.injEq, Prod.mk.injEq] at h
    obtain ⟨rfl, rfl⟩ := h
    exact ⟨s, by simp only [VSet.step, q1, Res.ok_bind], hi, hv⟩
  · have hall : ∀ a ∈ vals s, lt v a = true ∨ lt a v = true := vals_all (by
      rw [q2]; intro a ha
      rcases List.mem_append.1 ha with ha | ha
      · exact Or.inr (q3 a ha)
      · exact Or.inl (q4 a ha))
    have hv : vals s = A.map Elem.val ++ B.map Elem.val := by simp [vals, q2]
    simp only [Spec.step, miss_find hall, Res.ok.injEq, Prod.mk.injEq] at h
    obtain ⟨rfl, rfl⟩ := h
    refine ⟨s', by simp only [VSet.step, q1, Res.ok_bind], q6, ?_⟩
    have f1 : ∀ a ∈ A.map Elem.val, lt a v = true := by simpa [AllP] using q3
    have f2 : ∀ b ∈ B.map Elem.val, lt v b = true := by simpa [AllP] using q4
    have e1 : (vals s).filter (fun a => lt a v) = A.map Elem.val := by
      rw [hv, List.filter_append, List.filter_eq_self.2 f1, filter_none (B.map Elem.val) (by
        intro a ha; simp [hlt.asymm (f2 a ha)])]
      simp
    have e2 : (vals s).filter (fun a => lt v a) = B.map Elem.val := by
      rw [hv, List.filter_append, filter_all (B.map Elem.val) f2,
        filter_none (A.map Elem.val) (by
          intro a ha; simp [hlt.asymm (f1 a ha)])]
      simp
    rw [e1, e2]
    simp [vals, q5]

theorem step_refines {lt : α → α → Bool} (hlt : StrictWeak lt) {s : VSet α} (hi : Inv lt s) (op : Op α) {S' : List α}
    {o : Out α} (h : Spec.step lt (vals s) op = .ok (S', o)) :
    ∃ s', s.step lt op = .ok (s', o) ∧ Inv lt s' ∧ vals s' = S' := by
  have hs := hi.vals_sorted
  cases op with
  | insert v => exact insert_refines hlt hi v h
  | eraseKey k =>
    rcases findNode_root (keyOK_of_sorted hlt hi.sorted k) with ⟨c, n, l, e, r, gs, p, X, Y, q1, q2, q3, q4⟩ | ⟨p, q1, q2⟩
    · have hv := vals_split q2
      rw [hv] at hs
      obtain ⟨hX, hY⟩ := sorted_hit hlt hs q3 q4
      simp only [Spec.step, hv, hit_any q3 q4, hit_filter hX hY q3 q4, if_true, Res.ok.injEq, Prod.mk.injEq] at h
      obtain ⟨rfl, rfl⟩ := h
      obtain ⟨s', k1, k2, k3, _⟩ := eraseNode_ok hi q2
      refine ⟨s', by simp only [VSet.step, VSet.eraseKey, q1, k1, Res.ok_bind], k3, by simp [vals, k2]⟩
    · have hall := vals_all q2
      simp only [Spec.step, miss_any hall, miss_filter hall, Bool.false_eq_true, if_false, Res.ok.injEq,
        Prod.mk.injEq] at h
      obtain ⟨rfl, rfl⟩ := h
      exact ⟨s, by simp only [VSet.step, VSet.eraseKey, q1, Res.ok_bind], hi, rfl⟩
  | eraseAt i =>
    simp only [Spec.step] at h
    by_cases hlen : i < (vals s).length
    · rw [if_pos hlen] at h
      simp only [Res.ok.injEq, Prod.mk.injEq] at h
      obtain ⟨rfl, rfl⟩ := h
      have hl : i < (toL s.root).length := by simpa [vals] using hlen
      have hsplit : toL s.root = (toL s.root).take i ++ (toL s.root)[i] :: (toL s.root).drop (i + 1) := by
        rw [← List.drop_eq_getElem_cons hl, List.take_append_drop]
      obtain ⟨s', k1, k2, k3, _⟩ := eraseNode_ok hi hsplit
      have hg : s.list[i]? = some (toL s.root)[i] := by rw [hi.list]; simp
      refine ⟨s', by simp only [VSet.step, hg, k1, Res.ok_bind], k3, ?_⟩
      simp only [vals, k2, List.eraseIdx_eq_take_drop_succ, List.map_append, List.map_take, List.map_drop]
    · rw [if_neg hlen] at h; cases h
  | clear =>
    simp only [Spec.step, Res.ok.injEq, Prod.mk.injEq] at h
    obtain ⟨rfl, rfl⟩ := h
    exact ⟨s.clear, rfl, (clear_ok s).1, by simp [vals, (clear_ok (lt := lt) s).2]⟩
  | size =>
    simp only [Spec.step, Res.ok.injEq, Prod.mk.injEq] at h
    obtain ⟨rfl, rfl⟩ := h
    exact ⟨s, by simp only [VSet.step, VSet.size, cnt_eq hi.cnt, vals, List.length_map], hi, rfl⟩
  | empty =>
    simp only [Spec.step, Res.ok.injEq, Prod.mk.injEq] at h
    obtain ⟨rfl, rfl⟩ := h
    refine ⟨s, ?_, hi, rfl⟩
    simp only [VSet.step, VSet.isEmpty, vals]
    cases s.root with
    | nil => simp [toL]
    | node c n l e r => simp [toL]
  | contains k =>
    simp only [Spec.step, Res.ok.injEq, Prod.mk.injEq] at h
    obtain ⟨rfl, rfl⟩ := h
    rcases findNode_root (keyOK_of_sorted hlt hi.sorted k) with ⟨c, n, l, e, r, gs, p, X, Y, q1, q2, q3, q4⟩ | ⟨p, q1, q2⟩
    · exact ⟨s, by simp only [VSet.step, VSet.contains, q1, Option.isSome, vals_split q2, hit_any q3 q4], hi, rfl⟩
    · exact ⟨s, by simp only [VSet.step, VSet.contains, q1, Option.isSome, miss_any (vals_all q2)], hi, rfl⟩
  | find k =>
    simp only [Spec.step, Res.ok.injEq, Prod.mk.injEq] at h
    obtain ⟨rfl, rfl⟩ := h
    rcases findNode_root (keyOK_of_sorted hlt hi.sorted k) with ⟨c, n, l, e, r, gs, p, X, Y, q1, q2, q3, q4⟩ | ⟨p, q1, q2⟩
    · have hv := vals_split q2
      rw [hv] at hs
      obtain ⟨hX, hY⟩ := sorted_hit hlt hs q3 q4
      exact ⟨s, by simp only [VSet.step, VSet.find, q1, Res.ok_bind, hv, hit_find hX q3 q4, Option.map], hi, rfl⟩
    · exact ⟨s, by simp only [VSet.step, VSet.find, q1, Res.ok_bind, miss_find (vals_all q2), Option.map], hi, rfl⟩
  | lowerBound k =>
    simp only [Spec.step, Res.ok.injEq, Prod.mk.injEq] at h
    obtain ⟨rfl, rfl⟩ := h
    rcases findBoundByKey_ok _ _ s.root none (keyOK_of_sorted hlt hi.sorted k) with ⟨X, e, Y, q1, q2, q3, q4⟩ | ⟨q1, q2⟩
    · have hv := vals_split q2
      rw [hv] at hs
      obtain ⟨hX, hY⟩ := sorted_hit hlt hs q3 q4
      exact ⟨s, by simp only [VSet.step, VSet.lowerBound, q1, hv, hit_lower hX q4, Option.map], hi, rfl⟩
    · refine ⟨s, ?_, hi, rfl⟩
      simp only [VSet.step, VSet.lowerBound, q1, miss_lower hlt (vals_all q2)]
      simp only [vals, Option.or_none, List.find?_map, Function.comp_def]
  | upperBound k =>
    simp only [Spec.step, Res.ok.injEq, Prod.mk.injEq] at h
    obtain ⟨rfl, rfl⟩ := h
    rcases findBoundByKey_ok _ _ s.root none (keyOK_of_sorted hlt hi.sorted k) with ⟨X, e, Y, q1, q2, q3, q4⟩ | ⟨q1, q2⟩
    · have hv := vals_split q2
      rw [hv] at hs
      obtain ⟨hX, hY⟩ := sorted_hit hlt hs q3 q4
      refine ⟨s, ?_, hi, rfl⟩
      have hn : nextOf e.id s.list = .ok Y.head? := by
        rw [hi.list, q2]; exact nextOf_ok (by rw [← q2]; exact hi.uniq)
      simp only [VSet.step, VSet.upperBound, q1, hn, Res.ok_bind, hv, hit_upper hlt hX hY q3, List.head?_map]
    · refine ⟨s, ?_, hi, rfl⟩
      have : s.upperBound (lt k) (fun a => lt a k) = .ok ((toL s.root).find? (fun a => lt k a.val)) := by
        simp only [VSet.upperBound, q1, Option.or_none]
        cases (toL s.root).find? (fun a => lt k a.val) <;> rfl
      simp only [VSet.step, this, Res.ok_bind, vals, List.find?_map, Function.comp_def]

theorem run_refines {lt : α → α → Bool} (hlt : StrictWeak lt) : ∀ (ops : List (Op α)) {s : VSet α}, Inv lt s →
    ∀ {S' : List α} {os : List (Out α)}, Spec.run lt (vals s) ops = .ok (S', os) →
    ∃ s', s.run lt ops = .ok (s', os) ∧ Inv lt s' ∧ vals s' = S' := by
  intro ops
  induction ops with
  | nil =>
    intro s hi S' os h
    simp only [Spec.run, Res.ok.injEq, Prod.mk.injEq] at h
    obtain ⟨rfl, rfl⟩ := h
    exact ⟨s, rfl, hi, rfl⟩
  | cons op ops ih =>
    intro s hi S' os h
    simp only [Spec.run, Res.bind_eq_ok] at h
    obtain ⟨⟨S1, o⟩, h1, ⟨S2, os'⟩, h2, h3⟩ := h
    simp only [Res.ok.injEq, Prod.mk.injEq] at h3
    obtain ⟨rfl, rfl⟩ := h3
    obtain ⟨s1, k1, k2, rfl⟩ := step_refines hlt hi op h1
    obtain ⟨s2, k3, k4, k5⟩ := ih k2 h2
    exact ⟨s2, by simp only [VSet.run, k1, k3, Res.ok_bind], k4, k5⟩

/-- The specification fails only on a broken precondition, and then so does the code. -/
theorem step_ub {lt : α → α → Bool} {s : VSet α} (hi : Inv lt s) (op : Op α) (h : Spec.step lt (vals s) op = .ub) :
    s.step lt op = .ub := by
  cases op with
  | eraseAt i =>
    simp only [Spec.step] at h
    by_cases hlen : i < (vals s).length
    · rw [if_pos hlen] at h; cases h
    · have : s.list[i]? = none := by
        rw [hi.list]; simp [vals] at hlen; simpa using hlen
      simp only [VSet.step, this]
  | insert v => simp only [Spec.step] at h; split at h <;> cases h
  | _ => simp only [Spec.step] at h; cases h

theorem spec_step_not_throw {lt : α → α → Bool} {S : List α} (op : Op α) : ∀ e, Spec.step lt S op ≠ .throw e := by
  intro e h
  cases op with
  | eraseAt i => simp only [Spec.step] at h; split at h <;> cases h
  | insert v => simp only [Spec.step] at h; split at h <;> cases h
  | _ => simp only [Spec.step] at h; cases h

theorem run_inv {lt : α → α → Bool} (hlt : StrictWeak lt) : ∀ (ops : List (Op α)) {s s' : VSet α} {os : List (Out α)},
    Inv lt s → s.run lt ops = .ok (s', os) → Inv lt s' := by
  intro ops
  induction ops with
  | nil =>
    intro s s' os hi h
    simp only [VSet.run, Res.ok.injEq, Prod.mk.injEq] at h
    obtain ⟨rfl, _⟩ := h; exact hi
  | cons op ops ih =>
    intro s s' os hi h
    simp only [VSet.run, Res.bind_eq_ok] at h
    obtain ⟨⟨s1, o⟩, h1, ⟨s2, os'⟩, h2, h3⟩ := h
    simp only [Res.ok.injEq, Prod.mk.injEq] at h3
    obtain ⟨rfl, rfl⟩ := h3
    cases hsp : Spec.step lt (vals s) op with
    | ok r =>
      obtain ⟨S1, o1⟩ := r
      obtain ⟨s1', k1, k2, _⟩ := step_refines hlt hi op hsp
      rw [h1] at k1
      simp only [Res.ok.injEq, Prod.mk.injEq] at k1
      obtain ⟨rfl, _⟩ := k1
      exact ih k2 h2
    | throw e => exact (spec_step_not_throw op e hsp).elim
    | ub => rw [step_ub hi op hsp] at h1; cases h1

theorem Reachable.inv {lt : α → α → Bool} (hlt : StrictWeak lt) {s : VSet α} (h : Reachable lt s) : Inv lt s := by
  obtain ⟨ops, outs, h⟩ := h
  exact run_inv hlt ops (Inv.empty lt) h

end Verif.VectorSet
