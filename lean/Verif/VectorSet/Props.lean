import Verif.VectorSet.StepLemmas

/-!
# Properties of `vector_set`: C05, C06, C07, C10, C11 (with the ring part in `Verif/Ring/Props.lean`), C63, C64
-/

namespace Verif.VectorSet

open Spec

variable {α : Type}

theorem natLt_strictWeak : StrictWeak (fun a b : Nat => decide (a < b)) where
  irrefl := by simp
  trans := by simp; omega
  incompTrans := by simp; omega

/-- Comparing by the last decimal digit: a strict weak order that is not total (11 and 21 are equivalent). -/
theorem mod10_strictWeak : StrictWeak (fun a b : Nat => decide (a % 10 < b % 10)) where
  irrefl := by simp
  trans := by simp; omega
  incompTrans := by simp; omega

theorem step_eq {lt : α → α → Bool} (hlt : StrictWeak lt) {s : VSet α} (hi : Inv lt s) (op : Op α) :
    (do let (s', o) ← s.step lt op; .ok (s'.forward, o)) = Spec.step lt s.forward op := by
  rw [hi.forward]
  cases h : Spec.step lt (vals s) op with
  | ok r =>
    obtain ⟨S', o⟩ := r
    obtain ⟨s', k1, k2, k3⟩ := step_refines hlt hi op h
    simp only [k1, Res.ok_bind, k2.forward, k3]
  | throw e => exact (spec_step_not_throw op e h).elim
  | ub => rw [step_ub hi op h]; rfl

theorem step_inv {lt : α → α → Bool} (hlt : StrictWeak lt) {s s' : VSet α} (hi : Inv lt s) {op : Op α} {o : Out α}
    (h : s.step lt op = .ok (s', o)) : Inv lt s' := by
  apply run_inv hlt [op] hi (os := [o])
  simp only [VSet.run, h, Res.ok_bind]

theorem run_eq {lt : α → α → Bool} (hlt : StrictWeak lt) : ∀ (ops : List (Op α)) {s : VSet α}, Inv lt s →
    (do let (s', os) ← s.run lt ops; .ok (s'.forward, os)) = Spec.run lt s.forward ops := by
  intro ops
  induction ops with
  | nil => intro s hi; rfl
  | cons op ops ih =>
    intro s hi
    have h := step_eq hlt hi op
    simp only [VSet.run, Spec.run]
    cases hm : s.step lt op with
    | ok r =>
      obtain ⟨s', o⟩ := r
      have hi' := step_inv hlt hi hm
      rw [hm] at h
      simp only [Res.ok_bind] at h ⊢
      rw [← h]
      simp only [Res.ok_bind]
      have h2 := ih hi'
      rw [← h2]
      cases s'.run lt ops <;> rfl
    | throw e => rw [hm] at h; rw [← h]; rfl
    | ub => rw [hm] at h; rw [← h]; rfl

/-- **C05.**  For every strict weak order and every history of operations, running the history on the modelled
`vector_set` reports exactly what the mathematical sorted set reports and leaves the same elements; it is undefined
exactly when the specification says that the caller broke a precondition. -/
theorem c05_vector_set_is_sorted_set {lt : α → α → Bool} (hlt : StrictWeak lt) (ops : List (Op α)) :
    (do let (s, outs) ← VSet.empty.run lt ops; .ok (s.forward, outs)) = Spec.run lt [] ops :=
  run_eq hlt ops (Inv.empty lt)

example : Spec.run (fun a b : Nat => decide (a % 10 < b % 10)) []
    [.insert 15, .insert 3, .insert 25, .insert 8, .lowerBound 4, .upperBound 15, .eraseKey 23, .contains 3, .size,
     .eraseAt 0, .find 18]
    = .ok ([8], [.inserted 15 true, .inserted 3 true, .inserted 15 false, .inserted 8 true, .iter (some 15),
        .iter (some 8), .num 1, .bool false, .num 2, .unit, .iter (some 8)]) := by decide

/-- Whether a key is in the set, told from the history alone. -/
def present (lt : α → α → Bool) (k : α) (p : Bool) : List (Op α) → Bool
  | [] => p
  | .insert v :: ops => present lt k (p || eqv lt v k) ops
  | .eraseKey v :: ops => present lt k (p && !eqv lt v k) ops
  | .clear :: ops => present lt k false ops
  | _ :: ops => present lt k p ops

/-- The history erases by key only (what an `erase(iterator)` removes depends on the position). -/
def ByKey : List (Op α) → Prop
  | [] => True
  | .eraseAt _ :: _ => False
  | _ :: ops => ByKey ops

theorem StrictWeak.eqv_trans {lt : α → α → Bool} (hlt : StrictWeak lt) {a b c : α} (h1 : eqv lt a b = true)
    (h2 : eqv lt b c = true) : eqv lt a c = true := by
  simp only [eqv, Bool.and_eq_true, Bool.not_eq_true'] at *
  exact hlt.incompTrans a b c h1.1 h1.2 h2.1 h2.2

theorem eqv_symm (lt : α → α → Bool) (a b : α) : eqv lt a b = eqv lt b a := by
  simp only [eqv]; cases lt a b <;> cases lt b a <;> rfl

/-- If the first element equivalent to `v` is found, a `k` equivalent to `v` is in the list too. -/
theorem any_eqv {lt : α → α → Bool} (hlt : StrictWeak lt) {S : List α} {v k : α} (h : eqv lt v k = true) :
    S.any (fun a => eqv lt a k) = S.any (fun a => eqv lt a v) := by
  rw [Bool.eq_iff_iff]
  simp only [List.any_eq_true]
  constructor
  · rintro ⟨a, ha, h1⟩; exact ⟨a, ha, StrictWeak.eqv_trans hlt h1 (by rw [eqv_symm]; exact h)⟩
  · rintro ⟨a, ha, h1⟩; exact ⟨a, ha, StrictWeak.eqv_trans hlt h1 h⟩

theorem spec_step_any {lt : α → α → Bool} (hlt : StrictWeak lt) {S S' : List α} {op : Op α} {o : Out α} (k : α)
    (h : Spec.step lt S op = .ok (S', o)) (hb : ByKey [op]) :
    S'.any (fun a => eqv lt a k) = present lt k (S.any (fun a => eqv lt a k)) [op] := by
  cases op with
  | insert v =>
    simp only [Spec.step] at h
    simp only [present]
    cases hf : S.find? (fun a => eqv lt a v) with
    | some a =>
      simp only [hf, Res.ok.injEq, Prod.mk.injEq] at h
      obtain ⟨rfl, _⟩ := h
      have hany : S.any (fun a => eqv lt a v) = true := by
        rw [List.any_eq_true]
        exact ⟨a, List.mem_of_find?_eq_some hf, List.find?_some (p := fun a => eqv lt a v) hf⟩
      cases he : eqv lt v k with
      | false => simp
      | true => rw [any_eqv hlt he, hany]; rfl
    | none =>
      simp only [hf, Res.ok.injEq, Prod.mk.injEq] at h
      obtain ⟨rfl, _⟩ := h
      rw [List.find?_eq_none] at hf
      rw [Bool.eq_iff_iff]
      simp only [List.any_eq_true, Bool.or_eq_true, List.mem_append, List.mem_cons, List.mem_filter]
      constructor
      · rintro ⟨a, (⟨h1, _⟩ | rfl | ⟨h1, _⟩), h2⟩
        · exact Or.inl ⟨a, h1, h2⟩
        · exact Or.inr h2
        · exact Or.inl ⟨a, h1, h2⟩
      · rintro (⟨a, h1, h2⟩ | h2)
        · refine ⟨a, ?_, h2⟩
          have := hf a h1
          simp only [eqv, Bool.and_eq_true, Bool.not_eq_true', not_and, Bool.not_eq_false] at this
          cases h3 : lt a v with
          | true => exact Or.inl ⟨h1, rfl⟩
          | false => exact Or.inr (Or.inr ⟨h1, this h3⟩)
        · exact ⟨v, Or.inr (Or.inl rfl), h2⟩
  | eraseKey v =>
    simp only [Spec.step, Res.ok.injEq, Prod.mk.injEq] at h
    obtain ⟨rfl, _⟩ := h
    simp only [present]
    rw [Bool.eq_iff_iff]
    simp only [List.any_eq_true, Bool.and_eq_true, List.mem_filter, Bool.not_eq_true']
    constructor
    · rintro ⟨a, ⟨h1, h2⟩, h3⟩
      refine ⟨⟨a, h1, h3⟩, ?_⟩
      cases he : eqv lt v k with
      | false => rfl
      | true =>
        rw [StrictWeak.eqv_trans hlt h3 (by rw [eqv_symm]; exact he)] at h2; cases h2
    · rintro ⟨⟨a, h1, h2⟩, h3⟩
      refine ⟨a, ⟨h1, ?_⟩, h2⟩
      cases he : eqv lt a v with
      | false => rfl
      | true =>
        rw [StrictWeak.eqv_trans hlt (by rw [eqv_symm]; exact he) h2] at h3; cases h3
  | clear =>
    simp only [Spec.step, Res.ok.injEq, Prod.mk.injEq] at h
    obtain ⟨rfl, _⟩ := h
    rfl
  | eraseAt i => exact hb.elim
  | _ =>
    simp only [Spec.step, Res.ok.injEq, Prod.mk.injEq] at h
    obtain ⟨rfl, _⟩ := h
    rfl

theorem present_cons (lt : α → α → Bool) (k : α) (p : Bool) (op : Op α) (ops : List (Op α)) :
    present lt k p (op :: ops) = present lt k (present lt k p [op]) ops := by
  cases op <;> rfl

theorem byKey_cons {op : Op α} {ops : List (Op α)} (h : ByKey (op :: ops)) : ByKey [op] ∧ ByKey ops := by
  cases op <;> first | exact ⟨trivial, h⟩ | exact h.elim

theorem spec_run_any {lt : α → α → Bool} (hlt : StrictWeak lt) (k : α) : ∀ (ops : List (Op α)) {S S' : List α}
    {os : List (Out α)}, Spec.run lt S ops = .ok (S', os) → ByKey ops →
    S'.any (fun a => eqv lt a k) = present lt k (S.any (fun a => eqv lt a k)) ops := by
  intro ops
  induction ops with
  | nil =>
    intro S S' os h _
    simp only [Spec.run, Res.ok.injEq, Prod.mk.injEq] at h
    obtain ⟨rfl, _⟩ := h; rfl
  | cons op ops ih =>
    intro S S' os h hb
    obtain ⟨hb1, hb2⟩ := byKey_cons hb
    simp only [Spec.run, Res.bind_eq_ok] at h
    obtain ⟨⟨S1, o⟩, h1, ⟨S2, os'⟩, h2, h3⟩ := h
    simp only [Res.ok.injEq, Prod.mk.injEq] at h3
    obtain ⟨rfl, rfl⟩ := h3
    rw [present_cons, ← spec_step_any hlt k h1 hb1]
    exact ih h2 hb2

/-- **C05**, membership told from the history: after a history of insertions, removals by key and clears, `contains(k)`
holds exactly if a key equivalent to `k` was inserted and has not been removed (or cleared) since. -/
theorem c05_membership {lt : α → α → Bool} (hlt : StrictWeak lt) (ops : List (Op α)) (hb : ByKey ops) {s : VSet α}
    {outs : List (Out α)} (h : VSet.empty.run lt ops = .ok (s, outs)) (k : α) :
    s.contains (lt k) (fun a => lt a k) = present lt k false ops := by
  have hi := run_inv hlt ops (Inv.empty lt) h
  have h1 := c05_vector_set_is_sorted_set hlt ops
  rw [h] at h1
  have h2 := spec_run_any hlt k ops h1.symm hb
  have h3 := step_eq hlt hi (.contains k)
  simp only [VSet.step, Spec.step, Res.ok_bind, Res.ok.injEq, Prod.mk.injEq, Out.bool.injEq] at h3
  rw [h3.2, h2]; rfl

example : ByKey [Op.insert 15, .insert 3, .eraseKey 23, .insert 8] ∧
    present (fun a b : Nat => decide (a % 10 < b % 10)) 3 false [Op.insert 15, .insert 3, .eraseKey 23, .insert 8] = false ∧
    present (fun a b : Nat => decide (a % 10 < b % 10)) 5 false [Op.insert 15, .insert 3, .eraseKey 23, .insert 8] = true :=
  ⟨trivial, by decide, by decide⟩

/-- A reachable set used in the examples below: 1 2 5 8 9 after insertions and removals. -/
def demoOps : List (Op Nat) := [.insert 5, .insert 3, .insert 8, .insert 1, .insert 9, .insert 2, .eraseKey 3]

theorem demo_reachable : ∃ s, VSet.empty.run (fun a b : Nat => decide (a < b)) demoOps = .ok (s,
    [.inserted 5 true, .inserted 3 true, .inserted 8 true, .inserted 1 true, .inserted 9 true, .inserted 2 true, .num 1]) ∧
    s.forward = [1, 2, 5, 8, 9] := ⟨_, rfl, rfl⟩

/-- **C06**, by position: `find_by_index(i)` is the i-th smallest element or `end()`; `at(i)` returns it for `i < size()` and throws
otherwise; `operator[]` returns it for `i < size()` (and is undefined otherwise, as for every container). -/
theorem c06_index_access {lt : α → α → Bool} (hlt : StrictWeak lt) {s : VSet α} (hr : Reachable lt s) :
    s.size = s.forward.length ∧
    (∀ i, (s.findByIndex i).map Elem.val = s.forward[i]?) ∧
    (∀ i, (h : i < s.size) → s.at_ i = .ok (s.forward[i]'(by
        have hi := hr.inv hlt
        rw [hi.forward]; simpa [VSet.size, cnt_eq hi.cnt, vals] using h)) ∧ s.get i = s.at_ i) ∧
    (∀ i, s.size ≤ i → s.at_ i = .throw .outOfRange) := by
  have hi := hr.inv hlt
  have hsz : s.size = s.forward.length := by rw [hi.forward]; simp [VSet.size, cnt_eq hi.cnt, vals]
  refine ⟨hsz, ?_, ?_, ?_⟩
  · intro i
    simp only [VSet.findByIndex, findNodeByIndex_ok _ _ hi.cnt, hi.forward, vals, List.getElem?_map]
  · intro i h
    have hl : i < (toL s.root).length := by simpa [VSet.size, cnt_eq hi.cnt] using h
    have : s.get i = .ok ((toL s.root)[i]).val := by
      simp only [VSet.get, findNodeByIndex_ok _ _ hi.cnt]
      rw [List.getElem?_eq_getElem hl]
    constructor
    · simp only [VSet.at_, h, if_true, this]
      congr 1
      simp [hi.forward, vals]
    · simp only [VSet.at_, h, if_true]
  · intro i h
    simp only [VSet.at_]; rw [if_neg (by omega)]

/-- **C06**, by iterator: the index of the iterator to the i-th element is i. -/
theorem c06_index_of_iterator {lt : α → α → Bool} (hlt : StrictWeak lt) {s : VSet α} (hr : Reachable lt s) (i : Nat)
    (e : Elem α) (h : s.list[i]? = some e) : s.indexOfIter e.id = .ok i := by
  have hi := hr.inv hlt
  rw [hi.list] at h
  obtain ⟨hl, rfl⟩ := List.getElem?_eq_some_iff.1 h
  have hsplit : toL s.root = (toL s.root).take i ++ (toL s.root)[i] :: (toL s.root).drop (i + 1) := by
    rw [← List.drop_eq_getElem_cons hl, List.take_append_drop]
  generalize (toL s.root)[i] = e at hsplit
  rcases locate_ok e.id s.root [] with ⟨c, n, l, e', r, gs, q1, q2, q3⟩ | ⟨_, q2⟩
  · simp only [zip] at q2
    have heq : (ctxL gs ++ toL l) ++ e' :: (toL r ++ ctxR gs) =
        (toL s.root).take i ++ e :: (toL s.root).drop (i + 1) := by
      rw [← hsplit, ← q2, toL_zip]; simp [toL]
    obtain ⟨h1, _, _⟩ := uniq_split (by rw [heq, ← hsplit]; exact hi.uniq) heq q3
    have hc : CntOK (zip (.node c n l e' r) gs) := by rw [q2]; exact hi.cnt
    obtain ⟨⟨_, hcl, _⟩, hfr⟩ := cntOK_zip.1 hc
    simp only [VSet.indexOfIter, q1, indexOfNode, indexUp_ok _ _ hfr, cnt_eq hcl, Res.ok.injEq]
    have := congrArg List.length h1
    simp only [List.length_append, List.length_take] at this
    omega
  · exact (q2 e (by rw [hsplit]; simp) rfl).elim

/-- **C06**, by key: when the key is present `index_of(k)` is the number of smaller elements and `find2(k)` gives the
element together with that number; when it is absent `index_of(k)` throws and `find2(k)` gives `end()`. -/
theorem c06_index_of_key {lt : α → α → Bool} (hlt : StrictWeak lt) {s : VSet α} (hr : Reachable lt s) (k : α) :
    (∀ w ∈ s.forward, eqv lt w k = true →
      s.indexOfKey (lt k) (fun a => lt a k) = .ok (s.forward.filter (fun a => lt a k)).length ∧
      (s.find2 (lt k) (fun a => lt a k)).map (fun p => (p.1.val, p.2)) =
        some (w, (s.forward.filter (fun a => lt a k)).length)) ∧
    ((∀ w ∈ s.forward, eqv lt w k = false) →
      s.indexOfKey (lt k) (fun a => lt a k) = .throw .outOfRange ∧ s.find2 (lt k) (fun a => lt a k) = none) := by
  have hi := hr.inv hlt
  rw [hi.forward]
  rcases findIndexByKey_ok _ _ s.root 0 (keyOK_of_sorted hlt hi.sorted k) hi.cnt with ⟨X, e, Y, q1, q2, q3, q4⟩ | ⟨q1, q2⟩
  · have hv := vals_split q2
    have hs := hi.vals_sorted
    rw [hv] at hs ⊢
    obtain ⟨hX, hY⟩ := sorted_hit hlt hs q3 q4
    constructor
    · intro w hw he
      have hwe : w = e.val := by
        rcases List.mem_append.1 hw with h | h
        · rw [eqv_of_lt (hX w h)] at he; cases he
        · rcases List.mem_cons.1 h with h | h
          · exact h
          · rw [eqv_of_gt (hY w h)] at he; cases he
      rw [hit_less hlt hX hY q4]
      simp only [VSet.indexOfKey, VSet.find2, q1, List.length_map, Nat.zero_add, Option.map, hwe, and_self]
    · intro h
      have := h e.val (by simp)
      simp only [q3, q4, eqv] at this
      cases this
  · constructor
    · intro w hw he
      rw [miss_eqv (vals_all q2) w hw] at he; cases he
    · intro _
      simp only [VSet.indexOfKey, VSet.find2, q1, and_self]

example : ∃ s, Reachable (fun a b : Nat => decide (a < b)) s ∧ s.forward = [1, 2, 5, 8, 9] ∧ s.at_ 3 = .ok 8 ∧
    s.at_ 5 = .throw .outOfRange ∧ s.indexOfKey (fun a => decide (5 < a)) (fun a => decide (a < 5)) = .ok 2 ∧
    s.indexOfKey (fun a => decide (3 < a)) (fun a => decide (a < 3)) = .throw .outOfRange :=
  ⟨_, ⟨demoOps, _, rfl⟩, rfl, rfl, rfl, rfl, rfl⟩

/-- **C07.**  Iterating forward visits the elements in strictly increasing order (so each exactly once), iterating
backward visits them in the reverse order, and incrementing the iterator of the i-th element gives the next one. -/
theorem c07_iteration {lt : α → α → Bool} (hlt : StrictWeak lt) {s : VSet α} (hr : Reachable lt s) :
    s.forward.Pairwise (fun a b => lt a b = true) ∧ s.backward = s.forward.reverse ∧ s.forward.length = s.size ∧
    (∀ k, (∃ a ∈ s.forward, eqv lt a k = true) ↔ s.contains (lt k) (fun a => lt a k) = true) ∧
    ∀ (i : Nat) (e : Elem α), s.list[i]? = some e → nextOf e.id s.list = .ok s.list[i + 1]? := by
  have hi := hr.inv hlt
  refine ⟨by rw [hi.forward]; exact hi.vals_sorted, rfl, ?_, ?_, ?_⟩
  · rw [hi.forward]; simp [VSet.size, cnt_eq hi.cnt, vals]
  · intro k
    have h3 := step_eq hlt hi (.contains k)
    simp only [VSet.step, Spec.step, Res.ok_bind, Res.ok.injEq, Prod.mk.injEq, Out.bool.injEq] at h3
    rw [h3.2, List.any_eq_true]
  · intro i e h
    rw [hi.list] at h ⊢
    obtain ⟨hl, rfl⟩ := List.getElem?_eq_some_iff.1 h
    have hsplit : toL s.root = (toL s.root).take i ++ (toL s.root)[i] :: (toL s.root).drop (i + 1) := by
      rw [← List.drop_eq_getElem_cons hl, List.take_append_drop]
    have := nextOf_ok (A := (toL s.root).take i) (p := (toL s.root)[i]) (B := (toL s.root).drop (i + 1)) (by
      rw [← hsplit]; exact hi.uniq)
    rw [← hsplit] at this
    rw [this, List.head?_drop]

example : ∃ s, Reachable (fun a b : Nat => decide (a < b)) s ∧ s.forward = [1, 2, 5, 8, 9] ∧
    s.backward = [9, 8, 5, 2, 1] := ⟨_, ⟨demoOps, _, rfl⟩, rfl, rfl⟩

/-- The only preconditions of the interface: `erase(it)` needs an iterator to an element. -/
def Allowed (n : Nat) : Op α → Prop
  | .eraseAt i => i < n
  | _ => True

/-- **C10.**  On every reachable set every allowed operation completes: it neither dereferences a null parent, sibling,
child or list link (which the model reports as `ub`) nor loops for ever nor throws; the same for the look-ups by index
and by iterator. -/
theorem c10_never_null {lt : α → α → Bool} (hlt : StrictWeak lt) {s : VSet α} (hr : Reachable lt s) :
    (∀ op, Allowed s.size op → ∃ s' o, s.step lt op = .ok (s', o)) ∧
    (∀ (i : Nat) (e : Elem α), s.list[i]? = some e → ∃ n, s.indexOfIter e.id = .ok n) ∧
    (∀ i, s.at_ i ≠ .ub) ∧ (∀ k, s.indexOfKey (lt k) (fun a => lt a k) ≠ .ub) := by
  have hi := hr.inv hlt
  refine ⟨?_, ?_, ?_, ?_⟩
  · intro op ha
    cases h : Spec.step lt (vals s) op with
    | ok r =>
      obtain ⟨S', o⟩ := r
      obtain ⟨s', k1, _, _⟩ := step_refines hlt hi op h
      exact ⟨s', o, k1⟩
    | throw e => exact (spec_step_not_throw op e h).elim
    | ub =>
      exfalso
      cases op with
      | eraseAt i =>
        have hl : i < (vals s).length := by simpa [Allowed, VSet.size, cnt_eq hi.cnt, vals] using ha
        simp only [Spec.step, if_pos hl] at h; cases h
      | insert v => simp only [Spec.step] at h; split at h <;> cases h
      | _ => simp only [Spec.step] at h; cases h
  · intro i e h; exact ⟨i, c06_index_of_iterator hlt hr i e h⟩
  · intro i h
    by_cases hlt' : i < s.size
    · have := (c06_index_access hlt hr).2.2.1 i hlt'
      rw [this.1] at h; cases h
    · rw [(c06_index_access hlt hr).2.2.2 i (by omega)] at h; cases h
  · intro k h
    simp only [VSet.indexOfKey] at h
    split at h <;> cases h

example : ∃ s, Reachable (fun a b : Nat => decide (a < b)) s ∧ Allowed s.size (Op.eraseAt (α := Nat) 4) :=
  ⟨_, ⟨demoOps, _, rfl⟩, Nat.lt_of_lt_of_eq (by decide : 4 < 5) rfl⟩

/-- **C63.**  Iterators are stable.  An element keeps its address and value, and the iterator to it stays valid, through
every operation that does not remove that element: after an insertion every old element is still there; `erase(it)`
removes exactly the element it points to. -/
theorem c63_iterators_stay_valid {lt : α → α → Bool} (hlt : StrictWeak lt) {s : VSet α} (hr : Reachable lt s) :
    (∀ v s' e isNew, s.insert lt v = .ok (s', e, isNew) → e ∈ s'.list ∧ ∀ a, a ∈ s'.list ↔ a ∈ s.list ∨ a = e) ∧
    (∀ (i : Nat) (e : Elem α) (s' : VSet α), s.list[i]? = some e → s.eraseNode e.id = .ok s' → s'.list = s.list.eraseIdx i ∧ e ∉ s'.list) ∧
    (∀ k s' n, s.eraseKey (lt k) (fun a => lt a k) = .ok (s', n) →
      s'.list = s.list.filter (fun a => !eqv lt a.val k)) := by
  have hi := hr.inv hlt
  refine ⟨?_, ?_, ?_⟩
  · intro v s' e isNew h
    rcases insert_ok hlt hi v with ⟨e', X, Y, q1, q2, q3, q4⟩ | ⟨s'', A, B, q1, q2, q3, q4, q5, q6, _⟩
    · rw [q1] at h
      simp only [Res.ok.injEq, Prod.mk.injEq] at h
      obtain ⟨rfl, rfl, rfl⟩ := h
      have hm : e' ∈ s.list := by rw [hi.list, q2]; simp
      refine ⟨hm, fun a => ⟨Or.inl, ?_⟩⟩
      rintro (h | rfl)
      · exact h
      · exact hm
    · rw [q1] at h
      simp only [Res.ok.injEq, Prod.mk.injEq] at h
      obtain ⟨rfl, rfl, rfl⟩ := h
      rw [q6.list, hi.list, q5, q2]
      refine ⟨by simp, fun a => ?_⟩
      simp only [List.mem_append, List.mem_cons]
      constructor
      · rintro (h | h | h)
        · exact Or.inl (Or.inl h)
        · exact Or.inr h
        · exact Or.inl (Or.inr h)
      · rintro ((h | h) | h)
        · exact Or.inl h
        · exact Or.inr (Or.inr h)
        · exact Or.inr (Or.inl h)
  · intro i e s' h hs
    rw [hi.list] at h
    obtain ⟨hl, rfl⟩ := List.getElem?_eq_some_iff.1 h
    have hsplit : toL s.root = (toL s.root).take i ++ (toL s.root)[i] :: (toL s.root).drop (i + 1) := by
      rw [← List.drop_eq_getElem_cons hl, List.take_append_drop]
    obtain ⟨s'', k1, k2, k3, _⟩ := eraseNode_ok hi hsplit
    rw [k1] at hs
    simp only [Res.ok.injEq] at hs
    subst hs
    have hL : s''.list = (toL s.root).take i ++ (toL s.root).drop (i + 1) := by rw [k3.list, k2]
    refine ⟨by rw [hL, hi.list, List.eraseIdx_eq_take_drop_succ], ?_⟩
    rw [hL]
    have hu := hi.uniq
    rw [hsplit, Uniq, List.pairwise_append, List.pairwise_cons] at hu
    intro hm
    rcases List.mem_append.1 hm with hm | hm
    · exact hu.2.2 _ hm _ List.mem_cons_self rfl
    · exact hu.2.1.1 _ hm rfl
  · intro k s' n h
    rcases findNode_root (keyOK_of_sorted hlt hi.sorted k) with ⟨c, m, l, e, r, gs, p, X, Y, q1, q2, q3, q4⟩ | ⟨p, q1, q2⟩
    · obtain ⟨s'', k1, k2, k3, _⟩ := eraseNode_ok hi q2
      simp only [VSet.eraseKey, q1, k1, Res.ok_bind, Res.ok.injEq, Prod.mk.injEq] at h
      obtain ⟨rfl, _⟩ := h
      have hs := hi.vals_sorted
      rw [vals_split q2] at hs
      obtain ⟨hX, hY⟩ := sorted_hit hlt hs q3 q4
      rw [k3.list, k2, hi.list, q2, List.filter_append, List.filter_cons,
        List.filter_eq_self.2 (by intro a ha; simp [eqv_of_lt (hX a.val (List.mem_map_of_mem ha))])]
      have : Y.filter (fun a => !eqv lt a.val k) = Y :=
        List.filter_eq_self.2 (by intro a ha; simp [eqv_of_gt (hY a.val (List.mem_map_of_mem ha))])
      rw [this]
      have he : eqv lt e.val k = true := by simp only [eqv, q3, q4]; rfl
      simp [he]
    · simp only [VSet.eraseKey, q1, Res.ok.injEq, Prod.mk.injEq] at h
      obtain ⟨rfl, _⟩ := h
      rw [hi.list]
      symm
      apply List.filter_eq_self.2
      intro a ha
      have := miss_eqv (vals_all q2) a.val (by simp only [vals, List.mem_map]; exact ⟨a, ha, rfl⟩)
      simp [this]

example : ∃ s, Reachable (fun a b : Nat => decide (a < b)) s ∧ ∃ s' e, s.insert (fun a b : Nat => decide (a < b)) 4 = .ok (s', e, true) ∧
    e ∈ s'.list ∧ s.list.length = 5 ∧ s'.list.length = 6 :=
  ⟨_, ⟨demoOps, _, rfl⟩, _, _, rfl, by decide, rfl, rfl⟩

/-! ## Assignment and comparison -/

theorem insertAll_ok {lt : α → α → Bool} (hlt : StrictWeak lt) : ∀ (T : List α) {s : VSet α}, Inv lt s →
    (vals s ++ T).Pairwise (fun a b => lt a b = true) →
    ∃ s', s.insertAll lt T = .ok s' ∧ Inv lt s' ∧ vals s' = vals s ++ T := by
  intro T
  induction T with
  | nil => intro s hi _; exact ⟨s, rfl, hi, by simp⟩
  | cons v T ih =>
    intro s hi hp
    have hlt' : ∀ a ∈ vals s, lt a v = true := by
      intro a ha
      exact (List.pairwise_append.1 hp).2.2 a ha v (by simp)
    rcases insert_ok hlt hi v with ⟨e', X, Y, q1, q2, q3, q4⟩ | ⟨s', A, B, q1, q2, q3, q4, q5, q6, _⟩
    · have := hlt' e'.val (by rw [vals_split q2]; simp)
      rw [q4] at this; cases this
    · have hB : B = [] := by
        cases B with
        | nil => rfl
        | cons b B =>
          have h1 := hlt' b.val (by simp [vals, q2])
          have h2 := q4 b (by simp)
          rw [hlt.asymm h2] at h1; cases h1
      subst hB
      have hv : vals s' = vals s ++ [v] := by simp [vals, q2, q5]
      obtain ⟨s'', k1, k2, k3⟩ := ih q6 (by rw [hv]; simpa using hp)
      exact ⟨s'', by simp only [VSet.insertAll, q1, Res.ok_bind, k1], k2, by rw [k3, hv]; simp⟩

/-- **C11**, two different sets: copy assignment gives the target the value of the source (which is not touched: it is
not an output of the operation), and move assignment hands the value over and leaves the source empty. -/
theorem c11_vector_set_assignment_partial {lt : α → α → Bool} (hlt : StrictWeak lt) {a b : VSet α} (hb : Reachable lt b) :
    (∃ a', a.copyAssign lt b = .ok a' ∧ a'.forward = b.forward) ∧
    (a.moveAssign b).1.forward = b.forward ∧ (a.moveAssign b).2.forward = [] ∧ (a.moveAssign b).2.isEmpty = true := by
  have hib := hb.inv hlt
  have hca : Inv lt a.clear := (clear_ok a).1
  have hv : vals a.clear = [] := by simp [vals, (clear_ok (lt := lt) a).2]
  obtain ⟨s', k1, k2, k3⟩ := insertAll_ok hlt b.forward hca (by
    rw [hv, hib.forward]; simpa using hib.vals_sorted)
  exact ⟨⟨s', k1, by rw [k2.forward, k3, hv]; simp⟩, rfl, rfl, rfl⟩

/-- **C11 is violated**: assigning a set to itself, by copy or by move, empties it. -/
theorem c11_vector_set_self_assignment_violated {lt : α → α → Bool} (s : VSet α) :
    s.selfCopyAssign lt = .ok s.clear ∧ s.clear.forward = [] ∧ s.selfMoveAssign.forward = [] :=
  ⟨rfl, rfl, rfl⟩

example : ∃ s, Reachable (fun a b : Nat => decide (a < b)) s ∧ s.forward = [1, 2, 5, 8, 9] ∧
    ∃ s', s.selfCopyAssign (fun a b : Nat => decide (a < b)) = .ok s' ∧ s'.forward = [] :=
  ⟨_, ⟨demoOps, _, rfl⟩, rfl, _, rfl, rfl⟩

/-- Elements at equal positions are equivalent. -/
def Pointwise (lt : α → α → Bool) (S T : List α) : Prop :=
  S.length = T.length ∧ ∀ (i : Nat) (x y : α), S[i]? = some x → T[i]? = some y → eqv lt x y = true

theorem pointwise_cons {lt : α → α → Bool} {x y : α} {S T : List α} :
    Pointwise lt (x :: S) (y :: T) ↔ eqv lt x y = true ∧ Pointwise lt S T := by
  constructor
  · rintro ⟨h1, h2⟩
    refine ⟨h2 0 x y rfl rfl, by simpa using h1, fun i a b ha hb => h2 (i + 1) a b (by simpa using ha) (by simpa using hb)⟩
  · rintro ⟨h1, h2, h3⟩
    refine ⟨by simpa using h2, fun i a b ha hb => ?_⟩
    cases i with
    | zero =>
      simp only [List.getElem?_cons_zero, Option.some.injEq] at ha hb
      subst ha hb; exact h1
    | succ i => exact h3 i a b (by simpa using ha) (by simpa using hb)

theorem eqLoop_ok {lt : α → α → Bool} : ∀ (T S : List α), T.length = S.length →
    ∃ r, eqLoop lt T S = .ok r ∧ (r = true ↔ Pointwise lt S T) := by
  intro T
  induction T with
  | nil =>
    intro S h
    cases S with
    | nil => exact ⟨true, rfl, by simp [Pointwise]⟩
    | cons => simp at h
  | cons v T ih =>
    intro S h
    cases S with
    | nil => simp at h
    | cons i S =>
      obtain ⟨r, h1, h2⟩ := ih S (by simpa using h)
      simp only [eqLoop]
      by_cases hlt : (lt v i || lt i v) = true
      · rw [if_pos hlt]
        refine ⟨false, rfl, ?_⟩
        simp only [pointwise_cons, Bool.false_eq_true, false_iff, not_and]
        intro he
        simp only [eqv, Bool.and_eq_true, Bool.not_eq_true'] at he
        rw [he.1, he.2] at hlt; cases hlt
      · rw [if_neg hlt]
        refine ⟨r, h1, ?_⟩
        rw [h2, pointwise_cons]
        have : eqv lt i v = true := by
          simp only [Bool.or_eq_true, not_or, Bool.not_eq_true] at hlt
          simp [eqv, hlt.1, hlt.2]
        simp [this]

/-- **C65.**  `a == b` holds exactly when the two sets have the same number of elements and the elements at equal
positions are equivalent; it never runs past the end of either set. -/
theorem c65_vector_set_equality {lt : α → α → Bool} (hlt : StrictWeak lt) {a b : VSet α} (ha : Reachable lt a)
    (hb : Reachable lt b) :
    ∃ r, a.eq lt b = .ok r ∧ (r = true ↔ Pointwise lt a.forward b.forward) := by
  have h1 := (c06_index_access hlt ha).1
  have h2 := (c06_index_access hlt hb).1
  simp only [VSet.eq, h1, h2]
  by_cases h : a.forward.length = b.forward.length
  · rw [if_pos h]
    exact eqLoop_ok _ _ h.symm
  · rw [if_neg h]
    refine ⟨false, rfl, ?_⟩
    simp only [Bool.false_eq_true, false_iff]
    intro hf
    exact h hf.1

example : ∃ a b, Reachable (fun a b : Nat => decide (a % 10 < b % 10)) a ∧ Reachable (fun a b : Nat => decide (a % 10 < b % 10)) b ∧
    a.forward = [1, 15] ∧ b.forward = [21, 5] ∧ a.eq (fun a b : Nat => decide (a % 10 < b % 10)) b = .ok true :=
  ⟨_, _, ⟨[.insert 15, .insert 1], _, rfl⟩, ⟨[.insert 21, .insert 5], _, rfl⟩, rfl, rfl, rfl⟩

/-! ## Heterogeneous keys

`find`, `lower_bound` and the others take a key of any type the comparator accepts.  Such a key can be equivalent to
several elements. -/

/-- The key `(klt, elt)` is compatible with the order of the elements: the elements smaller than the key form an
initial segment and the elements greater than the key a final one. -/
def Compatible (lt : α → α → Bool) (klt elt : α → Bool) : Prop :=
  (∀ a b, lt a b = true → klt a = true → klt b = true) ∧
  (∀ a b, lt a b = true → elt b = true → elt a = true) ∧
  ∀ a, ¬ (klt a = true ∧ elt a = true)

theorem Compatible.keyOK {lt : α → α → Bool} {klt elt : α → Bool} (h : Compatible lt klt elt) {L : List (Elem α)}
    (hs : Sorted lt L) : KeyOK klt elt L :=
  ⟨hs.imp (fun hab => ⟨h.1 _ _ hab, h.2.1 _ _ hab⟩), fun a _ => h.2.2 a.val⟩

/-- **C64 is violated**: with a key equivalent to several elements `lower_bound` does not return the first of them and
`upper_bound` does not return the first element greater than the key. -/
theorem c64_heterogeneous_bounds_violated :
    ∃ (s : VSet Nat) (klt elt : Nat → Bool), Reachable (fun a b : Nat => decide (a < b)) s ∧
      Compatible (fun a b : Nat => decide (a < b)) klt elt ∧ s.forward = [10, 11, 12, 13, 20] ∧
      s.forward.find? (fun a => !elt a) = some 10 ∧ (s.lowerBound klt elt).map Elem.val = some 11 ∧
      s.forward.find? klt = some 20 ∧ (do .ok ((← s.upperBound klt elt).map Elem.val)) = .ok (some 12) :=
  ⟨_, fun a => decide (1 < a / 10), fun a => decide (a / 10 < 1),
    ⟨[.insert 10, .insert 11, .insert 12, .insert 13, .insert 20], _, rfl⟩,
    ⟨by simp; omega, by simp; omega, by simp; omega⟩, rfl, rfl, rfl, rfl, rfl⟩

/-- **C64**, the part that holds: if at most one element is equivalent to the key, `lower_bound` is the first element
not less than the key and `upper_bound` the first element greater than the key, `find` the equivalent element. -/
theorem c64_heterogeneous_bounds_partial {lt : α → α → Bool} (hlt : StrictWeak lt) {s : VSet α} (hr : Reachable lt s)
    {klt elt : α → Bool} (hk : Compatible lt klt elt)
    (hone : (s.forward.filter (fun a => !klt a && !elt a)).length ≤ 1) :
    (s.lowerBound klt elt).map Elem.val = s.forward.find? (fun a => !elt a) ∧
    (∃ o, s.upperBound klt elt = .ok o ∧ o.map Elem.val = s.forward.find? klt) ∧
    (∃ o, s.find klt elt = .ok o ∧ o.map Elem.val = s.forward.find? (fun a => !klt a && !elt a)) := by
  have hi := hr.inv hlt
  rw [hi.forward] at hone ⊢
  have hko := hk.keyOK hi.sorted
  -- splitting at an equivalent element
  have hhit : ∀ {X Y : List (Elem α)} {e : Elem α}, toL s.root = X ++ e :: Y → klt e.val = false → elt e.val = false →
      (∀ a ∈ X.map Elem.val, elt a = true) ∧ (∀ a ∈ Y.map Elem.val, klt a = true) := by
    intro X Y e h h1 h2
    rw [vals, h] at hone
    simp only [List.map_append, List.map_cons, List.filter_append, List.filter_cons, h1, h2, Bool.not_false,
      Bool.and_self, if_true, List.length_append, List.length_cons] at hone
    have hX : (X.map Elem.val).filter (fun a => !klt a && !elt a) = [] := List.eq_nil_of_length_eq_zero (by omega)
    have hY : (Y.map Elem.val).filter (fun a => !klt a && !elt a) = [] := List.eq_nil_of_length_eq_zero (by omega)
    rw [List.filter_eq_nil_iff] at hX hY
    have hp := hko.1
    rw [h, List.pairwise_append, List.pairwise_cons] at hp
    constructor
    · intro a ha
      obtain ⟨x, hx, rfl⟩ := List.mem_map.1 ha
      have h3 := hX x.val ha
      have h4 := (hp.2.2 x hx e (by simp)).1
      cases h5 : klt x.val with
      | true => rw [h4 h5] at h1; cases h1
      | false => simpa [h5] using h3
    · intro a ha
      obtain ⟨y, hy, rfl⟩ := List.mem_map.1 ha
      have h3 := hY y.val ha
      have h4 := (hp.2.1.1 y hy).2
      cases h5 : elt y.val with
      | true => rw [h4 h5] at h2; cases h2
      | false => simpa [h5] using h3
  have hne : ∀ {a : α}, elt a = true → klt a = false := by
    intro a h
    cases h1 : klt a with
    | false => rfl
    | true => exact (hk.2.2 a ⟨h1, h⟩).elim
  have hcases : ∀ a ∈ vals s, (∀ x ∈ toL s.root, klt x.val = true ∨ elt x.val = true) → (!elt a) = klt a ∧ (!klt a && !elt a) = false := by
    intro a ha h
    simp only [vals, List.mem_map] at ha
    obtain ⟨x, hx, rfl⟩ := ha
    rcases h x hx with h | h
    · have : elt x.val = false := by
        cases h1 : elt x.val with
        | false => rfl
        | true => exact (hk.2.2 _ ⟨h, h1⟩).elim
      simp [h, this]
    · simp [h, hne h]
  refine ⟨?_, ?_, ?_⟩
  · rcases findBoundByKey_ok _ _ s.root none hko with ⟨X, e, Y, q1, q2, q3, q4⟩ | ⟨q1, q2⟩
    · obtain ⟨hX, hY⟩ := hhit q2 q3 q4
      rw [vals_split q2, List.find?_append, List.find?_eq_none.2 (by intro a ha; simp [hX a ha])]
      simp [VSet.lowerBound, q1, q4]
    · rw [find?_congr' (fun a ha => (hcases a ha q2).1)]
      simp only [VSet.lowerBound, q1, vals, Option.or_none, List.find?_map, Function.comp_def]
  · rcases findBoundByKey_ok _ _ s.root none hko with ⟨X, e, Y, q1, q2, q3, q4⟩ | ⟨q1, q2⟩
    · obtain ⟨hX, hY⟩ := hhit q2 q3 q4
      have hn : nextOf e.id s.list = .ok Y.head? := by
        rw [hi.list, q2]; exact nextOf_ok (by rw [← q2]; exact hi.uniq)
      refine ⟨Y.head?, by simp only [VSet.upperBound, q1, hn], ?_⟩
      rw [vals_split q2, List.find?_append, List.find?_eq_none.2 (by intro a ha; simp [hne (hX a ha)])]
      cases Y with
      | nil => simp [q3]
      | cons y Y => simp [q3, hY y.val (by simp)]
    · refine ⟨(toL s.root).find? (fun a => klt a.val), ?_, ?_⟩
      · simp only [VSet.upperBound, q1, Option.or_none]
        cases (toL s.root).find? (fun a => klt a.val) <;> rfl
      · simp only [vals, List.find?_map, Function.comp_def]
  · rcases findNode_root hko with ⟨c, n, l, e, r, gs, p, X, Y, q1, q2, q3, q4⟩ | ⟨p, q1, q2⟩
    · obtain ⟨hX, hY⟩ := hhit q2 q3 q4
      refine ⟨some e, by simp only [VSet.find, q1], ?_⟩
      rw [vals_split q2, List.find?_append, List.find?_eq_none.2 (by intro a ha; simp [hX a ha])]
      simp [q3, q4]
    · refine ⟨none, by simp only [VSet.find, q1], ?_⟩
      symm
      rw [List.find?_eq_none.2 (by intro a ha; simp only [(hcases a ha q2).2]; simp)]
      rfl

example : ∃ s, Reachable (fun a b : Nat => decide (a < b)) s ∧ s.forward = [10, 21, 32] ∧
    Compatible (fun a b : Nat => decide (a < b)) (fun a => decide (2 < a / 10)) (fun a => decide (a / 10 < 2)) ∧
    (s.forward.filter (fun a => !decide (2 < a / 10) && !decide (a / 10 < 2))).length ≤ 1 :=
  ⟨_, ⟨[.insert 10, .insert 21, .insert 32], _, rfl⟩, rfl, ⟨by simp; omega, by simp; omega, by simp; omega⟩, by decide⟩

/-- **C64**, any number of elements equivalent to the key: `find` and `lower_bound` give one of them, `upper_bound` what is behind the one `lower_bound` gives; without any, `find` gives
nothing and the bounds are the first element greater than the key.  Missing: which one of them it is. -/
theorem c64_any_equivalent_partial {lt : α → α → Bool} (hlt : StrictWeak lt) {s : VSet α} (hr : Reachable lt s) {klt elt : α → Bool} (hk : Compatible lt klt elt) :
    ((∃ a ∈ s.forward, klt a = false ∧ elt a = false) →
      (∃ e, s.find klt elt = .ok (some e) ∧ e.val ∈ s.forward ∧ klt e.val = false ∧ elt e.val = false) ∧
      ∃ X a Y, s.forward = X ++ a :: Y ∧ klt a = false ∧ elt a = false ∧ (s.lowerBound klt elt).map Elem.val = some a ∧
        ∃ o, s.upperBound klt elt = .ok o ∧ o.map Elem.val = Y.head?) ∧
    ((∀ a ∈ s.forward, klt a = true ∨ elt a = true) →
      s.find klt elt = .ok none ∧ (s.lowerBound klt elt).map Elem.val = s.forward.find? klt ∧ ∃ o, s.upperBound klt elt = .ok o ∧ o.map Elem.val = s.forward.find? klt) := by
  have hi := hr.inv hlt
  rw [hi.forward]
  have hko := hk.keyOK hi.sorted
  have hmem : ∀ {x : Elem α}, x ∈ toL s.root → x.val ∈ vals s := fun h => List.mem_map.2 ⟨_, h, rfl⟩
  constructor
  · rintro ⟨a, ha, h1, h2⟩
    obtain ⟨x, hx, rfl⟩ := List.mem_map.1 ha
    have hno : ¬ ∀ x ∈ toL s.root, klt x.val = true ∨ elt x.val = true := fun h => by
      rcases h x hx with h | h
      · rw [h1] at h; cases h
      · rw [h2] at h; cases h
    constructor
    · rcases findNode_root hko with ⟨c, n, l, e, r, gs, p, X, Y, q1, q2, q3, q4⟩ | ⟨p, q1, q2⟩
      · exact ⟨e, by simp only [VSet.find, q1], hmem (by rw [q2]; simp), q3, q4⟩
      · exact (hno q2).elim
    · rcases findBoundByKey_ok _ _ s.root none hko with ⟨X, e, Y, q1, q2, q3, q4⟩ | ⟨q1, q2⟩
      · have hn : nextOf e.id s.list = .ok Y.head? := by
          rw [hi.list, q2]; exact nextOf_ok (by rw [← q2]; exact hi.uniq)
        exact ⟨_, e.val, _, vals_split q2, q3, q4, by simp [VSet.lowerBound, q1], Y.head?, by simp only [VSet.upperBound, q1, hn], by cases Y <;> simp⟩
      · exact (hno q2).elim
  · intro h
    have hno : ∀ {X Y : List (Elem α)} {e : Elem α}, toL s.root = X ++ e :: Y → klt e.val = false → elt e.val = false → False := by
      intro X Y e q1 q2 q3
      rcases h _ (hmem (x := e) (by rw [q1]; simp)) with h | h
      · rw [q2] at h; cases h
      · rw [q3] at h; cases h
    refine ⟨?_, ?_⟩
    · rcases findNode_root hko with ⟨c, n, l, e, r, gs, p, X, Y, q1, q2, q3, q4⟩ | ⟨p, q1, q2⟩
      · exact (hno q2 q3 q4).elim
      · simp only [VSet.find, q1]
    · rcases findBoundByKey_ok _ _ s.root none hko with ⟨X, e, Y, q1, q2, q3, q4⟩ | ⟨q1, q2⟩
      · exact (hno q2 q3 q4).elim
      · refine ⟨by simp only [VSet.lowerBound, q1, vals, Option.or_none, List.find?_map, Function.comp_def], (toL s.root).find? (fun a => klt a.val), ?_, ?_⟩
        · simp only [VSet.upperBound, q1, Option.or_none]
          cases (toL s.root).find? (fun a => klt a.val) <;> rfl
        · simp only [vals, List.find?_map, Function.comp_def]

-- Non-vacuity: four elements are equivalent to the key.
example : ∃ s, Reachable (fun a b : Nat => decide (a < b)) s ∧ s.forward = [10, 11, 12, 13, 20] ∧
    Compatible (fun a b : Nat => decide (a < b)) (fun a => decide (1 < a / 10)) (fun a => decide (a / 10 < 1)) ∧
    ∃ a ∈ s.forward, (decide (1 < a / 10)) = false ∧ decide (a / 10 < 1) = false :=
  ⟨_, ⟨[.insert 10, .insert 11, .insert 12, .insert 13, .insert 20], _, rfl⟩, rfl, ⟨by simp; omega, by simp; omega, by simp; omega⟩, 12, by decide, by decide, by decide⟩

end Verif.VectorSet
