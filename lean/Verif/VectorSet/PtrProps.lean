import Verif.VectorSet.PtrThrowSpec
import Verif.VectorSet.PtrSet

/-!
# C145: `vector_set` in memory

The theorems about `vector_set` are lifted to the model with nodes, parent pointers and links (`PtrModel.lean`).
-/

namespace Verif.VectorSet.Heap

open Verif.VectorSet.Spec (Op Out)

variable {α : Type}

/-! ## Specification -/

/-- The memory holds the elements `S` and nothing else: the tree and the list have the same nodes in the same order. -/
def Holds (m : Mem α) (S : List α) : Prop :=
  ∃ ids : List Nat, ids.Nodup ∧ InOrder m.node none m.root ids ∧ (∀ i, m.node i ≠ none ↔ i ∈ ids) ∧
    QuickList.forward m.links 0 (ids.length + 1) = .ok (some (ids.map (· + 1))) ∧
    QuickList.backward m.links 0 (ids.length + 1) = .ok (some (ids.map (· + 1)).reverse) ∧
    (∀ a, m.links.alive a = true ↔ a = 0 ∨ ∃ i ∈ ids, a = i + 1) ∧
    ids.map (fun i => (m.node i).map Cell.value) = S.map some

/-- The operations that remove the element `v` in the node `p`. -/
def Removes (lt : α → α → Bool) (m : Mem α) (p : Nat) (v : α) : Op α → Prop
  | .clear => True
  | .eraseAt i => iterAt i m = .ok (some p, m)
  | .eraseKey k => lt k v = false ∧ lt v k = false
  | _ => False

/-! ## Lemmas -/

theorem Rep.empty : Rep (Mem.empty : Mem α) [] VSet.empty where
  tree := ⟨trivial, trivial, rfl, by simp [VSet.empty, idsT, idsF], by simp [VSet.empty, idsT, idsF]⟩
  ring := ⟨by simp [VSet.empty, QuickList.Chain, Mem.empty], by simp [VSet.empty], by simp [VSet.empty, Mem.empty]⟩
  next := rfl
  dom := by intro i; simp [Mem.empty, VSet.empty, idsT]
  alive := by intro a; simp [Mem.empty, VSet.empty, idsT]
  apart := by intro i hi; cases hi

theorem inOrder_rep {nd : Nat → Option (Cell α)} : ∀ {t : Tree α} {par : Ptr}, RepT nd par t → CntOK t → InOrder nd par (tptr t) ((toL t).map Elem.id) := by
  intro t
  induction t with
  | nil => intro par _ _; exact .nil par
  | node c n l e r ihl ihr =>
    intro par h hc
    rw [tptr_node]
    simp only [toL, List.map_append, List.map_cons]
    exact .node h.1 rfl (ihl h.2.1 hc.2.1) (ihr h.2.2 hc.2.2) (by simpa using hc.1)

theorem holds_rep {lt : α → α → Bool} {m : Mem α} {s : VSet α} (hi : Inv lt s) (h : Rep m [] s) : Holds m s.forward := by
  have hroot : m.root = tptr s.root := h.tree.root
  have hmem : ∀ i, i ∈ s.list.map Elem.id ↔ i ∈ idsT s.root := fun i => by rw [hi.list]; exact (idsT_perm s.root).mem_iff.symm
  have hring : QuickList.RingOf m.links 0 ((s.list.map Elem.id).map (· + 1)) := by rw [List.map_map]; exact h.ring
  refine ⟨s.list.map Elem.id, ?_, ?_, fun i => ?_, ?_, ?_, fun a => ?_, ?_⟩
  · rw [hi.list]
    exact List.pairwise_map.2 hi.uniq
  · rw [hroot, hi.list]
    exact inOrder_rep h.tree.tree hi.cnt
  · rw [hmem, ne_eq, h.dom]
    simp
  · exact hring.forward (by simp)
  · exact hring.backward (by simp)
  · rw [h.alive]
    simp only [hmem, List.not_mem_nil, or_false]
  · simp only [VSet.forward, List.map_map]
    apply List.map_congr_left
    intro e he
    rw [hi.list] at he
    obtain ⟨c, h1, h2⟩ := repT_cell h.tree.tree he
    simp [h1, h2]

/-- The set behind a memory that a history has produced. -/
theorem run_set {lt : α → α → Bool} (hlt : StrictWeak lt) {ops : List (Op α)} {outs : List (Out α)} {m : Mem α}
    (hr : run lt ops Mem.empty = .ok (outs, m)) : ∃ s, VSet.empty.run lt ops = .ok (s, outs) ∧ Rep m [] s ∧ Inv lt s := by
  have := run_rep hlt ops (Inv.empty lt) Rep.empty
  cases hs : VSet.empty.run lt ops with
  | ok r =>
    obtain ⟨s, os⟩ := r
    rw [hs] at this
    obtain ⟨m', e1, r1, i1⟩ := this
    rw [hr] at e1
    cases e1
    exact ⟨s, rfl, r1, i1⟩
  | throw e => rw [hs] at this; exact this.elim
  | ub => rw [hs] at this; simp only at this; rw [hr] at this; cases this

/-! ## Theorems -/

/-- **C145.**  For every strict weak order and every history: the operations on nodes with parent pointers report exactly
what a mathematical sorted set reports, and afterwards the memory holds exactly its elements.  They are undefined exactly
when the caller breaks a precondition. -/
theorem c145_memory_is_sorted_set {lt : α → α → Bool} (hlt : StrictWeak lt) (ops : List (Op α)) :
    match Spec.run lt [] ops with
    | .ok (S, outs) => ∃ m, run lt ops Mem.empty = .ok (outs, m) ∧ Holds m S
    | .throw _ => False
    | .ub => run lt ops Mem.empty = .ub := by
  have h1 := run_rep hlt ops (Inv.empty lt) Rep.empty
  have h2 := c05_vector_set_is_sorted_set hlt ops
  cases hs : VSet.empty.run lt ops with
  | ok r =>
    obtain ⟨s, os⟩ := r
    rw [hs] at h1 h2
    rw [← h2]
    obtain ⟨m, e1, r1, i1⟩ := h1
    exact ⟨m, e1, holds_rep i1 r1⟩
  | throw e => rw [hs] at h1; exact h1.elim
  | ub => rw [hs] at h1 h2; rw [← h2]; exact h1

/-- The history of the examples: twelve insertions that rotate in both directions, and removals of inner nodes. -/
def demo : List (Op Nat) :=
  [.insert 50, .insert 20, .insert 80, .insert 10, .insert 30, .insert 70, .insert 90, .insert 25, .insert 35, .insert 27, .insert 26, .insert 28,
   .eraseKey 20, .eraseAt 3, .eraseKey 50, .insert 27, .upperBound 27, .lowerBound 29, .size]

example : Spec.run (fun a b : Nat => decide (a < b)) [] demo = .ok ([10, 25, 26, 28, 30, 35, 70, 80, 90].insertIdx 3 27,
    [.inserted 50 true, .inserted 20 true, .inserted 80 true, .inserted 10 true, .inserted 30 true, .inserted 70 true, .inserted 90 true,
     .inserted 25 true, .inserted 35 true, .inserted 27 true, .inserted 26 true, .inserted 28 true,
     .num 1, .unit, .num 1, .inserted 27 true, .iter (some 28), .iter (some 30), .num 10]) := by decide

example : (run (fun a b : Nat => decide (a < b)) demo Mem.empty).isOk = true := by decide +kernel

/-- **C145**, the index: after every history the i-th iterator points to the i-th element, `index_of` gives `i`,
`operator[]` and `at` give the element; `at` throws for every other index. -/
theorem c145_index_and_iterators {lt : α → α → Bool} (hlt : StrictWeak lt) {ops : List (Op α)} {outs : List (Out α)} {m : Mem α} {S : List α}
    (hr : run lt ops Mem.empty = .ok (outs, m)) (hS : Spec.run lt [] ops = .ok (S, outs)) (i : Nat) :
    (∀ h : i < S.length, ∃ p, iterAt i m = .ok (some p, m) ∧ deref (some p) m = .ok (some S[i], m) ∧ indexOfNode (some p) m = .ok (i, m) ∧
      get i m = .ok (S[i], m) ∧ at_ i m = .ok (S[i], m)) ∧
    (S.length ≤ i → at_ i m = .throw .outOfRange) := by
  obtain ⟨s, q1, q2, q3⟩ := run_set hlt hr
  have h2 := c05_vector_set_is_sorted_set hlt ops
  rw [q1, hS] at h2
  cases h2
  have hreach : Reachable lt s := ⟨ops, outs, q1⟩
  have hsz : s.size = s.list.length := by
    rw [(c06_index_access hlt hreach).1]; simp [VSet.forward]
  have hroot : m.root = tptr s.root := q2.tree.root
  have hlen := q2.tree.length
  have hsize := size_rep q2
  constructor
  · intro h
    have hl : i < s.list.length := by simpa [VSet.forward] using h
    have hget : s.list[i]? = some s.list[i] := List.getElem?_eq_getElem hl
    have hmem : s.list[i] ∈ toL s.root := by rw [← q3.list]; exact List.getElem_mem hl
    have hval : s.forward[i] = s.list[i].val := by simp [VSet.forward]
    rw [hval]
    have hidx := c06_index_of_iterator hlt hreach i _ hget
    generalize s.list[i] = e at *
    have hd := deref_ok q2 (o := some e) (fun e' he => by cases he; exact hmem)
    have hg : get i m = .ok (e.val, m) := by
      have := findNodeByIndex_ok (i := i) (k := 2 * m.next + 3) q2.tree.tree (by simp at hlen; omega)
      rw [VectorSet.findNodeByIndex_ok _ _ q3.cnt, ← q3.list, hget] at this
      obtain ⟨c, d1, d2⟩ := repT_cell q2.tree.tree hmem
      rw [get, bind_apply, fuel_apply]; simp only []
      rw [bind_apply, getRoot_apply, hroot]; simp only []
      rw [bind_apply, this]; simp only []
      rw [bind_apply, show eptr (some e) = some e.id from rfl, rd_ok d1]
      simp [d2]
    refine ⟨e.id, ?_, hd, ?_, hg, ?_⟩
    · rw [iterAt_ok q2.ring, if_pos (by omega), hget]
      rfl
    · simp only [VSet.indexOfIter] at hidx
      rcases locate_ok e.id s.root [] with ⟨c, n, l, e', r, gs, w1, w2, w3⟩ | ⟨w1, _⟩
      · rw [w1] at hidx
        simp only [zip] at w2
        have cc : RepC m (.node c n l e' r) gs := by rw [repC_zip, w2]; exact q2.tree
        have := indexOfNode_ok cc hidx
        rw [tptr_node, w3] at this
        exact this
      · rw [w1] at hidx; cases hidx
    · rw [at_, bind_apply, hsize]; simp only []
      rw [ite_apply', if_pos (by omega)]
      exact hg
  · intro h
    have hl : s.list.length ≤ i := by simpa [VSet.forward] using h
    rw [at_, bind_apply, hsize]; simp only []
    rw [ite_apply', if_neg (by omega)]
    rfl

example : (do let (_, m) ← run (fun a b : Nat => decide (a < b)) demo Mem.empty
              let (p, _) ← iterAt 6 m
              let (v, _) ← get 6 m
              let (i, _) ← indexOfNode p m
              Res.ok (p, v, i)) = .ok (some 8, 35, 6) := by decide +kernel

/-- **C145**, lifetimes: a pointer to an element stays valid and shows the same value through every operation except
those that remove that element; `erase(it)` frees its node. -/
theorem c145_pointers_stay_valid {lt : α → α → Bool} (hlt : StrictWeak lt) {ops : List (Op α)} {outs : List (Out α)} {m m' : Mem α} {op : Op α} {o : Out α}
    {p : Nat} {v : α} (hr : run lt ops Mem.empty = .ok (outs, m)) (hst : step lt op m = .ok (o, m')) (hp : (m.node p).map Cell.value = some v) :
    (Removes lt m p v op → m'.node p = none) ∧ (¬ Removes lt m p v op → (m'.node p).map Cell.value = some v) := by
  obtain ⟨s, q1, q2, q3⟩ := run_set hlt hr
  have hreach : Reachable lt s := ⟨ops, outs, q1⟩
  -- the element
  obtain ⟨e, he, rfl, rfl⟩ : ∃ e ∈ toL s.root, e.id = p ∧ e.val = v := by
    have hin : p ∈ idsT s.root := by
      by_contra hc
      rw [(q2.dom p).2 ⟨hc, by simp⟩] at hp
      cases hp
    obtain ⟨e, he, rfl⟩ := mem_idsT.1 hin
    obtain ⟨c, d1, d2⟩ := repT_cell q2.tree.tree he
    rw [d1] at hp
    simp only [Option.map_some, Option.some.injEq] at hp
    exact ⟨e, he, rfl, d2.symm.trans hp⟩
  -- the step of the set
  obtain ⟨s', hs⟩ : ∃ s', s.step lt op = .ok (s', o) := by
    have heq := step_eq hlt q3 op
    cases hs : s.step lt op with
    | ok r =>
      obtain ⟨s', o'⟩ := r
      obtain ⟨m1, e1, -⟩ := step_rep hlt q3 q2 hs
      rw [hst] at e1
      cases e1
      exact ⟨s', rfl⟩
    | throw x => rw [hs] at heq; exact (spec_step_not_throw op x heq.symm).elim
    | ub => rw [hs] at heq; rw [step_rep_ub q2 heq.symm] at hst; cases hst
  have hi' := step_inv hlt q3 hs
  obtain ⟨m1, e1, r1⟩ := step_rep hlt q3 q2 hs
  rw [hst] at e1
  cases e1
  have hlist : e ∈ s.list := by rw [q3.list]; exact he
  have keep : e ∈ s'.list → (m'.node e.id).map Cell.value = some e.val := by
    intro hm
    rw [hi'.list] at hm
    obtain ⟨c, d1, d2⟩ := repT_cell r1.tree.tree hm
    simp [d1, d2]
  have gone : (∀ a ∈ s'.list, a.id ≠ e.id) → m'.node e.id = none := by
    intro hn
    rw [r1.dom, mem_idsT, ← hi'.list]
    refine ⟨?_, by simp⟩
    rintro ⟨a, ha, hae⟩
    exact hn a ha hae
  have uniq : ∀ a ∈ s.list, a.id = e.id → a = e := by
    intro a ha hae
    obtain ⟨X, Y, h1⟩ := List.append_of_mem ha
    obtain ⟨A, B, h2⟩ := List.append_of_mem hlist
    have hu := q3.uniq
    rw [← q3.list, h1] at hu
    exact (uniq_split hu (h1.symm.trans h2) hae).2.1
  have c63 := c63_iterators_stay_valid hlt hreach
  cases op with
  | insert v =>
    obtain ⟨⟨s1, e1, b⟩, h1, h2⟩ := Res.bind_eq_ok.1 hs
    cases h2
    exact ⟨fun hf => hf.elim, fun _ => keep (((c63.1 v _ _ _ h1).2 e).2 (Or.inl hlist))⟩
  | eraseKey k =>
    obtain ⟨⟨s1, n⟩, h1, h2⟩ := Res.bind_eq_ok.1 hs
    cases h2
    have hl := c63.2.2 k _ _ h1
    constructor
    · rintro ⟨a1, a2⟩
      apply gone
      intro a ha hae
      rw [hl, List.mem_filter] at ha
      have := uniq a ha.1 hae
      subst this
      simp [Spec.eqv, a1, a2] at ha
    · intro hk
      apply keep
      rw [hl, List.mem_filter]
      refine ⟨hlist, ?_⟩
      simp only [Removes, not_and_or, Bool.not_eq_false] at hk
      rcases hk with hk | hk <;> simp [Spec.eqv, hk]
  | eraseAt i =>
    simp only [VSet.step] at hs
    cases hget : s.list[i]? with
    | none => rw [hget] at hs; cases hs
    | some a =>
      rw [hget] at hs
      obtain ⟨s2, g1, g2⟩ := Res.bind_eq_ok.1 hs
      cases g2
      have hl := c63.2.1 i a _ hget g1
      have hil : i < s.list.length := by
        by_contra hc
        rw [List.getElem?_eq_none (by omega)] at hget
        cases hget
      have hit : iterAt i m = .ok (some a.id, m) := by
        rw [iterAt_ok q2.ring, if_pos (by omega), hget]
        rfl
      simp only [Removes]
      rw [hit]
      constructor
      · intro hp'
        have hid : a.id = e.id := by simpa using hp'
        have := uniq a (List.mem_of_getElem? hget) hid
        subst this
        apply gone
        intro b hb hbe
        have hbs : b ∈ s.list := by rw [hl.1] at hb; exact List.mem_of_mem_eraseIdx hb
        have := uniq b hbs hbe
        subst this
        exact hl.2 hb
      · intro hp'
        apply keep
        rw [hl.1]
        obtain ⟨j, hj, rfl⟩ := List.getElem_of_mem hlist
        refine List.mem_eraseIdx_iff_getElem.2 ⟨j, hj, ?_, rfl⟩
        rintro rfl
        apply hp'
        rw [List.getElem?_eq_getElem hj] at hget
        cases hget
        rfl
  | clear =>
    cases hs
    exact ⟨fun _ => gone (by simp [VSet.clear]), fun hf => (hf trivial).elim⟩
  | size => cases hs; exact ⟨fun hf => hf.elim, fun _ => keep hlist⟩
  | empty => cases hs; exact ⟨fun hf => hf.elim, fun _ => keep hlist⟩
  | contains k => cases hs; exact ⟨fun hf => hf.elim, fun _ => keep hlist⟩
  | find k =>
    obtain ⟨o', h1, h2⟩ := Res.bind_eq_ok.1 hs
    cases h2
    exact ⟨fun hf => hf.elim, fun _ => keep hlist⟩
  | lowerBound k => cases hs; exact ⟨fun hf => hf.elim, fun _ => keep hlist⟩
  | upperBound k =>
    obtain ⟨o', h1, h2⟩ := Res.bind_eq_ok.1 hs
    cases h2
    exact ⟨fun hf => hf.elim, fun _ => keep hlist⟩

example : (do let (_, m) ← run (fun a b : Nat => decide (a < b)) demo Mem.empty
              let (_, m') ← step (fun a b : Nat => decide (a < b)) (.eraseKey 30) m
              Res.ok (((m.node 8).map Cell.value, (m'.node 8).map Cell.value), (m.node 4).map Cell.value, (m'.node 4).map Cell.value)) =
    .ok ((some 35, some 35), some 30, none) := by decide +kernel

/-- **C145**, no leak: after any history `clear()` (which the destructor calls) leaves no node allocated and no link alive
but the one of the list itself. -/
theorem c145_clear_frees_every_node {lt : α → α → Bool} (hlt : StrictWeak lt) {ops : List (Op α)} {outs : List (Out α)} {m : Mem α}
    (hr : run lt ops Mem.empty = .ok (outs, m)) :
    ∃ m', clear m = .ok ((), m') ∧ m'.root = none ∧ (∀ i, m'.node i = none) ∧ (∀ a, m'.links.alive a = true ↔ a = 0) ∧
      QuickList.isEmpty m'.links 0 = .ok true := by
  obtain ⟨s, q1, q2, q3⟩ := run_set hlt hr
  obtain ⟨m', e1, r1⟩ := clear_rep q3 q2
  refine ⟨m', e1, r1.tree.root, fun i => (r1.dom i).2 (by simp [VSet.clear, idsT]), fun a => ?_, r1.ring.isEmpty⟩
  rw [r1.alive]
  simp [VSet.clear, idsT]

example : (do let (_, m) ← run (fun a b : Nat => decide (a < b)) demo Mem.empty
              let (_, m') ← clear m
              Res.ok ((List.range 13).map (fun i => (m.node i).isSome), (List.range 13).map (fun i => (m'.node i).isSome))) =
    .ok ([false, false, true, true, true, true, true, true, true, false, true, true, true], List.replicate 13 false) := by decide +kernel

end Verif.VectorSet.Heap
