import Verif.VectorSet.PtrThrowStep
import Verif.VectorSet.PtrProps

/-!
# C146: exceptions in `vector_set`

The comparison, the constructor of an element and the allocation may throw at any moment.
-/

namespace Verif.VectorSet.Heap

open Verif.VectorSet.Spec (Op Out)

variable {α : Type}

/-! ## Lemmas -/

theorem holdsBut_rep {lt : α → α → Bool} {m : Mem α} {lost : List Nat} {s : VSet α} (hi : Inv lt s) (h : Rep m lost s) : HoldsBut m lost s.forward := by
  have hroot : m.root = tptr s.root := h.tree.root
  have hmem : ∀ i, i ∈ s.list.map Elem.id ↔ i ∈ idsT s.root := fun i => by rw [hi.list]; exact (idsT_perm s.root).mem_iff.symm
  have hring : QuickList.RingOf m.links 0 ((s.list.map Elem.id).map (· + 1)) := by rw [List.map_map]; exact h.ring
  refine ⟨s.list.map Elem.id, ?_, ?_, ?_, fun i => ?_, ?_, ?_, fun a => ?_, ?_⟩
  · rw [hi.list]
    exact List.pairwise_map.2 hi.uniq
  · intro i hi' hl
    exact (h.apart i hl).1 ((hmem i).1 hi')
  · rw [hroot, hi.list]
    exact inOrder_rep h.tree.tree hi.cnt
  · rw [hmem, ne_eq, h.dom, not_and_or, not_not, not_not]
  · exact hring.forward (by simp)
  · exact hring.backward (by simp)
  · rw [h.alive]
    simp only [hmem]
  · simp only [VSet.forward, List.map_map]
    apply List.map_congr_left
    intro e he
    rw [hi.list] at he
    obtain ⟨c, h1, h2⟩ := repT_cell h.tree.tree he
    simp [h1, h2]

theorem runT_good {lt : α → α → Bool} (hlt : StrictWeak lt) : ∀ (calls : List (Call α × Nat)) {s : VSet α} {m : Mem α} {lost : List Nat}, Inv lt s → Rep m lost s → ∀ raw,
    match runT lt calls m raw with
    | .ok (outs, m', raw') => ∃ s' lost', Inv lt s' ∧ Rep m' lost' s' ∧
        specRunT lt s.forward (calls.map fun p => p.1.op) (outs.map Option.isNone) = .ok (s'.forward, outs) ∧
        raw'.length + lost'.length ≤ raw.length + lost.length + failures (calls.map Prod.fst) outs
    | .throw _ => False
    | .ub => ∃ before c n after S outs r, calls = before ++ (c, n) :: after ∧ runT lt before m raw = .ok (outs, r) ∧
        specRunT lt s.forward (before.map fun p => p.1.op) (outs.map Option.isNone) = .ok (S, outs) ∧ Spec.step lt S c.op = .ub := by
  intro calls
  induction calls with
  | nil =>
    intro s m lost hi h raw
    exact ⟨s, lost, hi, h, rfl, by simp [failures]⟩
  | cons p calls ih =>
    obtain ⟨c, n⟩ := p
    intro s m lost hi h raw
    have hg := stepT_good hlt hi h raw n c
    simp only [runT]
    cases hs : stepT lt c ⟨m, raw, n⟩ with
    | ub =>
      rw [hs] at hg
      exact ⟨[], c, n, calls, s.forward, [], (m, raw), rfl, rfl, rfl, hg⟩
    | throw e => rw [hs] at hg; exact hg
    | ok r =>
      obtain ⟨o, t⟩ := r
      rw [hs] at hg
      cases o with
      | some o =>
        obtain ⟨s1, i1, r1, q1, q2⟩ := hg
        have := ih i1 r1 t.raw
        simp only []
        cases hr : runT lt calls t.mem t.raw with
        | ok r =>
          obtain ⟨os, m', raw'⟩ := r
          rw [hr] at this
          obtain ⟨s', lost', w1, w2, w3, w4⟩ := this
          refine ⟨s', lost', w1, w2, ?_, ?_⟩
          · simp only [List.map_cons, specRunT, Option.isNone_some, Bool.false_eq_true, if_false, q2, Res.ok_bind, w3]
          · simp only [List.map_cons, failures, Option.isNone_some, Bool.and_false, Bool.false_eq_true, if_false, Nat.zero_add]
            rw [← q1]
            exact w4
        | throw e => rw [hr] at this; exact this
        | ub =>
          rw [hr] at this
          obtain ⟨before, c', n', after, S, outs, r, w1, w2, w3, w4⟩ := this
          refine ⟨(c, n) :: before, c', n', after, S, some o :: outs, r, by rw [w1]; rfl, ?_, ?_, w4⟩
          · simp only [runT, hs, w2, Res.ok_bind]
          · simp only [List.map_cons, specRunT, Option.isNone_some, Bool.false_eq_true, if_false, q2, Res.ok_bind, w3]
      | none =>
        obtain ⟨s1, lost1, i1, r1, f1, -, q1, -⟩ := hg
        have := ih i1 r1 t.raw
        rw [f1] at this
        simp only []
        cases hr : runT lt calls t.mem t.raw with
        | ok r =>
          obtain ⟨os, m', raw'⟩ := r
          rw [hr] at this
          obtain ⟨s', lost', w1, w2, w3, w4⟩ := this
          refine ⟨s', lost', w1, w2, ?_, ?_⟩
          · simp only [List.map_cons, specRunT, Option.isNone_none, if_true, w3, Res.ok_bind]
          · simp only [List.map_cons, failures, Option.isNone_none, Bool.and_true]
            omega
        | throw e => rw [hr] at this; exact this
        | ub =>
          rw [hr] at this
          obtain ⟨before, c', n', after, S, outs, r, w1, w2, w3, w4⟩ := this
          refine ⟨(c, n) :: before, c', n', after, S, none :: outs, r, by rw [w1]; rfl, ?_, ?_, w4⟩
          · simp only [runT, hs, w2, Res.ok_bind]
          · simp only [List.map_cons, specRunT, Option.isNone_none, if_true, w3, Res.ok_bind]

theorem runT_set {lt : α → α → Bool} (hlt : StrictWeak lt) {calls : List (Call α × Nat)} {outs : List (Option (Out α))} {m : Mem α} {raw : List Nat}
    (hr : runT lt calls Mem.empty [] = .ok (outs, m, raw)) : ∃ s lost, Inv lt s ∧ Rep m lost s ∧
      specRunT lt [] (calls.map fun p => p.1.op) (outs.map Option.isNone) = .ok (s.forward, outs) := by
  have := runT_good hlt calls (Inv.empty lt) Rep.empty []
  rw [hr] at this
  obtain ⟨s, lost, h1, h2, h3, -⟩ := this
  exact ⟨s, lost, h1, h2, h3⟩

/-- What the search costs. -/
theorem findNodeByKeyT_cost {klt elt : α → Bool} {m : Mem α} : ∀ n x par b, findNodeByKey klt elt n x par m = .ok (b, m) →
    ∃ j, ∀ raw k, findNodeByKeyT klt elt n x par ⟨m, raw, j + k⟩ = .ok (some b, ⟨m, raw, k⟩) := by
  intro n
  induction n with
  | zero => intro x par b h; cases h
  | succ n ih =>
    intro x par b h
    rw [findNodeByKey] at h
    by_cases hx : x = none
    · rw [ite_apply', if_pos hx] at h
      cases h
      refine ⟨0, fun raw k => ?_⟩
      rw [findNodeByKeyT, if_pos hx, Nat.zero_add]
      rfl
    · rw [ite_apply', if_neg hx] at h
      rcases rd_cases x m with hr | ⟨c, hr⟩
      · rw [bind_apply, hr] at h
        cases h
      · rw [bind_apply, hr] at h
        simp only [] at h
        by_cases h1 : klt c.value = true
        · rw [if_pos h1, bind_apply, hr] at h
          simp only [] at h
          obtain ⟨j, hj⟩ := ih c.left x b h
          refine ⟨j + 1, fun raw k => ?_⟩
          rw [findNodeByKeyT, if_neg hx, T.ok_bind (T.lift_ok (t := ⟨m, raw, _⟩) hr), T.ok_bind (T.call_succ (n := j + k) (by simp only; omega)), if_pos h1]
          exact hj raw k
        · rw [if_neg h1, bind_apply, hr] at h
          simp only [] at h
          by_cases h2 : elt c.value = true
          · rw [if_pos h2, bind_apply, hr] at h
            simp only [] at h
            obtain ⟨j, hj⟩ := ih c.right x b h
            refine ⟨j + 2, fun raw k => ?_⟩
            rw [findNodeByKeyT, if_neg hx, T.ok_bind (T.lift_ok (t := ⟨m, raw, _⟩) hr), T.ok_bind (T.call_succ (n := j + k + 1) (by simp only; omega)), if_neg h1,
              T.ok_bind (T.call_succ (n := j + k) rfl), if_pos h2]
            exact hj raw k
          · rw [if_neg h2] at h
            cases h
            refine ⟨2, fun raw k => ?_⟩
            rw [findNodeByKeyT, if_neg hx, T.ok_bind (T.lift_ok (t := ⟨m, raw, _⟩) hr), T.ok_bind (T.call_succ (n := k + 1) (by simp only; omega)), if_neg h1,
              T.ok_bind (T.call_succ (n := k) rfl), if_neg h2]
            rfl

/-! ## Theorems -/

/-- **C146.**  For every strict weak order and every program that catches the exceptions of its calls, wherever they come from:
the calls that return report what a mathematical sorted set reports in which the calls that threw have not been made,
and the memory holds exactly its elements and at most one other block for every exception of a call that makes an element.
A call is undefined only if the caller breaks its precondition. Missing: that no memory is lost (`c146_block_lost_violated`, `c146_node_lost_violated`). -/
theorem c146_exceptions_leave_the_set_partial {lt : α → α → Bool} (hlt : StrictWeak lt) (calls : List (Call α × Nat)) :
    match runT lt calls Mem.empty [] with
    | .ok (outs, m, raw) => ∃ S lost, specRunT lt [] (calls.map fun p => p.1.op) (outs.map Option.isNone) = .ok (S, outs) ∧ HoldsBut m lost S ∧
        raw.length + lost.length ≤ failures (calls.map Prod.fst) outs
    | .throw _ => False
    | .ub => ∃ before c n after S outs r, calls = before ++ (c, n) :: after ∧ runT lt before Mem.empty [] = .ok (outs, r) ∧
        specRunT lt [] (before.map fun p => p.1.op) (outs.map Option.isNone) = .ok (S, outs) ∧ Spec.step lt S c.op = .ub := by
  have := runT_good hlt calls (Inv.empty lt) Rep.empty []
  cases hr : runT lt calls Mem.empty [] with
  | ok r =>
    obtain ⟨outs, m, raw⟩ := r
    rw [hr] at this
    obtain ⟨s, lost, h1, h2, h3, h4⟩ := this
    exact ⟨s.forward, lost, h3, holdsBut_rep h1 h2, by simpa using h4⟩
  | throw e => rw [hr] at this; exact this
  | ub => rw [hr] at this; exact this

/-- The program of the examples: exceptions of the comparison in the search and in `InsertNode`, of the allocation and of the constructor. -/
def demoT : List (Call Nat × Nat) :=
  [(.plain (.insert 50), 9), (.plain (.insert 20), 9), (.plain (.insert 80), 9), (.plain (.insert 30), 1), (.plain (.insert 30), 3), (.plain (.insert 30), 4),
   (.plain (.insert 30), 5), (.plain (.insert 30), 9), (.emplace 90, 0), (.emplace 90, 1), (.emplace 90, 4), (.emplace 90, 6), (.emplace 30, 20), (.emplace 90, 20),
   (.plain (.eraseKey 20), 1), (.plain (.eraseKey 20), 9), (.plain .size, 0)]

example : ((runT (fun a b : Nat => decide (a < b)) demoT Mem.empty []).bind fun r => .ok (r.1, r.2.2)) =
    .ok ([some (.inserted 50 true), some (.inserted 20 true), some (.inserted 80 true), none, none, none, none, some (.inserted 30 true), none, none, none, none,
      some (.inserted 30 false), some (.inserted 90 true), none, some (.num 1), some (.num 4)], [6, 3]) := by decide +kernel

/-- **C146**, the exception itself: a call that throws has written to nothing that was there, so every iterator, pointer and reference
is as good as before; a look-up and `erase` have not even taken a block. -/
theorem c146_exception_touches_nothing {lt : α → α → Bool} (hlt : StrictWeak lt) {calls : List (Call α × Nat)} {outs : List (Option (Out α))} {m : Mem α} {raw : List Nat}
    (hr : runT lt calls Mem.empty [] = .ok (outs, m, raw)) {c : Call α} {k : Nat} {t : TS α} (ht : stepT lt c ⟨m, raw, k⟩ = .ok (none, t)) :
    Untouched m t.mem ∧ (c.makes = false → t.mem = m ∧ t.raw = raw) := by
  obtain ⟨s, lost, hi, h, -⟩ := runT_set hlt hr
  have hg := stepT_good hlt hi h raw k c
  rw [ht] at hg
  obtain ⟨-, -, -, -, -, hu, -⟩ := hg
  refine ⟨hu, fun hc => ?_⟩
  cases c with
  | emplace v => cases hc
  | plain op =>
    rcases look_cases (lt := lt) h raw k (op := op) (fun v hv => by subst hv; cases hc) with ⟨j, q⟩ | ⟨j, q, -⟩
    · rw [ht, T.lift_apply] at q
      split at q <;> cases q
    · rw [ht] at q
      cases q
      exact ⟨rfl, rfl⟩

/-- A call after a program: whether it throws, and how many blocks have been lost. -/
def demoCall (calls : List (Call Nat × Nat)) (c : Call Nat) (k : Nat) : Res (Bool × Nat) := do
  let (_, m, raw) ← runT (fun a b : Nat => decide (a < b)) calls Mem.empty []
  let (o, t) ← stepT (fun a b : Nat => decide (a < b)) c ⟨m, raw, k⟩
  .ok (o.isNone, t.raw.length)

example : demoCall demoT (.plain (.eraseKey 80)) 1 = .ok (true, 2) := by decide +kernel
example : demoCall demoT (.plain (.eraseKey 80)) 7 = .ok (false, 2) := by decide +kernel

/-- **C146**, no exception of its own: after every program there is a number of calls of the user's code such that, if so many return,
no operation throws. -/
theorem c146_only_the_user_throws {lt : α → α → Bool} (hlt : StrictWeak lt) {calls : List (Call α × Nat)} {outs : List (Option (Out α))} {m : Mem α} {raw : List Nat}
    (hr : runT lt calls Mem.empty [] = .ok (outs, m, raw)) : ∃ K, ∀ k, K ≤ k → ∀ c t, stepT lt c ⟨m, raw, k⟩ ≠ .ok (none, t) := by
  obtain ⟨s, lost, hi, h, -⟩ := runT_set hlt hr
  refine ⟨4 * m.next + 16, fun k hk c t ht => ?_⟩
  have hg := stepT_good hlt hi h raw k c
  rw [ht] at hg
  obtain ⟨-, -, -, -, -, -, -, hlt'⟩ := hg
  omega

/-- **C146 is violated for the memory.**  After every program, for every value that is not in the set, there is a moment at which an exception of the
constructor makes `insert` lose the block that it has taken. -/
theorem c146_block_lost_violated {lt : α → α → Bool} (hlt : StrictWeak lt) {calls : List (Call α × Nat)} {outs : List (Option (Out α))} {m : Mem α} {raw : List Nat} {S : List α} {v : α}
    (hr : runT lt calls Mem.empty [] = .ok (outs, m, raw)) (hS : specRunT lt [] (calls.map fun p => p.1.op) (outs.map Option.isNone) = .ok (S, outs))
    (hv : ∀ u ∈ S, lt u v = true ∨ lt v u = true) :
    ∃ k t x, stepT lt (.plain (.insert v)) ⟨m, raw, k⟩ = .ok (none, t) ∧ t.raw = x :: raw ∧ t.mem.node = m.node := by
  obtain ⟨s, lost, hi, h, hs⟩ := runT_set hlt hr
  rw [hS] at hs
  cases hs
  rcases insert_cases hlt hi h v with ⟨e, p, f1, f2, f3⟩ | ⟨p, f1, f2, f3⟩
  · exfalso
    rcases insert_ok hlt hi v with ⟨e', X, Y, k1, k2, k3, k4⟩ | ⟨s2, A, B, k1, -⟩
    · have := hv e'.val (by
        simp only [VSet.forward, List.mem_map]
        exact ⟨e', by rw [hi.list, k2]; simp, rfl⟩)
      rw [k3, k4] at this
      simp at this
    · rw [f2] at k1
      cases k1
  · obtain ⟨j, hj⟩ := findNodeByKeyT_cost _ _ _ _ f1
    refine ⟨j + 1, ⟨{ m with next := m.next + 1 }, m.next :: raw, 0⟩, m.next, ?_, rfl, rfl⟩
    have e : stepT lt (.plain (.insert v)) (⟨m, raw, j + 1⟩ : TS α) = ((findNodeByKeyT (lt v) (fun u => lt u v) (2 * m.next + 3) m.root none >>= fun r =>
        if r.1 ≠ none then (pure (r.1, false) : T α (Ptr × Bool)) else createNodeT v >>= fun node => insertNodeT lt node r.2 >>= fun _ => pure (node, true)) >>= fun q =>
          T.lift (rd q.1) >>= fun d => (pure (Out.inserted d.value q.2) : T α (Out α))) (⟨m, raw, j + 1⟩ : TS α) := rfl
    rw [e]
    exact T.thrown_bind (by rw [T.ok_bind (hj raw 1), if_neg (by simp)]; rfl)

example : demoCall [(.plain (.insert 50), 9), (.plain (.insert 20), 9)] (.plain (.insert 30)) 4 = .ok (true, 1) := by decide +kernel
example : demoCall [(.plain (.insert 50), 9), (.plain (.insert 20), 9)] (.plain (.insert 30)) 3 = .ok (true, 0) := by decide +kernel

/-- **C146 is violated for the memory**, the comparison: if the set is not empty, there is a moment at which an exception of the comparison makes `insert` lose
the node that it has made, with the element in it. -/
theorem c146_node_lost_violated {lt : α → α → Bool} (hlt : StrictWeak lt) {calls : List (Call α × Nat)} {outs : List (Option (Out α))} {m : Mem α} {raw : List Nat} {S : List α} {v : α}
    (hr : runT lt calls Mem.empty [] = .ok (outs, m, raw)) (hS : specRunT lt [] (calls.map fun p => p.1.op) (outs.map Option.isNone) = .ok (S, outs))
    (hv : ∀ u ∈ S, lt u v = true ∨ lt v u = true) (hne : S ≠ []) :
    ∃ k t x c, stepT lt (.plain (.insert v)) ⟨m, raw, k⟩ = .ok (none, t) ∧ m.node x = none ∧ t.mem.node x = some c ∧ c.value = v ∧
      ∃ lost, HoldsBut m lost S ∧ HoldsBut t.mem (x :: lost) S := by
  obtain ⟨s, lost, hi, h, hs⟩ := runT_set hlt hr
  rw [hS] at hs
  cases hs
  rcases insert_cases hlt hi h v with ⟨e, p, f1, f2, f3⟩ | ⟨p, f1, f2, f3⟩
  · exfalso
    rcases insert_ok hlt hi v with ⟨e', X, Y, k1, k2, k3, k4⟩ | ⟨s2, A, B, k1, -⟩
    · have := hv e'.val (by
        simp only [VSet.forward, List.mem_map]
        exact ⟨e', by rw [hi.list, k2]; simp, rfl⟩)
      rw [k3, k4] at this
      simp at this
    · rw [f2] at k1
      cases k1
  · obtain ⟨j, hj⟩ := findNodeByKeyT_cost _ _ _ _ f1
    obtain ⟨m1, g1, g2, -, -, -, g3⟩ := create_rep h v
    have hp : ∃ a, cptr p = some a := by
      match p, f3 with
      | none, f3 =>
        simp only [InsertPoint] at f3
        exact (hne (by simp [VSet.forward, hi.list, f3, toL])).elim
      | some (.nil, _), f3 => exact f3.elim
      | some (.node _ _ _ e _, _), _ => exact ⟨e.id, rfl⟩
    obtain ⟨a, hp⟩ := hp
    have hxn : m.next ∉ idsT s.root := fun hx => absurd (h.tree.lt _ (by simp [hx])) (Nat.lt_irrefl _)
    have hxl : m.next ∉ lost := fun hx => absurd (h.apart _ hx).2 (Nat.lt_irrefl _)
    have hlost : HoldsBut (m1.set m.next ⟨some a, none, none, .red, 0, v⟩) (m.next :: lost) s.forward :=
      holdsBut_rep (lt := lt) (s := { s with nextId := s.nextId + 1 }) (inv_bump hi) (g3.setLost (x := m.next) (by simp) _)
    refine ⟨j + 2, ⟨m1.set m.next ⟨some a, none, none, .red, 0, v⟩, raw, 0⟩, m.next, ⟨some a, none, none, .red, 0, v⟩, ?_, (h.dom _).2 ⟨hxn, hxl⟩, by simp [set_node], rfl,
      lost, holdsBut_rep hi h, hlost⟩
    have e : stepT lt (.plain (.insert v)) (⟨m, raw, j + 2⟩ : TS α) = ((findNodeByKeyT (lt v) (fun u => lt u v) (2 * m.next + 3) m.root none >>= fun r =>
        if r.1 ≠ none then (pure (r.1, false) : T α (Ptr × Bool)) else createNodeT v >>= fun node => insertNodeT lt node r.2 >>= fun _ => pure (node, true)) >>= fun q =>
          T.lift (rd q.1) >>= fun d => (pure (Out.inserted d.value q.2) : T α (Out α))) (⟨m, raw, j + 2⟩ : TS α) := rfl
    rw [e]
    have hcr : createNodeT v ⟨m, raw, 2⟩ = .ok (some (some m.next), ⟨m1, raw, 0⟩) := by
      rw [createNodeT, T.ok_bind (T.call_succ rfl)]
      show T.lift (createNode v) ⟨m, raw, 0⟩ = _
      exact T.lift_ok (t := ⟨m, raw, 0⟩) g1
    have hin := insertNodeT_zero (lt := lt) (p := a) (t := ⟨m1, raw, 0⟩) g2 rfl
    rw [hp] at hj
    exact T.thrown_bind (by rw [T.ok_bind (hj raw 2), if_neg (by simp), T.ok_bind hcr, T.thrown_bind hin])

/-- A value that is in the set already is found. -/
theorem found_of_mem {lt : α → α → Bool} (hlt : StrictWeak lt) {s : VSet α} {m : Mem α} {lost : List Nat} (hi : Inv lt s) (h : Rep m lost s) {v : α}
    (hv : ∃ u ∈ s.forward, lt u v = false ∧ lt v u = false) :
    ∃ e p, findNodeByKey (lt v) (fun u => lt u v) (2 * m.next + 3) m.root none m = .ok ((some e, p), m) := by
  rcases insert_cases hlt hi h v with ⟨e, p, f1, -, -⟩ | ⟨p, f1, f2, f3⟩
  · exact ⟨e.id, p, f1⟩
  · exfalso
    obtain ⟨T, A, B, k1, k2, k3, k4, -⟩ := linkNode_ok (e := ⟨s.nextId, v⟩) hi.cnt hi.black f3
    obtain ⟨u, hu, h1, h2⟩ := hv
    simp only [VSet.forward, hi.list, k2, List.mem_map] at hu
    obtain ⟨a, ha, rfl⟩ := hu
    rcases List.mem_append.1 ha with ha | ha
    · have h3 : lt a.val v = true := k3 a ha
      rw [h3] at h1; cases h1
    · have h3 : lt v a.val = true := k4 a ha
      rw [h3] at h2; cases h2

/-- **C146**, no memory is lost if the value is in the set already: `insert` has taken none when it throws, and `emplace` has freed
its node, unless the constructor itself has thrown (`k = 1`). -/
theorem c146_existing_value_loses_nothing {lt : α → α → Bool} (hlt : StrictWeak lt) {calls : List (Call α × Nat)} {outs : List (Option (Out α))} {m : Mem α} {raw : List Nat} {S : List α} {v : α}
    (hr : runT lt calls Mem.empty [] = .ok (outs, m, raw)) (hS : specRunT lt [] (calls.map fun p => p.1.op) (outs.map Option.isNone) = .ok (S, outs))
    (hv : ∃ u ∈ S, lt u v = false ∧ lt v u = false) {k : Nat} {t : TS α} :
    (stepT lt (.plain (.insert v)) ⟨m, raw, k⟩ = .ok (none, t) → t.mem = m ∧ t.raw = raw) ∧
    (stepT lt (.emplace v) ⟨m, raw, k⟩ = .ok (none, t) → k ≠ 1 → t.mem.node = m.node ∧ t.raw = raw) := by
  obtain ⟨s, lost, hi, h, hs⟩ := runT_set hlt hr
  rw [hS] at hs
  cases hs
  constructor
  · intro ht
    obtain ⟨e, p, f1⟩ := found_of_mem hlt hi h hv
    have e' : stepT lt (.plain (.insert v)) (⟨m, raw, k⟩ : TS α) = ((findNodeByKeyT (lt v) (fun u => lt u v) (2 * m.next + 3) m.root none >>= fun r =>
        if r.1 ≠ none then (pure (r.1, false) : T α (Ptr × Bool)) else createNodeT v >>= fun node => insertNodeT lt node r.2 >>= fun _ => pure (node, true)) >>= fun q =>
          T.lift (rd q.1) >>= fun d => (pure (Out.inserted d.value q.2) : T α (Out α))) (⟨m, raw, k⟩ : TS α) := rfl
    rw [e'] at ht
    rcases findNodeByKeyT_sim (klt := lt v) (elt := fun u => lt u v) (2 * m.next + 3) m.root none ⟨m, raw, k⟩ _ f1 with ⟨j, q1, q2⟩ | ⟨j, q1, q2⟩
    · rw [T.ok_bind (b := (some e, false)) (t' := ⟨m, raw, j⟩) (by rw [T.ok_bind q1, if_pos (by simp)]; rfl), T.bind_apply, T.lift_apply] at ht
      rcases rd_cases (some e) m with hr | ⟨c, hr⟩
      · simp only [hr] at ht; cases ht
      · simp only [hr] at ht; cases ht
    · rw [T.thrown_bind (T.thrown_bind q1)] at ht
      cases ht
      exact ⟨rfl, rfl⟩
  · intro ht hk
    have e' : stepT lt (.emplace v) (⟨m, raw, k⟩ : TS α) = ((createNodeT v >>= fun node =>
      T.orElse (do findNodeByKeyT (lt v) (fun u => lt u v) (← T.lift fuel) (← T.lift getRoot) none) (destroyNode node) >>= fun r =>
        if r.1 ≠ none then (T.lift (destroyNode node) >>= fun _ => (pure (r.1, false) : T α (Ptr × Bool))) else insertNodeT lt node r.2 >>= fun _ => pure (node, true)) >>= fun q =>
          T.lift (rd q.1) >>= fun d => (pure (Out.inserted d.value q.2) : T α (Out α))) (⟨m, raw, k⟩ : TS α) := rfl
    rw [e'] at ht
    clear e'
    match k with
    | 0 =>
      rw [T.thrown_bind (T.thrown_bind (t' := ⟨m, raw, 0⟩) rfl)] at ht
      cases ht
      exact ⟨rfl, rfl⟩
    | 1 => exact absurd rfl hk
    | k + 2 =>
      obtain ⟨m1, g1, g2, gn, gf, -, g3⟩ := create_rep h v
      have hsame := create_same g1
      have hxn : m.next ∉ idsT s.root := fun hx => absurd (h.tree.lt _ (by simp [hx])) (Nat.lt_irrefl _)
      have hxl : m.next ∉ lost := fun hx => absurd (h.apart _ hx).2 (Nat.lt_irrefl _)
      have hcr : createNodeT v ⟨m, raw, k + 2⟩ = .ok (some (some m.next), ⟨m1, raw, k⟩) := by
        rw [createNodeT, T.ok_bind (T.call_succ rfl)]
        show T.lift (createNode v) ⟨m, raw, k⟩ = _
        exact T.lift_ok (t := ⟨m, raw, k⟩) g1
      have hfd : (do findNodeByKeyT (lt v) (fun u => lt u v) (← T.lift fuel) (← T.lift getRoot) none : T α (Ptr × Ptr)) ⟨m1, raw, k⟩ =
          findNodeByKeyT (lt v) (fun u => lt u v) (2 * m1.next + 3) m1.root none ⟨m1, raw, k⟩ := rfl
      obtain ⟨md, d1, d2, d3, d4, d5⟩ := destroyLost (inv_bump hi) g3 hxl gf
      have hmd : md.node = m.node := by
        funext p
        by_cases hp : p = m.next
        · subst hp
          rw [(h.dom _).2 ⟨hxn, hxl⟩]
          exact (d2.dom _).2 ⟨hxn, hxl⟩
        · rw [d4 p hp, hsame.2.1 p hp]
      obtain ⟨e, p, f1⟩ := found_of_mem hlt (inv_bump hi) g3 hv
      rcases findNodeByKeyT_sim (klt := lt v) (elt := fun u => lt u v) (2 * m1.next + 3) m1.root none ⟨m1, raw, k⟩ _ f1 with ⟨j, q1, q2⟩ | ⟨j, q1, q2⟩
      · have hret : T.orElse (do findNodeByKeyT (lt v) (fun u => lt u v) (← T.lift fuel) (← T.lift getRoot) none) (destroyNode (some m.next)) ⟨m1, raw, k⟩ =
            .ok (some (some e, p), ⟨m1, raw, j⟩) := by
          rw [T.orElse, hfd, q1]
        rw [T.ok_bind (b := (some e, false)) (t' := ⟨md, raw, j⟩) (by
          rw [T.ok_bind hcr, T.ok_bind hret, if_pos (by simp), T.ok_bind (T.lift_ok (t := ⟨m1, raw, j⟩) d1)]; rfl), T.bind_apply, T.lift_apply] at ht
        rcases rd_cases (some e) md with hr | ⟨c, hr⟩
        · simp only [hr] at ht; cases ht
        · simp only [hr] at ht; cases ht
      · have hthrow : T.orElse (do findNodeByKeyT (lt v) (fun u => lt u v) (← T.lift fuel) (← T.lift getRoot) none) (destroyNode (some m.next)) ⟨m1, raw, k⟩ =
            .ok (none, ⟨md, raw, j⟩) := by
          rw [T.orElse, hfd, q1]
          simp only [d1]
        rw [T.thrown_bind (t' := ⟨md, raw, j⟩) (by rw [T.ok_bind hcr, T.thrown_bind hthrow])] at ht
        cases ht
        exact ⟨hmd, rfl⟩

/-- The nodes in memory after a call. -/
def demoNodes (calls : List (Call Nat × Nat)) (c : Call Nat) (k : Nat) : Res (Bool × List Nat) := do
  let (_, m, raw) ← runT (fun a b : Nat => decide (a < b)) calls Mem.empty []
  let (o, t) ← stepT (fun a b : Nat => decide (a < b)) c ⟨m, raw, k⟩
  .ok (o.isNone, (List.range t.mem.next).filterMap fun i => (t.mem.node i).map Cell.value)

example : demoNodes [(.plain (.insert 50), 9), (.plain (.insert 20), 9)] (.plain (.insert 30)) 5 = .ok (true, [50, 20, 30]) := by decide +kernel
example : demoNodes [(.plain (.insert 50), 9), (.plain (.insert 20), 9), (.plain (.insert 30), 5)] (.plain .clear) 0 = .ok (false, [30]) := by decide +kernel

example : demoNodes [(.plain (.insert 50), 9), (.plain (.insert 20), 9)] (.emplace 20) 3 = .ok (true, [50, 20]) := by decide +kernel

end Verif.VectorSet.Heap
