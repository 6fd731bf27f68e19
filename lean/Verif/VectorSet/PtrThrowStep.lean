import Verif.VectorSet.PtrThrow
import Verif.VectorSet.Props

/-! # `vector_set` with exceptions: one call -/

namespace Verif.VectorSet.Heap

open Verif.VectorSet.Spec (Op Out)

variable {α β γ : Type}

/-! ## The look-ups -/

theorem find_ok {klt elt : α → Bool} {s : VSet α} {m : Mem α} {lost : List Nat} (h : Rep m lost s) :
    ∃ b, findNodeByKey klt elt (2 * m.next + 3) m.root none m = .ok (b, m) := by
  have hlen := h.tree.length
  have hroot : m.root = tptr s.root := h.tree.root
  have hf := findNodeByKey_ok (klt := klt) (elt := elt) (par := none) (k := 2 * m.next + 3) h.tree (by intro c hc; cases hc) (by simp at hlen; omega)
  have hcn : cptr (none : Option (Cursor α)) = none := rfl
  rw [hcn] at hf
  rw [hroot]
  exact ⟨_, hf.1⟩

theorem findT_cases {klt elt : α → Bool} {s : VSet α} {m : Mem α} {lost : List Nat} (h : Rep m lost s) (raw : List Nat) (k : Nat) :
    (∃ j, findT klt elt ⟨m, raw, k⟩ = T.lift (find klt elt) ⟨m, raw, j⟩) ∨
      (∃ j, findT klt elt ⟨m, raw, k⟩ = .ok (none, ⟨m, raw, j⟩) ∧ k < 4 * m.next + 6) := by
  obtain ⟨b, hb⟩ := find_ok (klt := klt) (elt := elt) h
  have e : findT klt elt ⟨m, raw, k⟩ = (findNodeByKeyT klt elt (2 * m.next + 3) m.root none >>= fun r => pure r.1) (⟨m, raw, k⟩ : TS α) := rfl
  have e' : ∀ j, T.lift (find klt elt) ⟨m, raw, j⟩ = .ok (some b.1, (⟨m, raw, j⟩ : TS α)) := by
    intro j
    have : find klt elt m = .ok (b.1, m) := by
      rw [find, bind_apply, fuel_apply]; simp only []
      rw [bind_apply, getRoot_apply]; simp only []
      rw [bind_apply, hb]
      rfl
    rw [T.lift_apply, this]
  rcases findNodeByKeyT_sim (klt := klt) (elt := elt) (2 * m.next + 3) m.root none ⟨m, raw, k⟩ b hb with ⟨j, q1, q2⟩ | ⟨j, q1, q2⟩
  · exact Or.inl ⟨j, by rw [e, T.bind_apply, q1, e']; rfl⟩
  · refine Or.inr ⟨j, by rw [e, T.bind_apply, q1], ?_⟩
    simp only at q2
    omega

theorem lowerBoundT_cases {klt elt : α → Bool} {s : VSet α} {m : Mem α} {lost : List Nat} (h : Rep m lost s) (raw : List Nat) (k : Nat) :
    (∃ j, lowerBoundT klt elt ⟨m, raw, k⟩ = T.lift (lowerBound klt elt) ⟨m, raw, j⟩) ∨
      (∃ j, lowerBoundT klt elt ⟨m, raw, k⟩ = .ok (none, ⟨m, raw, j⟩) ∧ k < 4 * m.next + 6) := by
  have hb := bound_rep (klt := klt) (elt := elt) h
  have e : lowerBoundT klt elt ⟨m, raw, k⟩ = (findBoundByKeyT klt elt (2 * m.next + 3) m.root none >>= fun r => pure r.1) (⟨m, raw, k⟩ : TS α) := rfl
  rcases findBoundByKeyT_sim (klt := klt) (elt := elt) (2 * m.next + 3) m.root none ⟨m, raw, k⟩ _ hb with ⟨j, q1, q2⟩ | ⟨j, q1, q2⟩
  · refine Or.inl ⟨j, ?_⟩
    rw [e, T.bind_apply, q1, T.lift_apply, lowerBound, bind_apply, fuel_apply]; simp only []
    rw [bind_apply, getRoot_apply]; simp only []
    rw [bind_apply, hb]
    rfl
  · refine Or.inr ⟨j, by rw [e, T.bind_apply, q1], ?_⟩
    simp only at q2
    omega

theorem upperBoundT_cases {klt elt : α → Bool} {s : VSet α} {m : Mem α} {lost : List Nat} (h : Rep m lost s) (raw : List Nat) (k : Nat) :
    (∃ j, upperBoundT klt elt ⟨m, raw, k⟩ = T.lift (upperBound klt elt) ⟨m, raw, j⟩) ∨
      (∃ j, upperBoundT klt elt ⟨m, raw, k⟩ = .ok (none, ⟨m, raw, j⟩) ∧ k < 4 * m.next + 6) := by
  have hb := bound_rep (klt := klt) (elt := elt) h
  have e : upperBoundT klt elt ⟨m, raw, k⟩ = (findBoundByKeyT klt elt (2 * m.next + 3) m.root none >>= fun r =>
      if r.2 then T.lift (nextIter r.1) else pure r.1) (⟨m, raw, k⟩ : TS α) := rfl
  rcases findBoundByKeyT_sim (klt := klt) (elt := elt) (2 * m.next + 3) m.root none ⟨m, raw, k⟩ _ hb with ⟨j, q1, q2⟩ | ⟨j, q1, q2⟩
  · refine Or.inl ⟨j, ?_⟩
    rw [e, T.bind_apply, q1, T.lift_apply, upperBound, bind_apply, fuel_apply]; simp only []
    rw [bind_apply, getRoot_apply]; simp only []
    rw [bind_apply, hb]; simp only []
    rw [T.ite_apply, ite_apply']
    split
    · rw [T.lift_apply]
    · rfl
  · refine Or.inr ⟨j, by rw [e, T.bind_apply, q1], ?_⟩
    simp only at q2
    omega

/-- Two pieces of code, the first of which may throw. -/
theorem liftT_bind {x : T α β} {p : M α β} {f : β → T α γ} {g : β → M α γ} {t t' : TS α} (hf : ∀ b, f b = T.lift (g b))
    (hx : x t = T.lift p t') : (x >>= f) t = T.lift (p >>= g) t' := by
  cases hp : p t'.mem with
  | ub =>
    have e1 : (p >>= g) t'.mem = .ub := by rw [bind_apply, hp]
    rw [T.bind_apply, hx, T.lift_apply, T.lift_apply, e1, hp]
  | throw e =>
    have e1 : (p >>= g) t'.mem = .throw e := by rw [bind_apply, hp]
    rw [T.bind_apply, hx, T.lift_apply, T.lift_apply, e1, hp]
  | ok r =>
    have e1 : (p >>= g) t'.mem = g r.1 r.2 := by rw [bind_apply, hp]
    rw [T.bind_apply, hx, T.lift_apply, T.lift_apply, e1, hp]
    simp only []
    rw [hf, T.lift_apply]

theorem lift_pure (b : β) : (pure b : T α β) = T.lift (pure b) := rfl

theorem look_cases {lt : α → α → Bool} {s : VSet α} {m : Mem α} {lost : List Nat} (h : Rep m lost s) (raw : List Nat) (k : Nat) {op : Op α} (hop : ∀ v, op ≠ .insert v) :
    (∃ j, stepT lt (.plain op) ⟨m, raw, k⟩ = T.lift (step lt op) ⟨m, raw, j⟩) ∨
      (∃ j, stepT lt (.plain op) ⟨m, raw, k⟩ = .ok (none, ⟨m, raw, j⟩) ∧ k < 4 * m.next + 6) := by
  cases op with
  | insert v => exact absurd rfl (hop v)
  | eraseKey key =>
    have e : stepT lt (.plain (.eraseKey key)) = (findT (lt key) (fun a => lt a key) >>= fun i =>
        if i ≠ none then (T.lift (erase i) >>= fun _ => (pure 1 : T α Nat)) else pure 0) >>= fun n => (pure (Out.num n) : T α (Out α)) := rfl
    have e' : step lt (.eraseKey key) = (find (lt key) (fun a => lt a key) >>= fun i =>
        if i ≠ none then (erase i >>= fun _ => (pure 1 : M α Nat)) else pure 0) >>= fun n => (pure (Out.num n) : M α (Out α)) := rfl
    rcases findT_cases (klt := lt key) (elt := fun a => lt a key) h raw k with ⟨j, q⟩ | ⟨j, q, r⟩
    · refine Or.inl ⟨j, ?_⟩
      rw [e, e']
      refine liftT_bind (fun _ => rfl) (liftT_bind (fun i => ?_) q)
      split
      · funext t
        exact liftT_bind (fun _ => rfl) rfl
      · rfl
    · exact Or.inr ⟨j, by rw [e, T.bind_apply, T.bind_apply, q], r⟩
  | contains key =>
    rcases findT_cases (klt := lt key) (elt := fun a => lt a key) h raw k with ⟨j, q⟩ | ⟨j, q, r⟩
    · exact Or.inl ⟨j, liftT_bind (fun _ => rfl) q⟩
    · exact Or.inr ⟨j, by rw [stepT, T.bind_apply, q], r⟩
  | find key =>
    rcases findT_cases (klt := lt key) (elt := fun a => lt a key) h raw k with ⟨j, q⟩ | ⟨j, q, r⟩
    · exact Or.inl ⟨j, liftT_bind (fun _ => funext fun t => liftT_bind (fun _ => rfl) rfl) q⟩
    · exact Or.inr ⟨j, by rw [stepT, T.bind_apply, q], r⟩
  | lowerBound key =>
    rcases lowerBoundT_cases (klt := lt key) (elt := fun a => lt a key) h raw k with ⟨j, q⟩ | ⟨j, q, r⟩
    · exact Or.inl ⟨j, liftT_bind (fun _ => funext fun t => liftT_bind (fun _ => rfl) rfl) q⟩
    · exact Or.inr ⟨j, by rw [stepT, T.bind_apply, q], r⟩
  | upperBound key =>
    rcases upperBoundT_cases (klt := lt key) (elt := fun a => lt a key) h raw k with ⟨j, q⟩ | ⟨j, q, r⟩
    · exact Or.inl ⟨j, liftT_bind (fun _ => funext fun t => liftT_bind (fun _ => rfl) rfl) q⟩
    · exact Or.inr ⟨j, by rw [stepT, T.bind_apply, q], r⟩
  | eraseAt i => exact Or.inl ⟨k, rfl⟩
  | clear => exact Or.inl ⟨k, rfl⟩
  | size => exact Or.inl ⟨k, rfl⟩
  | empty => exact Or.inl ⟨k, rfl⟩

/-! ## What a call may do -/

/-- The call has reported what the mathematical set reports, or it has thrown and nothing has changed; `k` is what remained before it. -/
def Good (lt : α → α → Bool) (s : VSet α) (m : Mem α) (lost raw : List Nat) (k : Nat) (c : Call α) : Res (Option (Out α) × TS α) → Prop
  | .ok (some o, t) => ∃ s', Inv lt s' ∧ Rep t.mem lost s' ∧ t.raw = raw ∧ Spec.step lt s.forward c.op = .ok (s'.forward, o)
  | .ok (none, t) => ∃ s' lost', Inv lt s' ∧ Rep t.mem lost' s' ∧ s'.forward = s.forward ∧ Untouched m t.mem ∧
      t.raw.length + lost'.length ≤ raw.length + lost.length + (if c.makes then 1 else 0) ∧ k < 4 * m.next + 16
  | .throw _ => False
  | .ub => Spec.step lt s.forward c.op = .ub

theorem Untouched.rfl (m : Mem α) : Untouched m m := ⟨Eq.refl _, fun _ _ h => h, fun _ h => ⟨h, Eq.refl _, Eq.refl _⟩⟩

/-- What a new node is written to does not matter to the others. -/
theorem Untouched.ofNew {s : VSet α} {m m' : Mem α} {lost : List Nat} (h : Rep m lost s) (hr : m'.root = m.root)
    (hn : ∀ p, p ≠ m.next → m'.node p = m.node p)
    (hl : ∀ a, a ≠ m.next + 1 → m'.links.alive a = m.links.alive a ∧ m'.links.fwd a = m.links.fwd a ∧ m'.links.bwd a = m.links.bwd a) : Untouched m m' := by
  have hlt : ∀ i, i ∈ idsT s.root ∨ i ∈ lost → i < m.next := by
    rintro i (hi | hi)
    · exact h.tree.lt i (by simp [hi])
    · exact (h.apart i hi).2
  refine ⟨hr, fun p c hc => ?_, fun a ha => ?_⟩
  · rw [hn p, hc]
    rintro rfl
    have := h.dom m.next
    rw [hc] at this
    simp only [reduceCtorEq, false_iff, not_and_or, not_not] at this
    exact absurd (hlt _ this) (Nat.lt_irrefl _)
  · have hne : a ≠ m.next + 1 := by
      rintro rfl
      rcases (h.alive _).1 ha with h0 | ⟨i, hi, h0⟩
      · cases h0
      · have := hlt i hi
        omega
    obtain ⟨h1, h2, h3⟩ := hl a hne
    exact ⟨h1.trans ha, h2, h3⟩

theorem create_same {m m1 : Mem α} {v : α} {x : Ptr} (h : createNode v m = .ok (x, m1)) : m1.root = m.root ∧ (∀ p, p ≠ m.next → m1.node p = m.node p) ∧
    ∀ a, a ≠ m.next + 1 → m1.links.alive a = m.links.alive a ∧ m1.links.fwd a = m.links.fwd a ∧ m1.links.bwd a = m.links.bwd a := by
  simp only [createNode, QuickList.newElem] at h
  split at h
  · rename_i h' hh
    split at hh
    · cases hh
    · cases hh
      cases h
      refine ⟨Eq.refl _, fun p hp => ?_, fun a ha => ?_⟩
      · simp only [set_node, if_neg hp]
      · simp [QuickList.upd, ha]
  · cases h
  · cases h

/-! ## `insert` and `emplace` -/

theorem insert_cases {lt : α → α → Bool} (hlt : StrictWeak lt) {s : VSet α} {m : Mem α} {lost : List Nat} (hi : Inv lt s) (h : Rep m lost s) (v : α) :
    (∃ e p, findNodeByKey (lt v) (fun u => lt u v) (2 * m.next + 3) m.root none m = .ok ((some e.id, p), m) ∧ s.insert lt v = .ok (s, e, false) ∧ e ∈ toL s.root) ∨
    (∃ p, findNodeByKey (lt v) (fun u => lt u v) (2 * m.next + 3) m.root none m = .ok ((none, cptr p), m) ∧
      findNode (lt v) (fun u => lt u v) s.root [] none = (none, p) ∧ InsertPoint (lt v) (fun a => lt a v) s.root p) := by
  have hlen := h.tree.length
  have hroot : m.root = tptr s.root := h.tree.root
  have hf := findNodeByKey_ok (klt := lt v) (elt := fun u => lt u v) (par := none) (k := 2 * m.next + 3) h.tree (by intro c hc; cases hc) (by simp at hlen; omega)
  have hcn : cptr (none : Option (Cursor α)) = none := rfl
  rw [hroot]
  rcases findNode_ok (lt v) (fun u => lt u v) s.root [] none (by
      simp only [zip]; exact keyOK_of_sorted hlt hi.sorted v) (by simp [AllP, ctxL]) (by simp [AllP, ctxR]) rfl with
    ⟨c, n, l, e', r, gs, p, q1, q2, q3, q4⟩ | ⟨p, q1, q2, _⟩
  · refine Or.inl ⟨e', cptr p, ?_, ?_, ?_⟩
    · have := hf.1
      rw [q1, hcn] at this
      exact this
    · simp only [VSet.insert, q1]
    · simp only [zip] at q2
      rw [← q2, toL_zip]
      simp [toL]
  · refine Or.inr ⟨p, ?_, q1, ?_⟩
    · have := hf.1
      rw [q1, hcn] at this
      exact this
    · simpa only [zip] using q2

/-- The new node is put into the tree and the list. -/
theorem add_rep {lt : α → α → Bool} {s : VSet α} {m m1 : Mem α} {lost : List Nat} {v : α} {p : Option (Cursor α)} (hi : Inv lt s) (h : Rep m lost s)
    (q1 : findNode (lt v) (fun u => lt u v) s.root [] none = (none, p)) (q2 : InsertPoint (lt v) (fun a => lt a v) s.root p)
    (g2 : m1.node m.next = some ⟨none, none, none, .red, 0, v⟩) (g3 : Rep m1 (m.next :: lost) { s with nextId := s.nextId + 1 }) :
    ∃ m' s', insertNode lt (some m.next) (cptr p) m1 = .ok ((), m') ∧ Rep m' lost s' ∧ s.insert lt v = .ok (s', ⟨s.nextId, v⟩, true) := by
  obtain ⟨T, A, B, k1, k2, k3, k4, k5, k6, k7⟩ := linkNode_ok (e := ⟨s.nextId, v⟩) hi.cnt hi.black q2
  have hxl : m.next ∉ lost := fun hx => absurd (h.apart _ hx).2 (Nat.lt_irrefl _)
  have hfresh := hi.fresh
  rw [k2] at hfresh
  have hu : Uniq (A ++ ⟨s.nextId, v⟩ :: B) := by
    have h0 := hi.uniq
    rw [k2] at h0
    rw [Uniq, List.pairwise_append] at h0 ⊢
    refine ⟨h0.1, List.pairwise_cons.2 ⟨?_, h0.2.1⟩, ?_⟩
    · intro a ha; have := hfresh a (by simp [ha]); simp only; omega
    · intro a ha b hb
      rcases List.mem_cons.1 hb with rfl | hb
      · have := hfresh a (by simp [ha]); simp only; omega
      · exact h0.2.2 a ha b hb
  have hll := linkList_ok (root := T) k5 hu
  rw [← k2, ← hi.list] at hll
  have hs : s.insert lt v = .ok (⟨T, A ++ ⟨s.nextId, v⟩ :: B, s.nextId + 1⟩, ⟨s.nextId, v⟩, true) := by
    simp only [VSet.insert, q1, k1, Res.ok_bind, hll]
  rw [← h.next] at k1 k5
  obtain ⟨m', g4, g5⟩ := insertNode_rep (inv_bump hi) g3 hxl g2 q2 k1 k2 k5
  refine ⟨m', _, g4, ?_, hs⟩
  rw [h.next] at g5
  exact g5

/-- `InsertNode` for the new node: it is in the set, or the comparison has thrown and the node belongs to nobody. -/
theorem addT_cases {lt : α → α → Bool} {s : VSet α} {m m1 : Mem α} {lost : List Nat} {v : α} {p : Option (Cursor α)} (hi : Inv lt s) (h : Rep m lost s)
    (q1 : findNode (lt v) (fun u => lt u v) s.root [] none = (none, p)) (q2 : InsertPoint (lt v) (fun a => lt a v) s.root p)
    (g2 : m1.node m.next = some ⟨none, none, none, .red, 0, v⟩) (g3 : Rep m1 (m.next :: lost) { s with nextId := s.nextId + 1 }) (raw : List Nat) (k : Nat) :
    (∃ m' s' j, insertNodeT lt (some m.next) (cptr p) ⟨m1, raw, k⟩ = .ok (some (), ⟨m', raw, j⟩) ∧ Rep m' lost s' ∧ s.insert lt v = .ok (s', ⟨s.nextId, v⟩, true)) ∨
    (k = 0 ∧ ∃ c, insertNodeT lt (some m.next) (cptr p) ⟨m1, raw, k⟩ = .ok (none, ⟨m1.set m.next c, raw, k⟩)) := by
  obtain ⟨m', s', e1, r1, i1⟩ := add_rep hi h q1 q2 g2 g3
  have hl : ∀ j, T.lift (insertNode lt (some m.next) (cptr p)) ⟨m1, raw, j⟩ = .ok (some (), ⟨m', raw, j⟩) := fun j => T.lift_ok (t := ⟨m1, raw, j⟩) e1
  cases hp : cptr p with
  | none =>
    rw [hp] at hl
    exact Or.inl ⟨m', s', k, by rw [insertNodeT_root, hl], r1, i1⟩
  | some a =>
    rw [hp] at hl
    cases k with
    | zero => exact Or.inr ⟨rfl, _, insertNodeT_zero (t := ⟨m1, raw, 0⟩) g2 rfl⟩
    | succ k => exact Or.inl ⟨m', s', k, by rw [insertNodeT_succ (n := k) rfl, hl], r1, i1⟩

/-- The result of `insert` is the element in the node. -/
theorem inserted_good {lt : α → α → Bool} (hlt : StrictWeak lt) {s s' s1 : VSet α} {m m' : Mem α} {lost raw : List Nat} {k j : Nat} {v : α} {e : Elem α} {b : Bool} {c : Call α}
    (hi : Inv lt s) (hs : s.insert lt v = .ok (s', e, b)) (hc : c.op = .insert v) (r : Rep m' lost s1) (h1 : s1 = s' ∨ s1 = { s' with nextId := s'.nextId + 1 }) {x : Ptr} (hx : x = some e.id) :
    Good lt s m lost raw k c ((T.lift (rd x) >>= fun d => (pure (Out.inserted d.value b) : T α (Out α))) ⟨m', raw, j⟩) := by
  subst hx
  have hstep : s.step lt (.insert v) = .ok (s', .inserted e.val b) := by simp only [VSet.step, hs, Res.ok_bind]
  have hi' := step_inv hlt hi hstep
  have hroot : s1.root = s'.root := by rcases h1 with rfl | rfl <;> rfl
  have hfwd : s1.forward = s'.forward := by rcases h1 with rfl | rfl <;> rfl
  have hi1 : Inv lt s1 := by
    rcases h1 with rfl | rfl
    · exact hi'
    · exact inv_bump hi'
  have he : e ∈ toL s1.root := by
    rw [hroot]
    rcases insert_ok hlt hi v with ⟨e', X, Y, k1, k2, -⟩ | ⟨s2, A, B, k1, -, -, -, k2, -⟩
    · rw [hs] at k1; cases k1; rw [k2]; simp
    · rw [hs] at k1; cases k1; rw [k2]; simp
  obtain ⟨d, d1, d2⟩ := repT_cell r.tree.tree he
  rw [T.bind_apply, T.lift_ok (t := ⟨m', raw, j⟩) (rd_ok d1)]
  refine ⟨s1, hi1, r, rfl, ?_⟩
  rw [hc, ← step_eq hlt hi (.insert v), hstep, hfwd, d2]
  rfl

theorem T.ok_bind {x : T α β} {f : β → T α γ} {t t' : TS α} {b : β} (h : x t = .ok (some b, t')) : (x >>= f) t = f b t' := by
  rw [T.bind_apply, h]

theorem T.thrown_bind {x : T α β} {f : β → T α γ} {t t' : TS α} (h : x t = .ok (none, t')) : (x >>= f) t = .ok (none, t') := by
  rw [T.bind_apply, h]

theorem insertT_good {lt : α → α → Bool} (hlt : StrictWeak lt) {s : VSet α} {m : Mem α} {lost : List Nat} (hi : Inv lt s) (h : Rep m lost s) (raw : List Nat) (k : Nat) (v : α) :
    Good lt s m lost raw k (.plain (.insert v)) (stepT lt (.plain (.insert v)) ⟨m, raw, k⟩) := by
  have e : stepT lt (.plain (.insert v)) (⟨m, raw, k⟩ : TS α) = ((findNodeByKeyT (lt v) (fun u => lt u v) (2 * m.next + 3) m.root none >>= fun r =>
      if r.1 ≠ none then (pure (r.1, false) : T α (Ptr × Bool)) else createNodeT v >>= fun node => insertNodeT lt node r.2 >>= fun _ => pure (node, true)) >>= fun q =>
        T.lift (rd q.1) >>= fun d => (pure (Out.inserted d.value q.2) : T α (Out α))) (⟨m, raw, k⟩ : TS α) := rfl
  rw [e]
  rcases insert_cases hlt hi h v with ⟨e, p, f1, f2, f3⟩ | ⟨p, f1, f2, f3⟩
  · rcases findNodeByKeyT_sim (klt := lt v) (elt := fun u => lt u v) (2 * m.next + 3) m.root none ⟨m, raw, k⟩ _ f1 with ⟨j, q1, q2⟩ | ⟨j, q1, q2⟩
    · rw [T.ok_bind (b := (some e.id, false)) (t' := ⟨m, raw, j⟩) (by rw [T.ok_bind q1, if_pos (by simp)]; rfl)]
      exact inserted_good hlt hi f2 rfl h (Or.inl rfl) rfl
    · rw [T.thrown_bind (T.thrown_bind q1)]
      refine ⟨s, lost, hi, h, rfl, Untouched.rfl m, by simp only; omega, ?_⟩
      simp only at q2
      omega
  · rcases findNodeByKeyT_sim (klt := lt v) (elt := fun u => lt u v) (2 * m.next + 3) m.root none ⟨m, raw, k⟩ _ f1 with ⟨j, q1, q2⟩ | ⟨j, q1, q2⟩
    · simp only at q2
      obtain ⟨m1, g1, g2, -, -, -, g3⟩ := create_rep h v
      have hsame := create_same g1
      cases j with
      | zero =>
        rw [T.thrown_bind (t' := ⟨m, raw, 0⟩) (by rw [T.ok_bind q1, if_neg (by simp)]; rfl)]
        exact ⟨s, lost, hi, h, rfl, Untouched.rfl m, by simp only; omega, by omega⟩
      | succ j =>
        cases j with
        | zero =>
          rw [T.thrown_bind (t' := ⟨{ m with next := m.next + 1 }, m.next :: raw, 0⟩) (by rw [T.ok_bind q1, if_neg (by simp)]; rfl)]
          exact ⟨_, lost, inv_bump hi, h.bump, rfl, ⟨rfl, fun _ _ hh => hh, fun _ hh => ⟨hh, rfl, rfl⟩⟩, by simp [Call.makes]; omega, by omega⟩
        | succ j =>
          have hcr : createNodeT v ⟨m, raw, j + 1 + 1⟩ = .ok (some (some m.next), ⟨m1, raw, j⟩) := by
            rw [createNodeT, T.ok_bind (T.call_succ rfl)]
            show T.lift (createNode v) ⟨m, raw, j⟩ = _
            exact T.lift_ok (t := ⟨m, raw, j⟩) g1
          rcases addT_cases hi h f2 f3 g2 g3 raw j with ⟨m', s', j', a1, a2, a3⟩ | ⟨rfl, c, a1⟩
          · rw [T.ok_bind (b := (some m.next, true)) (t' := ⟨m', raw, j'⟩) (by rw [T.ok_bind q1, if_neg (by simp), T.ok_bind hcr, T.ok_bind a1]; rfl)]
            exact inserted_good hlt hi a3 rfl a2 (Or.inl rfl) (by rw [h.next])
          · rw [T.thrown_bind (t' := ⟨m1.set m.next c, raw, 0⟩) (by rw [T.ok_bind q1, if_neg (by simp), T.ok_bind hcr, T.thrown_bind a1])]
            refine ⟨_, m.next :: lost, inv_bump hi, g3.setLost (by simp) c, rfl, Untouched.ofNew h hsame.1 (fun p hp => ?_) hsame.2.2, by simp [Call.makes]; omega, by omega⟩
            rw [set_node, if_neg hp]
            exact hsame.2.1 p hp
    · rw [T.thrown_bind (T.thrown_bind q1)]
      refine ⟨s, lost, hi, h, rfl, Untouched.rfl m, by simp only; omega, ?_⟩
      simp only at q2
      omega

theorem emplaceT_good {lt : α → α → Bool} (hlt : StrictWeak lt) {s : VSet α} {m : Mem α} {lost : List Nat} (hi : Inv lt s) (h : Rep m lost s) (raw : List Nat) (k : Nat) (v : α) :
    Good lt s m lost raw k (.emplace v) (stepT lt (.emplace v) ⟨m, raw, k⟩) := by
  have e : stepT lt (.emplace v) (⟨m, raw, k⟩ : TS α) = ((createNodeT v >>= fun node =>
      T.orElse (do findNodeByKeyT (lt v) (fun u => lt u v) (← T.lift fuel) (← T.lift getRoot) none) (destroyNode node) >>= fun r =>
        if r.1 ≠ none then (T.lift (destroyNode node) >>= fun _ => (pure (r.1, false) : T α (Ptr × Bool))) else insertNodeT lt node r.2 >>= fun _ => pure (node, true)) >>= fun q =>
          T.lift (rd q.1) >>= fun d => (pure (Out.inserted d.value q.2) : T α (Out α))) (⟨m, raw, k⟩ : TS α) := rfl
  rw [e]
  clear e
  obtain ⟨m1, g1, g2, gn, gf, -, g3⟩ := create_rep h v
  have hsame := create_same g1
  have hxl : m.next ∉ lost := fun hx => absurd (h.apart _ hx).2 (Nat.lt_irrefl _)
  match k with
  | 0 =>
    rw [T.thrown_bind (T.thrown_bind (t' := ⟨m, raw, 0⟩) rfl)]
    exact ⟨s, lost, hi, h, rfl, Untouched.rfl m, by simp only; omega, by omega⟩
  | 1 =>
    rw [T.thrown_bind (T.thrown_bind (t' := ⟨{ m with next := m.next + 1 }, m.next :: raw, 0⟩) rfl)]
    exact ⟨_, lost, inv_bump hi, h.bump, rfl, ⟨rfl, fun _ _ hh => hh, fun _ hh => ⟨hh, rfl, rfl⟩⟩, by simp [Call.makes]; omega, by omega⟩
  | k + 2 =>
    have hcr : createNodeT v ⟨m, raw, k + 2⟩ = .ok (some (some m.next), ⟨m1, raw, k⟩) := by
      rw [createNodeT, T.ok_bind (T.call_succ rfl)]
      show T.lift (createNode v) ⟨m, raw, k⟩ = _
      exact T.lift_ok (t := ⟨m, raw, k⟩) g1
    have hfd : (do findNodeByKeyT (lt v) (fun u => lt u v) (← T.lift fuel) (← T.lift getRoot) none : T α (Ptr × Ptr)) ⟨m1, raw, k⟩ =
        findNodeByKeyT (lt v) (fun u => lt u v) (2 * m1.next + 3) m1.root none ⟨m1, raw, k⟩ := rfl
    obtain ⟨md, d1, d2, d3, d4, d5⟩ := destroyLost (inv_bump hi) g3 hxl gf
    have hun : Untouched m md := Untouched.ofNew h (d3.trans hsame.1) (fun p hp => (d4 p hp).trans (hsame.2.1 p hp))
      (fun a ha => by obtain ⟨a1, a2, a3⟩ := d5 a ha; obtain ⟨b1, b2, b3⟩ := hsame.2.2 a ha; exact ⟨a1.trans b1, a2.trans b2, a3.trans b3⟩)
    have hthrow : ∀ j, findNodeByKeyT (lt v) (fun u => lt u v) (2 * m1.next + 3) m1.root none ⟨m1, raw, k⟩ = .ok (none, ⟨m1, raw, j⟩) →
        T.orElse (do findNodeByKeyT (lt v) (fun u => lt u v) (← T.lift fuel) (← T.lift getRoot) none) (destroyNode (some m.next)) ⟨m1, raw, k⟩ = .ok (none, ⟨md, raw, j⟩) := by
      intro j hj
      rw [T.orElse, hfd, hj]
      simp only [d1]
    have hret : ∀ b j, findNodeByKeyT (lt v) (fun u => lt u v) (2 * m1.next + 3) m1.root none ⟨m1, raw, k⟩ = .ok (some b, ⟨m1, raw, j⟩) →
        T.orElse (do findNodeByKeyT (lt v) (fun u => lt u v) (← T.lift fuel) (← T.lift getRoot) none) (destroyNode (some m.next)) ⟨m1, raw, k⟩ = .ok (some b, ⟨m1, raw, j⟩) := by
      intro b j hj
      rw [T.orElse, hfd, hj]
    rcases insert_cases hlt (inv_bump hi) g3 v with ⟨e, p, f1, f2, f3⟩ | ⟨p, f1, f2, f3⟩
    · rcases findNodeByKeyT_sim (klt := lt v) (elt := fun u => lt u v) (2 * m1.next + 3) m1.root none ⟨m1, raw, k⟩ _ f1 with ⟨j, q1, q2⟩ | ⟨j, q1, q2⟩
      · rw [T.ok_bind (b := (some e.id, false)) (t' := ⟨md, raw, j⟩) (by
          rw [T.ok_bind hcr, T.ok_bind (hret _ _ q1), if_pos (by simp), T.ok_bind (T.lift_ok (t := ⟨m1, raw, j⟩) d1)]; rfl)]
        have hs : s.insert lt v = .ok (s, e, false) := by
          simp only [VSet.insert] at f2 ⊢
          split at f2
          · simp only [Res.ok.injEq, Prod.mk.injEq] at f2
            rw [f2.2.1]
          · cases f2
          · obtain ⟨_, -, f2⟩ := Res.bind_eq_ok.1 f2
            obtain ⟨_, -, f2⟩ := Res.bind_eq_ok.1 f2
            simp at f2
        exact inserted_good hlt hi hs rfl d2 (Or.inr rfl) rfl
      · rw [T.thrown_bind (t' := ⟨md, raw, j⟩) (by rw [T.ok_bind hcr, T.thrown_bind (hthrow _ q1)])]
        refine ⟨_, lost, inv_bump hi, d2, rfl, hun, by simp only; omega, ?_⟩
        simp only at q2
        omega
    · rcases findNodeByKeyT_sim (klt := lt v) (elt := fun u => lt u v) (2 * m1.next + 3) m1.root none ⟨m1, raw, k⟩ _ f1 with ⟨j, q1, q2⟩ | ⟨j, q1, q2⟩
      · simp only at q2
        rcases addT_cases hi h f2 f3 g2 g3 raw j with ⟨m', s', j', a1, a2, a3⟩ | ⟨rfl, c, a1⟩
        · rw [T.ok_bind (b := (some m.next, true)) (t' := ⟨m', raw, j'⟩) (by
            rw [T.ok_bind hcr, T.ok_bind (hret _ _ q1), if_neg (by simp), T.ok_bind a1]; rfl)]
          exact inserted_good hlt hi a3 rfl a2 (Or.inl rfl) (by rw [h.next])
        · rw [T.thrown_bind (t' := ⟨m1.set m.next c, raw, 0⟩) (by rw [T.ok_bind hcr, T.ok_bind (hret _ _ q1), if_neg (by simp), T.thrown_bind a1])]
          refine ⟨_, m.next :: lost, inv_bump hi, g3.setLost (by simp) c, rfl, Untouched.ofNew h hsame.1 (fun p hp => ?_) hsame.2.2, by simp [Call.makes]; omega, by omega⟩
          rw [set_node, if_neg hp]
          exact hsame.2.1 p hp
      · rw [T.thrown_bind (t' := ⟨md, raw, j⟩) (by rw [T.ok_bind hcr, T.thrown_bind (hthrow _ q1)])]
        refine ⟨_, lost, inv_bump hi, d2, rfl, hun, by simp only; omega, ?_⟩
        simp only at q2
        omega

/-- **Every call** returns what the mathematical set returns, or throws and has changed nothing. -/
theorem stepT_good {lt : α → α → Bool} (hlt : StrictWeak lt) {s : VSet α} {m : Mem α} {lost : List Nat} (hi : Inv lt s) (h : Rep m lost s) (raw : List Nat) (k : Nat) (c : Call α) :
    Good lt s m lost raw k c (stepT lt c ⟨m, raw, k⟩) := by
  cases c with
  | emplace v => exact emplaceT_good hlt hi h raw k v
  | plain op =>
    by_cases hop : ∃ v, op = .insert v
    · obtain ⟨v, rfl⟩ := hop
      exact insertT_good hlt hi h raw k v
    · rcases look_cases (lt := lt) h raw k (op := op) (fun v hv => hop ⟨v, hv⟩) with ⟨j, q⟩ | ⟨j, q, r⟩
      · rw [q, T.lift_apply]
        have hst := step_eq hlt hi op
        cases hs : s.step lt op with
        | ok r =>
          obtain ⟨s', o⟩ := r
          obtain ⟨m', e1, r1⟩ := step_rep hlt hi h hs
          rw [e1]
          rw [hs] at hst
          exact ⟨s', step_inv hlt hi hs, r1, rfl, hst.symm⟩
        | throw e => rw [hs] at hst; exact (spec_step_not_throw op e hst.symm).elim
        | ub =>
          rw [hs] at hst
          rw [step_rep_ub h hst.symm]
          exact hst.symm
      · rw [q]
        exact ⟨s, lost, hi, h, rfl, Untouched.rfl m, by simp only; omega, by omega⟩

end Verif.VectorSet.Heap
