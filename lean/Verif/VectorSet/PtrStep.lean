import Verif.VectorSet.PtrNew
import Verif.VectorSet.StepLemmas

/-! # The operations in memory -/

namespace Verif.VectorSet.Heap

open Verif.QuickList (RingOf)

variable {α : Type}

theorem RepC.same {m m' : Mem α} {t : Tree α} {fs : List (Frame α)} (h : RepC m t fs) (hn : ∀ i ∈ idsT t ++ idsF fs, m'.node i = m.node i)
    (hr : m'.root = m.root) (hx : m'.next = m.next) : RepC m' t fs :=
  ⟨h.tree.congr fun i hi => hn i (by simp [hi]), h.path.congr fun i hi => hn i (by simp [hi]), hr.trans h.root, h.nodup, fun i hi => hx ▸ h.lt i hi⟩

/-! ## `insert` -/

theorem create_rep {s : VSet α} {m : Mem α} {lost : List Nat} (h : Rep m lost s) (v : α) :
    ∃ m1, createNode v m = .ok (some m.next, m1) ∧ m1.node m.next = some ⟨none, none, none, .red, 0, v⟩ ∧ m1.next = m.next + 1 ∧
      m1.links.fwd (m.next + 1) = none ∧ m1.links.bwd (m.next + 1) = none ∧ Rep m1 (m.next :: lost) { s with nextId := s.nextId + 1 } := by
  have hxn : m.next ∉ idsT s.root := fun hx => absurd (h.tree.lt _ (by simp [hx])) (Nat.lt_irrefl _)
  have hxl : m.next ∉ lost := fun hx => absurd (h.apart _ hx).2 (Nat.lt_irrefl _)
  have hdead : m.links.alive (m.next + 1) = false := by
    rw [← Bool.not_eq_true]
    intro hal
    rcases (h.alive _).1 hal with h0 | ⟨i, hi', h0⟩
    · cases h0
    · cases h0; exact hi'.elim hxn hxl
  have hne : ∀ x ∈ 0 :: (s.list.map fun e : Elem α => e.id + 1), x ≠ m.next + 1 := by
    intro x hx hxe
    subst hxe
    rw [h.ring.alive _ hx] at hdead
    cases hdead
  refine ⟨{ m.set m.next ⟨none, none, none, .red, 0, v⟩ with
    links := { alive := QuickList.upd m.links.alive (m.next + 1) true, fwd := QuickList.upd m.links.fwd (m.next + 1) none, bwd := QuickList.upd m.links.bwd (m.next + 1) none },
    next := m.next + 1 }, ?_, ?_, rfl, ?_, ?_, ⟨?_, ?_, ?_, ?_, ?_, ?_⟩⟩
  · simp [createNode, QuickList.newElem, hdead]
  · simp
  · simp [QuickList.upd]
  · simp [QuickList.upd]
  · exact h.tree.alloc (fun i hi => by simp only [set_node]; rw [if_neg (by omega)]) rfl (by simp)
  · exact h.ring.frame (fun x hx => by simp [QuickList.upd, hne x hx]) (fun x hx => by simp [QuickList.upd, hne x hx])
      (fun x hx => by simp [QuickList.upd, hne x hx])
  · show m.next + 1 = s.nextId + 1
    rw [h.next]
  · intro i
    simp only [set_node, List.mem_cons, not_or]
    have := h.dom i
    by_cases hi : i = m.next
    · simp [hi]
    · simp [hi, this]
  · intro a
    have := h.alive a
    simp only [QuickList.upd, List.mem_cons]
    split
    · rename_i ha
      exact ⟨fun _ => Or.inr ⟨m.next, Or.inr (Or.inl rfl), ha⟩, fun _ => rfl⟩
    · rename_i ha
      rw [this]
      constructor
      · rintro (rfl | ⟨i, hi' | hi', rfl⟩)
        · exact Or.inl rfl
        · exact Or.inr ⟨i, Or.inl hi', rfl⟩
        · exact Or.inr ⟨i, Or.inr (Or.inr hi'), rfl⟩
      · rintro (rfl | ⟨i, hi' | rfl | hi', rfl⟩)
        · exact Or.inl rfl
        · exact Or.inr ⟨i, Or.inl hi', rfl⟩
        · exact absurd rfl ha
        · exact Or.inr ⟨i, Or.inr hi', rfl⟩
  · intro i hi
    rcases List.mem_cons.1 hi with rfl | hi
    · exact ⟨hxn, Nat.lt_succ_self _⟩
    · exact ⟨(h.apart i hi).1, Nat.lt_succ_of_lt (h.apart i hi).2⟩

/-- A node that is not in the set yet becomes an element. -/
theorem insertNode_rep {lt : α → α → Bool} {s : VSet α} {m : Mem α} {lost : List Nat} {x : Nat} {v : α} {p : Option (Cursor α)} {T : Tree α} {A B : List (Elem α)}
    (hi : Inv lt s) (h : Rep m (x :: lost) s) (hxl : x ∉ lost) (hx : m.node x = some ⟨none, none, none, .red, 0, v⟩)
    (hp : InsertPoint (lt v) (fun a => lt a v) s.root p) (k1 : VectorSet.linkNode lt ⟨x, v⟩ p = .ok T) (k2 : toL s.root = A ++ B)
    (k5 : toL T = A ++ ⟨x, v⟩ :: B) :
    ∃ m', insertNode lt (some x) (cptr p) m = .ok ((), m') ∧ Rep m' lost ⟨T, A ++ ⟨x, v⟩ :: B, s.nextId⟩ := by
  obtain ⟨hxn, hxlt⟩ := h.apart x (by simp)
  have hne : ∀ a ∈ A ++ B, a.id ≠ x := fun a ha hax => hxn (mem_idsT.2 ⟨a, by rw [k2]; exact ha, hax⟩)
  have hu : Uniq (A ++ ⟨x, v⟩ :: B) := by
    have h0 := hi.uniq
    rw [k2] at h0
    rw [Uniq, List.pairwise_append] at h0 ⊢
    refine ⟨h0.1, List.pairwise_cons.2 ⟨?_, h0.2.1⟩, ?_⟩
    · intro a ha; exact (hne a (by simp [ha])).symm
    · intro a ha b hb
      rcases List.mem_cons.1 hb with rfl | hb
      · exact hne a (by simp [ha])
      · exact h0.2.2 a ha b hb
  obtain ⟨m2, e2, c2, kp2⟩ := insertTree_ok h.tree hp hx hxn hxlt k1
  -- the predecessor
  have hpred : getPredecessor (some x) m2 = .ok (eptr A.getLast?, m2) := by
    rcases locate_ok x T [] with ⟨c, n, l, e', r, gs, w1, w2, w3⟩ | ⟨_, w2⟩
    · simp only [zip] at w2
      have hsp : (ctxL gs ++ toL l) ++ e' :: (toL r ++ ctxR gs) = A ++ ⟨x, v⟩ :: B := by
        rw [← k5, ← w2, toL_zip]; simp [toL]
      obtain ⟨h1, h2, h3⟩ := uniq_split (by rw [hsp]; exact hu) hsp w3
      have cc : RepC m2 (.node c n l e' r) gs := by rw [repC_zip, w2]; exact c2
      have := getPredecessor_ok cc (VectorSet.getPredecessor_ok c n l e' r gs)
      rw [tptr_node, w3, h1] at this
      exact this
    · exact (w2 ⟨x, v⟩ (by rw [k5]; simp) rfl).elim
  have r1 := h.ring
  rw [hi.list, k2] at r1
  have hni : x + 1 ∉ (A ++ B).map fun e : Elem α => e.id + 1 := by
    simp only [List.mem_map, not_exists, not_and]
    intro a ha hae
    exact hne a ha (by omega)
  obtain ⟨h', e3, r3, a3⟩ := linkInList_ok (m := m2) (e := ⟨x, v⟩) (A := A) (B := B) (by rw [kp2.links]; exact r1) hni
    (by rw [kp2.links]; exact (h.alive _).2 (Or.inr ⟨x, Or.inr (by simp), rfl⟩))
  have hids : ∀ i, i ∈ idsT T ↔ i = x ∨ i ∈ idsT s.root := by
    intro i
    rw [mem_idsT, mem_idsT, k5, k2]
    simp only [List.mem_append, List.mem_cons]
    constructor
    · rintro ⟨a, ha | rfl | ha, rfl⟩
      · exact Or.inr ⟨a, Or.inl ha, rfl⟩
      · exact Or.inl rfl
      · exact Or.inr ⟨a, Or.inr ha, rfl⟩
    · rintro (rfl | ⟨a, ha | ha, rfl⟩)
      · exact ⟨_, Or.inr (Or.inl rfl), rfl⟩
      · exact ⟨a, Or.inl ha, rfl⟩
      · exact ⟨a, Or.inr (Or.inr ha), rfl⟩
  refine ⟨{ m2 with links := h' }, ?_, ⟨c2.same (fun _ _ => rfl) rfl rfl, r3, ?_, ?_, ?_, ?_⟩⟩
  · rw [e2, bind_apply, hpred]; simp only []
    rw [e3]
  · show m2.next = s.nextId
    rw [kp2.next, h.next]
  · intro i
    show m2.node i = none ↔ _
    rw [kp2.dom, h.dom, hids, List.mem_cons]
    tauto
  · intro a
    show h'.alive a = true ↔ _
    rw [a3, kp2.links, h.alive]
    simp only [hids, List.mem_cons]
    constructor
    · rintro (h0 | ⟨i, h0, h1⟩)
      · exact Or.inl h0
      · exact Or.inr ⟨i, by tauto, h1⟩
    · rintro (h0 | ⟨i, h0, h1⟩)
      · exact Or.inl h0
      · exact Or.inr ⟨i, by tauto, h1⟩
  · intro i hil
    obtain ⟨g1, g2⟩ := h.apart i (by simp [hil])
    refine ⟨?_, ?_⟩
    · rw [hids, not_or]
      exact ⟨fun hh => hxl (hh ▸ hil), g1⟩
    · show i < m2.next
      rw [kp2.next]
      exact g2

theorem insert_rep {lt : α → α → Bool} (hlt : StrictWeak lt) {s s' : VSet α} {m : Mem α} {lost : List Nat} {v : α} {e : Elem α} {b : Bool} (hi : Inv lt s) (h : Rep m lost s)
    (hs : s.insert lt v = .ok (s', e, b)) :
    ∃ m', insert lt v m = .ok ((some e.id, b), m') ∧ Rep m' lost s' := by
  have hlen := h.tree.length
  have hroot : m.root = tptr s.root := h.tree.root
  have hf := findNodeByKey_ok (klt := lt v) (elt := fun u => lt u v) (par := none) (k := 2 * m.next + 3) h.tree (by intro c hc; cases hc) (by simp at hlen; omega)
  have hcn : cptr (none : Option (Cursor α)) = none := rfl
  rcases findNode_ok (lt v) (fun u => lt u v) s.root [] none (by
      simp only [zip]; exact keyOK_of_sorted hlt hi.sorted v) (by simp [AllP, ctxL]) (by simp [AllP, ctxR]) rfl with
    ⟨c, n, l, e', r, gs, p, q1, q2, q3, q4⟩ | ⟨p, q1, q2, _⟩
  · simp only [VSet.insert, q1] at hs
    cases hs
    refine ⟨m, ?_, h⟩
    rw [q1, hcn] at hf
    rw [insert, bind_apply, fuel_apply]; simp only []
    rw [bind_apply, getRoot_apply, hroot]; simp only []
    rw [bind_apply, hf.1]; simp only []
    rw [ite_apply', if_pos (by simp [cptr, tptr_node])]
    rfl
  · simp only [zip] at q2
    obtain ⟨T, A, B, k1, k2, k3, k4, k5, k6, k7⟩ := linkNode_ok (e := ⟨s.nextId, v⟩) hi.cnt hi.black q2
    obtain ⟨m1, g1, g2, -, -, -, g3⟩ := create_rep h v
    have hi1 : Inv lt { s with nextId := s.nextId + 1 } := ⟨hi.cnt, hi.black, hi.list, hi.uniq, fun a ha => Nat.lt_succ_of_lt (hi.fresh a ha), hi.sorted⟩
    have hxl : m.next ∉ lost := fun hx => absurd (h.apart _ hx).2 (Nat.lt_irrefl _)
    have hfresh := hi.fresh
    rw [k2] at hfresh
    have hu : Uniq (A ++ ⟨s.nextId, v⟩ :: B) := by
      have h0 := hi.uniq
      rw [k2] at h0
      rw [Uniq, List.pairwise_append] at h0 ⊢
      refine ⟨h0.1, List.pairwise_cons.2 ⟨?_, h0.2.1⟩, ?_⟩
      · intro a ha; have := hfresh a (by simp [ha]); simp only; omega
      · intro a ha b hb
        rcases List.mem_cons.1 hb with rfl | hb
        · have := hfresh a (by simp [ha]); simp only; omega
        · exact h0.2.2 a ha b hb
    have hll := linkList_ok (root := T) k5 hu
    rw [← k2, ← hi.list] at hll
    simp only [VSet.insert, q1, k1, Res.ok_bind, hll] at hs
    cases hs
    rw [← h.next] at k1 k5
    obtain ⟨m', g4, g5⟩ := insertNode_rep hi1 g3 hxl g2 q2 k1 k2 k5
    refine ⟨m', ?_, ?_⟩
    · rw [q1, hcn] at hf
      rw [insert, bind_apply, fuel_apply]; simp only []
      rw [bind_apply, getRoot_apply, hroot]; simp only []
      rw [bind_apply, hf.1]; simp only []
      rw [ite_apply', if_neg (by simp), bind_apply, g1]; simp only []
      rw [bind_apply, g4, h.next]
      rfl
    · rw [h.next] at g5
      exact g5

/-! ## `erase` -/

theorem destroyNode_ok {m : Mem α} {X Y : List Nat} {a : Nat} (hr : RingOf m.links 0 (X ++ (a + 1) :: Y)) (hn : m.node a ≠ none) :
    ∃ h', destroyNode (some a) m = .ok ((), { m with links := h', node := QuickList.upd m.node a none }) ∧ RingOf h' 0 (X ++ Y) ∧
      h'.alive = QuickList.upd m.links.alive (a + 1) false := by
  obtain ⟨P, p, n, Z, hP, hZ, h1, h2, h3, h4, -, -⟩ := hr.around
  have ha : m.links.alive (a + 1) = true := hr.alive _ (by simp)
  have hp : m.links.alive p = true := by
    apply hr.alive
    have : p ∈ (0 : Nat) :: X := by rw [hP]; simp
    simp only [List.mem_cons, List.mem_append] at this ⊢
    tauto
  have hn' : m.links.alive n = true := by
    apply hr.alive
    have : n ∈ Y ++ [(0 : Nat)] := by rw [hZ]; simp
    simp only [List.mem_cons, List.mem_append, List.not_mem_nil, or_false] at this ⊢
    tauto
  have hex := QuickList.exclude_eq hp ha hn' h1 h2 h3 h4
  have hrem := hr.remove h3 h2
  have hsafe : QuickList.safeExclude m.links (a + 1) = QuickList.exclude m.links (a + 1) := by
    simp [QuickList.safeExclude, QuickList.included, QuickList.rd, ha, h3]
  have hnot : ∀ x ∈ (0 : Nat) :: (X ++ Y), x ≠ a + 1 := by
    have := hr.nodup
    rintro x hx rfl
    simp only [List.nodup_cons, List.mem_append, List.mem_cons, List.nodup_append] at this hx
    obtain ⟨-, -, ⟨hy, -⟩, hd⟩ := this
    rcases hx with hx | hx | hx
    · cases hx
    · exact hd _ hx _ (Or.inl rfl) rfl
    · exact hy hx
  refine ⟨_, ?_, hrem.frame (fun _ _ => rfl) (fun _ _ => rfl) (h' := { alive := QuickList.upd m.links.alive (a + 1) false, fwd := QuickList.upd (QuickList.upd m.links.fwd p (some n)) (a + 1) none, bwd := QuickList.upd (QuickList.upd m.links.bwd n (some p)) (a + 1) none })
    (fun x hx => by simp [QuickList.upd, hnot x hx]), rfl⟩
  cases hc : m.node a with
  | none => exact absurd hc hn
  | some c =>
    have e1 : onLinks (fun h => QuickList.safeExclude h (a + 1)) m = .ok ((), { m with links := { m.links with
        fwd := QuickList.upd (QuickList.upd m.links.fwd p (some n)) (a + 1) none, bwd := QuickList.upd (QuickList.upd m.links.bwd n (some p)) (a + 1) none } }) := by
      simp only [onLinks, hsafe, hex]
    rw [destroyNode, bind_apply, e1]; simp only []
    rw [bind_apply]
    simp only [onLinks, QuickList.kill, ha, if_true, deallocate, hc]

theorem erase_rep {lt : α → α → Bool} {s s' : VSet α} {m : Mem α} {X Y : List (Elem α)} {e : Elem α} (hi : Inv lt s) (h : Rep m lost s)
    (hx : toL s.root = X ++ e :: Y) (hs : s.eraseNode e.id = .ok s') :
    ∃ m', erase (some e.id) m = .ok ((), m') ∧ Rep m' lost s' := by
  obtain ⟨s'', q1, q2, q3, q4⟩ := eraseNode_ok hi hx
  rw [hs] at q1
  cases q1
  rcases locate_ok e.id s.root [] with ⟨c, n, l, e', r, gs, w1, w2, w3⟩ | ⟨_, w2⟩
  · simp only [zip] at w2
    simp only [VSet.eraseNode, w1] at hs
    obtain ⟨T, hT, hs⟩ := Res.bind_eq_ok.1 hs
    cases hs
    simp only at q2 q4
    have cc : RepC m (.node c n l e' r) gs := by rw [repC_zip, w2]; exact h.tree
    obtain ⟨m1, e1, c1, k1⟩ := removeNode_ok cc hT
    rw [w3] at e1
    have hring : RingOf m1.links 0 (X.map (fun e : Elem α => e.id + 1) ++ (e.id + 1) :: Y.map (fun e : Elem α => e.id + 1)) := by
      have := h.ring
      rw [hi.list, hx] at this
      rw [k1.links]
      simpa using this
    have hin : e.id ∈ idsT s.root := mem_idsT.2 ⟨e, by rw [hx]; simp, rfl⟩
    have hne : m1.node e.id ≠ none := by
      rw [ne_eq, k1.dom, h.dom]
      exact fun hh => hh.1 hin
    obtain ⟨h', e2, r2, a2⟩ := destroyNode_ok hring hne
    have hids : ∀ i, i ∈ idsT T ↔ i ≠ e.id ∧ i ∈ idsT s.root := by
      intro i
      have hu := hi.uniq
      rw [hx, Uniq, List.pairwise_append, List.pairwise_cons] at hu
      rw [mem_idsT, mem_idsT, q2, hx]
      simp only [List.mem_append, List.mem_cons]
      constructor
      · rintro ⟨a, ha | ha, rfl⟩
        · exact ⟨hu.2.2 a ha e (by simp), a, Or.inl ha, rfl⟩
        · exact ⟨fun hh => hu.2.1.1 a ha hh.symm, a, Or.inr (Or.inr ha), rfl⟩
      · rintro ⟨hne, a, ha | rfl | ha, rfl⟩
        · exact ⟨a, Or.inl ha, rfl⟩
        · exact absurd rfl hne
        · exact ⟨a, Or.inr ha, rfl⟩
    have hnl : e.id ∉ lost := fun hh => (h.apart _ hh).1 hin
    refine ⟨_, e1.trans e2, ⟨c1.same (fun i hi => ?_) rfl rfl, ?_, ?_, ?_, ?_, ?_⟩⟩
    · simp only [idsF, List.append_nil] at hi
      simp [QuickList.upd, ((hids i).1 hi).1]
    · have hl : removeId e.id s.list = X ++ Y := by
        rw [hi.list, hx]
        exact removeId_ok (by rw [← hx]; exact hi.uniq)
      simp only [hl, List.map_append]
      exact r2
    · show m1.next = s.nextId
      rw [k1.next, h.next]
    · intro i
      show QuickList.upd m1.node e.id none i = none ↔ i ∉ idsT T ∧ i ∉ lost
      rw [hids, QuickList.upd]
      split
      · rename_i hie
        subst hie
        exact ⟨fun _ => ⟨fun hh => hh.1 rfl, hnl⟩, fun _ => rfl⟩
      · rename_i hie
        rw [k1.dom, h.dom]
        tauto
    · intro a
      show h'.alive a = true ↔ _
      rw [a2, k1.links, QuickList.upd]
      split
      · rename_i ha
        subst ha
        simp only [Bool.false_eq_true, Nat.add_right_cancel_iff, false_iff, not_or, not_exists, not_and]
        refine ⟨by omega, fun i hi' he => ?_⟩
        subst he
        exact hi'.elim (fun hh => ((hids _).1 hh).1 rfl) hnl
      · rename_i ha
        rw [h.alive]
        constructor
        · rintro (rfl | ⟨i, hi', rfl⟩)
          · exact Or.inl rfl
          · exact Or.inr ⟨i, hi'.imp_left fun hh => (hids i).2 ⟨fun hh => ha (by rw [hh]), hh⟩, rfl⟩
        · rintro (rfl | ⟨i, hi', rfl⟩)
          · exact Or.inl rfl
          · exact Or.inr ⟨i, hi'.imp_left fun hh => ((hids i).1 hh).2, rfl⟩
    · intro i hil
      refine ⟨fun hh => (h.apart i hil).1 ((hids i).1 hh).2, ?_⟩
      show i < m1.next
      rw [k1.next]
      exact (h.apart i hil).2
  · exact (w2 e (by rw [hx]; simp) rfl).elim

end Verif.VectorSet.Heap
