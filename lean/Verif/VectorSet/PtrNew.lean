import Verif.VectorSet.PtrReplace
import Verif.VectorSet.Inv
import Verif.QuickList.Splice

/-! # Adding a node in memory -/

namespace Verif.VectorSet.Heap

open Verif.QuickList (RingOf)

variable {α : Type}

/-- The set `s` in memory: the tree, the list, and the only other nodes are those in `lost`, which nothing points to. -/
structure Rep (m : Mem α) (lost : List Nat) (s : VSet α) : Prop where
  tree : RepC m s.root []
  ring : RingOf m.links 0 (s.list.map fun e : Elem α => e.id + 1)
  next : m.next = s.nextId
  dom : ∀ i, m.node i = none ↔ i ∉ idsT s.root ∧ i ∉ lost
  alive : ∀ a, m.links.alive a = true ↔ a = 0 ∨ ∃ i, (i ∈ idsT s.root ∨ i ∈ lost) ∧ a = i + 1
  apart : ∀ i ∈ lost, i ∉ idsT s.root ∧ i < m.next

theorem mem_idsT {t : Tree α} {i : Nat} : i ∈ idsT t ↔ ∃ e ∈ toL t, e.id = i := by
  induction t with
  | nil => simp [idsT, toL]
  | node c n l e r ihl ihr =>
    simp only [idsT, toL, List.mem_cons, List.mem_append, ihl, ihr]
    constructor
    · rintro (rfl | ⟨a, ha, rfl⟩ | ⟨a, ha, rfl⟩)
      · exact ⟨e, Or.inr (Or.inl rfl), rfl⟩
      · exact ⟨a, Or.inl ha, rfl⟩
      · exact ⟨a, Or.inr (Or.inr ha), rfl⟩
    · rintro ⟨a, ha | rfl | ha, rfl⟩
      · exact Or.inr (Or.inl ⟨a, ha, rfl⟩)
      · exact Or.inl rfl
      · exact Or.inr (Or.inr ⟨a, ha, rfl⟩)

theorem ring_insert {h : QuickList.Heap} {L L' X Y : List Nat} {p a : Nat} (hr : RingOf h 0 L) (he : 0 :: L = X ++ p :: Y)
    (he' : 0 :: L' = X ++ p :: a :: Y) (ha : a ∉ 0 :: L) (hal : h.alive a = true) :
    ∃ h', QuickList.insertAfter h p a = .ok h' ∧ RingOf h' 0 L' ∧ h'.alive = h.alive := by
  obtain ⟨n, Z, hZ, hf, hb, hmem, -, -⟩ := hr.next he
  exact ⟨_, QuickList.insertAfter_eq (hr.alive p (by rw [he]; simp)) hal (hr.alive n hmem) hf hb, hr.insert he he' ha hal hf hb, rfl⟩

theorem linkInList_ok {m : Mem α} {A B : List (Elem α)} {e : Elem α} (hr : RingOf m.links 0 ((A ++ B).map fun e : Elem α => e.id + 1))
    (hn : e.id + 1 ∉ (A ++ B).map fun e : Elem α => e.id + 1) (hal : m.links.alive (e.id + 1) = true) :
    ∃ h', linkInList (eptr A.getLast?) (some e.id) m = .ok ((), { m with links := h' }) ∧
      RingOf h' 0 ((A ++ e :: B).map fun e : Elem α => e.id + 1) ∧ h'.alive = m.links.alive := by
  have ha : e.id + 1 ∉ 0 :: (A ++ B).map fun e : Elem α => e.id + 1 := by simpa using hn
  rcases List.eq_nil_or_concat A with rfl | ⟨A', p, rfl⟩
  · obtain ⟨h', e1, r1, a1⟩ := ring_insert hr (X := []) (p := 0) (Y := B.map fun e : Elem α => e.id + 1) rfl (L' := ([] ++ e :: B).map fun e : Elem α => e.id + 1) rfl ha hal
    refine ⟨h', ?_, r1, a1⟩
    simp only [linkInList, eptr, List.getLast?_nil, Option.map_none, onLinks, QuickList.pushFront, e1]
  · obtain ⟨h', e1, r1, a1⟩ := ring_insert hr (X := 0 :: A'.map fun e : Elem α => e.id + 1) (p := p.id + 1) (Y := B.map fun e : Elem α => e.id + 1) (by simp)
      (L' := (A'.concat p ++ e :: B).map fun e : Elem α => e.id + 1) (by simp) ha hal
    refine ⟨h', ?_, r1, a1⟩
    simp only [linkInList, eptr, List.concat_eq_append, List.getLast?_append, List.getLast?_singleton, Option.some_or, Option.map_some, onLinks, e1]

theorem RepC.alloc {m m' : Mem α} {t : Tree α} {fs : List (Frame α)} (h : RepC m t fs) (hn : ∀ i, i < m.next → m'.node i = m.node i)
    (hr : m'.root = m.root) (hx : m.next ≤ m'.next) : RepC m' t fs :=
  ⟨h.tree.congr fun i hi => hn i (h.lt i (by simp [hi])), h.path.congr fun i hi => hn i (h.lt i (by simp [hi])), hr.trans h.root, h.nodup,
    fun i hi => Nat.lt_of_lt_of_le (h.lt i hi) hx⟩

/-- The new leaf below its parent. -/
theorem place_ok {m : Mem α} {f : Frame α} {fs : List (Frame α)} {x : Nat} {v : α} (h : RepC m .nil (f :: fs))
    (hx : m.node x = some ⟨pptr (f :: fs), none, none, .red, 0, v⟩) (hxn : x ∉ idsF (f :: fs)) (hxl : x < m.next) :
    ∃ m', (match f.side with | .left => setLeft (some f.elem.id) (some x) | .right => setRight (some f.elem.id) (some x) : M α Unit) m = .ok ((), m') ∧
      RepC m' (.node .red 0 .nil ⟨x, v⟩ .nil) (updPath 1 (f :: fs)) ∧ Kept m m' := by
  have hnd := h.nodup
  have hlt := h.lt
  have hlen := h.length
  simp only [idsT, List.nil_append, List.length_nil, Nat.zero_add, List.length_cons] at hnd hlt hlen
  have hlf := length_idsF (f :: fs)
  simp only [List.length_cons] at hlf
  obtain ⟨m', e1, f1, n1, r1, k1⟩ := setChild_ok h.path hnd (q := some x) (fun a ha => by cases ha; exact hxn) (n := 1) ⟨_, hx, rfl⟩ (by omega)
  have hs := updPath_same 1 (f :: fs)
  refine ⟨m', e1, ⟨⟨?_, trivial, trivial⟩, f1, ?_, ?_, ?_⟩, k1⟩
  · rw [n1 x hxn, hx, pptr_same hs]
    rfl
  · rw [r1, h.root, topPtr_same _ hs]
    rfl
  · rw [idsF_same hs]
    simp only [idsT, List.nil_append, List.cons_append, List.nodup_cons]
    exact ⟨hxn, hnd⟩
  · rw [idsF_same hs, k1.next]
    intro i hi
    simp only [idsT, List.nil_append, List.cons_append, List.mem_cons] at hi
    rcases hi with rfl | hi
    · exact hxl
    · exact hlt i hi

theorem blackenRoot_ok' {m : Mem α} {T T' : Tree α} (h : RepC m T []) (hT : blackenRoot T = .ok T') :
    ∃ m', setColor m.root .black m = .ok ((), m') ∧ RepC m' T' [] ∧ Kept m m' := by
  have hr : m.root = tptr T := h.root
  rw [hr]
  exact setColor_ok' h hT

theorem updateCount_goLeft (c : Color) (n : Nat) (t : Tree α) (e : Elem α) (r : Tree α) (fs : List (Frame α)) :
    (VectorSet.updateCount (.node c n t e r, fs) >>= goLeft) = .ok (t, updPath t.cnt (⟨.left, c, n, e, r⟩ :: fs)) := by
  simp only [VectorSet.updateCount, updPath]
  by_cases h : t.cnt + r.cnt = n
  · simp [h, goLeft]
  · simp [h, goLeft]

theorem updateCount_goRight (c : Color) (n : Nat) (l : Tree α) (e : Elem α) (t : Tree α) (fs : List (Frame α)) :
    (VectorSet.updateCount (.node c n l e t, fs) >>= goRight) = .ok (t, updPath t.cnt (⟨.right, c, n, e, l⟩ :: fs)) := by
  simp only [VectorSet.updateCount, updPath, Nat.add_comm l.cnt]
  by_cases h : t.cnt + l.cnt = n
  · simp [h, goRight]
  · simp [h, goRight]

/-- `InsertNode` up to the list, for the parent found by the search. -/
theorem insertTree_ok {lt : α → α → Bool} {m : Mem α} {x : Nat} {v : α} {root T : Tree α} {p : Option (Cursor α)} (h : RepC m root [])
    (hp : InsertPoint (lt v) (fun a => lt a v) root p) (hx : m.node x = some ⟨none, none, none, .red, 0, v⟩) (hxn : x ∉ idsT root) (hxl : x < m.next)
    (hT : VectorSet.linkNode lt ⟨x, v⟩ p = .ok T) :
    ∃ m', insertNode lt (some x) (cptr p) m = (do linkInList (← getPredecessor (some x)) (some x) : M α Unit) m' ∧ RepC m' T [] ∧ Kept m m' := by
  -- the leaf in its place
  obtain ⟨m1, T1, fs1, e1, c1, k1, hb⟩ : ∃ m1 T1 fs1, (do wr (some x) (fun c => { c with parent := cptr p }); placeNode lt (some x) (cptr p) : M α Unit) m = .ok ((), m1) ∧
      RepC m1 (.node .red 0 .nil ⟨x, v⟩ .nil) fs1 ∧ Kept m m1 ∧ VectorSet.balanceAfterInsert (.node .red 0 .nil ⟨x, v⟩ .nil) fs1 = .ok T1 ∧ blackenRoot T1 = .ok T := by
    have hw := wr_ok (fun c => { c with parent := cptr p }) hx
    cases p with
    | none =>
      simp only [InsertPoint] at hp
      subst hp
      obtain ⟨T1, hb1, hb2⟩ := Res.bind_eq_ok.1 hT
      refine ⟨{ m.set x ⟨none, none, none, .red, 0, v⟩ with root := some x }, T1, [], ?_, ⟨⟨by simp [tptr_nil, pptr], trivial, trivial⟩, trivial, rfl, ?_, ?_⟩,
        (Kept.set hx).trans (Kept.setRoot _ _), hb1, hb2⟩
      · rw [bind_apply, hw]; simp only []
        rw [placeNode, ite_apply', if_pos (c := cptr (none : Option (Cursor α)) = none) rfl]
        rfl
      · simp [idsT, idsF]
      · intro i hi
        simp only [idsT, idsF, List.append_nil, List.mem_singleton] at hi
        subst hi
        exact hxl
    | some cur =>
      obtain ⟨t, fs⟩ := cur
      cases t with
      | nil => exact hp.elim
      | node c n l pe r =>
        obtain ⟨hz, hp⟩ := hp
        have hc : RepC m (.node c n l pe r) fs := by rw [repC_zip, hz]; exact h
        have hxn' : x ∉ idsT (.node c n l pe r) ++ idsF fs := by
          have := @ids_append α (.node c n l pe r) fs [] x
          rw [hz] at this
          simp only [idsF, List.append_nil] at this
          rw [← this]; exact hxn
        have hxp : pe.id ≠ x := fun hh => hxn' (by simp [idsT, hh])
        simp only [cptr, tptr_node] at hw ⊢
        have c0 : RepC (m.set x ⟨some pe.id, none, none, .red, 0, v⟩) (.node c n l pe r) fs := by
          refine ⟨hc.tree.congr fun i hi => ?_, hc.path.congr fun i hi => ?_, hc.root, hc.nodup, hc.lt⟩
          · simp only [set_node]; rw [if_neg]; rintro rfl; exact hxn' (by simp [hi])
          · simp only [set_node]; rw [if_neg]; rintro rfl; exact hxn' (by simp [hi])
        have x0 : (m.set x ⟨some pe.id, none, none, .red, 0, v⟩).node x = some ⟨some pe.id, none, none, .red, 0, v⟩ := by simp
        have k0 : Kept m (m.set x ⟨some pe.id, none, none, .red, 0, v⟩) := Kept.set hx
        generalize m.set x ⟨some pe.id, none, none, .red, 0, v⟩ = m0 at *
        have hpl : ∀ b : Bool, lt v pe.val = b → (do wr (some x) (fun c => { c with parent := some pe.id }); placeNode lt (some x) (some pe.id) : M α Unit) m =
            (if b = true then setLeft (some pe.id) (some x) else setRight (some pe.id) (some x)) m0 := by
          intro b hb
          rw [bind_apply, hw]; simp only []
          rw [placeNode, ite_apply', if_neg (by simp), bind_apply, rd_ok x0]; simp only []
          rw [bind_apply, rd_ok c0.cell]; simp only []
          rw [hb]
        rcases hp with ⟨h1, rfl, -, -⟩ | ⟨h1, h2, rfl, -, -⟩
        · rw [repC_left] at c0
          have hxf : x ∉ idsF (⟨.left, c, n, pe, r⟩ :: fs) := by simpa [idsT, idsF] using hxn'
          obtain ⟨m1, e1, c1, k1⟩ := place_ok c0 x0 hxf (by rw [k0.next]; exact hxl)
          simp only [VectorSet.linkNode, h1, if_true] at hT
          obtain ⟨pc, hu, hT⟩ := Res.bind_eq_ok.1 hT
          obtain ⟨xc, hg, hT⟩ := Res.bind_eq_ok.1 hT
          obtain ⟨T1, hb1, hb2⟩ := Res.bind_eq_ok.1 hT
          refine ⟨m1, T1, _, ?_, c1, k0.trans k1, ?_, hb2⟩
          · rw [hpl true h1]; exact e1
          · have hg' := updateCount_goLeft c n (.node .red 0 .nil ⟨x, v⟩ .nil) pe r fs
            rw [hu, Res.ok_bind, hg] at hg'
            cases hg'
            exact hb1
        · rw [repC_right] at c0
          have hxf : x ∉ idsF (⟨.right, c, n, pe, l⟩ :: fs) := by simpa [idsT, idsF] using hxn'
          obtain ⟨m1, e1, c1, k1⟩ := place_ok c0 x0 hxf (by rw [k0.next]; exact hxl)
          simp only [VectorSet.linkNode, h1, Bool.false_eq_true, if_false] at hT
          obtain ⟨pc, hu, hT⟩ := Res.bind_eq_ok.1 hT
          obtain ⟨xc, hg, hT⟩ := Res.bind_eq_ok.1 hT
          obtain ⟨T1, hb1, hb2⟩ := Res.bind_eq_ok.1 hT
          refine ⟨m1, T1, _, ?_, c1, k0.trans k1, ?_, hb2⟩
          · rw [hpl false h1]; exact e1
          · have hg' := updateCount_goRight c n l pe (.node .red 0 .nil ⟨x, v⟩ .nil) fs
            rw [hu, Res.ok_bind, hg] at hg'
            cases hg'
            exact hb1
  -- colours
  obtain ⟨m2, e2, c2, k2⟩ := setColor_ok c1 .red
  obtain ⟨m3, e3, c3, k3⟩ := balanceAfterInsert_ok (by simp) c2 hb.1
  obtain ⟨m4, e4, c4, k4⟩ := blackenRoot_ok' c3 hb.2
  refine ⟨m4, ?_, c4, ((k1.trans k2).trans k3).trans k4⟩
  have h1 : insertNode lt (some x) (cptr p) m = (do
      (do wr (some x) (fun c => { c with parent := cptr p }); placeNode lt (some x) (cptr p))
      setColor (some x) .red
      balanceAfterInsert (some x)
      setColor (← getRoot) .black
      linkInList (← getPredecessor (some x)) (some x) : M α Unit) m := by
    rw [insertNode]
    simp only [bind_apply]
    cases wr (some x) (fun c => { c with parent := cptr p }) m <;> rfl
  rw [h1, bind_apply, e1]; simp only []
  rw [bind_apply, e2]; simp only []
  rw [bind_apply]
  rw [tptr_node] at e3
  rw [e3]; simp only []
  rw [bind_apply, getRoot_apply]; simp only []
  rw [bind_apply, e4]

end Verif.VectorSet.Heap
