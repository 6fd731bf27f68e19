import Verif.VectorSet.PtrStep
import Verif.VectorSet.Props

/-! # A whole `vector_set` in memory -/

namespace Verif.VectorSet.Heap

open Verif.QuickList (RingOf)
open Verif.VectorSet.Spec (Op Out)

variable {α : Type}

/-! ## The list -/

theorem ring_next {h : QuickList.Heap} {L X Y : List Nat} {p : Nat} (hr : RingOf h 0 L) (he : 0 :: L = X ++ p :: Y) :
    QuickList.rd h.alive h.fwd (some p) = .ok ((Y ++ [0]).head?) := by
  obtain ⟨n, Z, hZ, hf, -⟩ := hr.next he
  have := hr.alive p (by rw [he]; simp)
  rw [hZ]
  simp [QuickList.rd, this, hf]

theorem begin_ok {m : Mem α} {L : List (Elem α)} (hr : RingOf m.links 0 (L.map fun e : Elem α => e.id + 1)) :
    begin m = .ok (eptr L.head?, m) := by
  have := ring_next hr (X := []) (p := 0) rfl
  cases L with
  | nil => simp [begin, ofLinks, QuickList.front, this, linkNode, eptr] at this ⊢
  | cons e L => simp [begin, ofLinks, QuickList.front, this, linkNode, eptr] at this ⊢

theorem nextIter_ok {m : Mem α} {X Y : List (Elem α)} {e : Elem α} (hr : RingOf m.links 0 ((X ++ e :: Y).map fun e : Elem α => e.id + 1)) :
    nextIter (some e.id) m = .ok (eptr Y.head?, m) := by
  have := ring_next hr (X := 0 :: X.map fun e : Elem α => e.id + 1) (p := e.id + 1) (Y := Y.map fun e : Elem α => e.id + 1) (by simp)
  cases Y with
  | nil => simp [nextIter, ofLinks, QuickList.successor, this, linkNode, eptr] at this ⊢
  | cons e L => simp [nextIter, ofLinks, QuickList.successor, this, linkNode, eptr] at this ⊢

theorem iterAt_ok {m : Mem α} {L : List (Elem α)} (hr : RingOf m.links 0 (L.map fun e : Elem α => e.id + 1)) (i : Nat) :
    iterAt i m = if i ≤ L.length then .ok (eptr L[i]?, m) else .ub := by
  induction i with
  | zero =>
    rw [iterAt, begin_ok hr, if_pos (Nat.zero_le _), List.head?_eq_getElem?]
  | succ i ih =>
    rw [iterAt, bind_apply, ih]
    by_cases hi : i < L.length
    · obtain ⟨X, e, Y, hL, hX⟩ : ∃ X e Y, L = X ++ e :: Y ∧ X.length = i :=
        ⟨L.take i, L[i], L.drop (i + 1), by simp, by simp; omega⟩
      have h1 : L[i]? = some e := by rw [hL, ← hX]; simp
      have h2 : L[i + 1]? = Y.head? := by
        rw [hL, ← hX, List.head?_eq_getElem?, List.getElem?_append_right (by omega)]
        simp
      rw [if_pos (by omega), if_pos (by omega), h1, h2]
      rw [hL] at hr
      exact nextIter_ok hr
    · rw [if_neg (by omega : ¬ i + 1 ≤ L.length)]
      by_cases hi' : i ≤ L.length
      · rw [if_pos hi', List.getElem?_eq_none (by omega)]
        rfl
      · rw [if_neg hi']

/-! ## `clear` -/

theorem clearLoop_ok {lost : List Nat} : ∀ {L : List Nat} {m : Mem α} {k : Nat}, RingOf m.links 0 (L.map (· + 1)) → (∀ i, m.node i = none ↔ i ∉ L ∧ i ∉ lost) →
    (∀ a, m.links.alive a = true ↔ a = 0 ∨ ∃ i, (i ∈ L ∨ i ∈ lost) ∧ a = i + 1) → (∀ i ∈ L, i ∉ lost) → L.length < k →
    ∃ m', clearLoop k m = .ok ((), m') ∧ RingOf m'.links 0 [] ∧ (∀ i, m'.node i = none ↔ i ∉ lost) ∧
      (∀ a, m'.links.alive a = true ↔ a = 0 ∨ ∃ i ∈ lost, a = i + 1) ∧ m'.next = m.next := by
  intro L
  induction L with
  | nil =>
    intro m k hr hd ha hl hk
    obtain ⟨k, rfl⟩ : ∃ j, k = j + 1 := ⟨k - 1, by simp at hk; omega⟩
    refine ⟨m, ?_, hr, fun i => by rw [hd]; simp, fun a => by rw [ha]; simp, rfl⟩
    have := hr.isEmpty
    rw [clearLoop, bind_apply]
    simp only [ofLinks, this]
    rfl
  | cons b L ih =>
    intro m k hr hd ha hl hk
    obtain ⟨k, rfl⟩ : ∃ j, k = j + 1 := ⟨k - 1, by simp at hk; omega⟩
    simp only [List.length_cons] at hk
    have hemp := hr.isEmpty
    have hb : begin m = .ok (some b, m) := by
      have := ring_next hr (X := []) (p := 0) rfl
      simp [begin, ofLinks, QuickList.front, this, linkNode] at this ⊢
    have hnb : b ∉ L := by
      have := hr.nodup
      simp only [List.map_cons, List.nodup_cons, List.mem_cons, List.mem_map, not_or, not_exists, not_and] at this
      exact fun hh => this.2.1 b hh rfl
    have hbl : b ∉ lost := hl b (by simp)
    obtain ⟨h', e1, r1, a1⟩ := destroyNode_ok (X := []) (Y := L.map (· + 1)) hr (a := b) (by rw [ne_eq, hd]; simp)
    obtain ⟨m', e2, r2, d2, a2, n2⟩ := ih (m := { m with links := h', node := QuickList.upd m.node b none }) (k := k) r1 (by
      intro i
      show QuickList.upd m.node b none i = none ↔ _
      rw [QuickList.upd]
      split
      · rename_i hi; subst hi; simp [hnb, hbl]
      · rename_i hi; rw [hd]; simp [hi]) (by
      intro a
      show h'.alive a = true ↔ _
      rw [a1, QuickList.upd]
      split
      · rename_i hi
        subst hi
        simp only [Bool.false_eq_true, Nat.add_right_cancel_iff, false_iff, not_or, not_exists, not_and]
        exact ⟨by omega, fun i hi he => hi.elim (fun hh => hnb (he ▸ hh)) (fun hh => hbl (he ▸ hh))⟩
      · rename_i hi
        rw [ha]
        simp only [List.mem_cons]
        constructor
        · rintro (h0 | ⟨i, (rfl | h0) | h0, h1⟩)
          · exact Or.inl h0
          · exact absurd h1 hi
          · exact Or.inr ⟨i, Or.inl h0, h1⟩
          · exact Or.inr ⟨i, Or.inr h0, h1⟩
        · rintro (h0 | ⟨i, h0 | h0, h1⟩)
          · exact Or.inl h0
          · exact Or.inr ⟨i, Or.inl (Or.inr h0), h1⟩
          · exact Or.inr ⟨i, Or.inr h0, h1⟩) (fun i hi => hl i (by simp [hi])) (by omega)
    refine ⟨m', ?_, r2, d2, a2, n2⟩
    rw [clearLoop, bind_apply]
    simp only [ofLinks, hemp, List.map_cons, List.isEmpty_cons, Bool.false_eq_true, if_false]
    rw [bind_apply, hb]; simp only []
    rw [bind_apply, e1]
    exact e2

theorem idsT_perm (t : Tree α) : (idsT t).Perm ((toL t).map Elem.id) := by
  induction t with
  | nil => exact List.Perm.refl _
  | node c n l e r ihl ihr =>
    simp only [idsT, toL, List.map_append, List.map_cons]
    exact (List.Perm.cons _ (ihl.append ihr)).trans List.perm_middle.symm

theorem clear_rep {lt : α → α → Bool} {s : VSet α} {m : Mem α} {lost : List Nat} (hi : Inv lt s) (h : Rep m lost s) : ∃ m', clear m = .ok ((), m') ∧ Rep m' lost s.clear := by
  have hlen := h.tree.length
  have hp := idsT_perm s.root
  have hl : (s.list.map Elem.id).length < 2 * m.next + 3 := by
    rw [hi.list, ← hp.length_eq]
    simp at hlen
    omega
  have hmem : ∀ i, i ∈ s.list.map Elem.id ↔ i ∈ idsT s.root := fun i => by rw [hi.list]; exact hp.mem_iff.symm
  obtain ⟨m', e1, r1, d1, a1, n1⟩ := clearLoop_ok (L := s.list.map Elem.id) (m := m) (k := 2 * m.next + 3)
    (by rw [List.map_map]; exact h.ring) (fun i => by rw [hmem]; exact h.dom i) (fun a => by rw [h.alive]; simp only [hmem])
    (fun i hi' hh => (h.apart i hh).1 ((hmem i).1 hi')) hl
  refine ⟨{ m' with root := none }, ?_, ⟨⟨trivial, trivial, rfl, ?_, ?_⟩, r1, ?_, ?_, ?_, ?_⟩⟩
  · rw [clear, bind_apply, fuel_apply]; simp only []
    rw [bind_apply, e1]
    rfl
  · simp [VSet.clear, idsT, idsF]
  · simp [VSet.clear, idsT, idsF]
  · show m'.next = s.nextId
    rw [n1, h.next]
  · intro i
    simp [VSet.clear, idsT, d1]
  · intro a
    simp [VSet.clear, idsT, a1]
  · intro i hil
    refine ⟨by simp [VSet.clear, idsT], ?_⟩
    show i < m'.next
    rw [n1]
    exact (h.apart i hil).2

/-! ## Searching -/

theorem repT_cell {nd : Nat → Option (Cell α)} : ∀ {t : Tree α} {par : Ptr} {e : Elem α}, RepT nd par t → e ∈ toL t → ∃ c, nd e.id = some c ∧ c.value = e.val := by
  intro t
  induction t with
  | nil => intro par e h he; cases he
  | node c n l a r ihl ihr =>
    intro par e h he
    simp only [toL, List.mem_append, List.mem_cons] at he
    rcases he with he | rfl | he
    · exact ihl h.2.1 he
    · exact ⟨_, h.1, rfl⟩
    · exact ihr h.2.2 he

theorem deref_ok {m : Mem α} {s : VSet α} {o : Option (Elem α)} (h : Rep m lost s) (ho : ∀ e, o = some e → e ∈ toL s.root) :
    deref (eptr o) m = .ok (o.map Elem.val, m) := by
  cases o with
  | none => rfl
  | some e =>
    obtain ⟨c, h1, h2⟩ := repT_cell h.tree.tree (ho e rfl)
    rw [deref, ite_apply', if_neg (by simp [eptr]), bind_apply, show eptr (some e) = some e.id from rfl, rd_ok h1]
    simp [h2]

theorem findNode_mem {klt elt : α → Bool} : ∀ {t : Tree α} {fs : List (Frame α)} {par : Option (Cursor α)} {c : Color} {n : Nat} {l r : Tree α} {e : Elem α}
    {gs : List (Frame α)}, (findNode klt elt t fs par).1 = some (.node c n l e r, gs) → e ∈ toL t := by
  intro t
  induction t with
  | nil => intro fs par c n l r e gs h; cases h
  | node c n l a r ihl ihr =>
    intro fs par c' n' l' r' e gs h
    simp only [findNode] at h
    simp only [toL, List.mem_append, List.mem_cons]
    split at h
    · exact Or.inl (ihl h)
    · split at h
      · exact Or.inr (Or.inr (ihr h))
      · cases h; exact Or.inr (Or.inl rfl)

theorem findBoundByKey_mem {klt elt : α → Bool} : ∀ {t : Tree α} {g : Option (Elem α)} {e : Elem α},
    (VectorSet.findBoundByKey klt elt t g).1 = some e → e ∈ toL t ∨ g = some e := by
  intro t
  induction t with
  | nil => intro g e h; exact Or.inr h
  | node c n l a r ihl ihr =>
    intro g e h
    simp only [VectorSet.findBoundByKey] at h
    simp only [toL, List.mem_append, List.mem_cons]
    split at h
    · rcases ihl h with h' | h'
      · exact Or.inl (Or.inl h')
      · cases h'; exact Or.inl (Or.inr (Or.inl rfl))
    · split at h
      · rcases ihr h with h' | h'
        · exact Or.inl (Or.inr (Or.inr h'))
        · exact Or.inr h'
      · cases h; exact Or.inl (Or.inr (Or.inl rfl))

theorem find_rep {klt elt : α → Bool} {s : VSet α} {m : Mem α} (h : Rep m lost s) :
    ∃ o, s.find klt elt = .ok o ∧ find klt elt m = .ok (eptr o, m) ∧ (∀ e, o = some e → e ∈ toL s.root) ∧ s.contains klt elt = o.isSome ∧
      s.eraseKey klt elt = (match o with | none => .ok (s, 0) | some e => do let s' ← s.eraseNode e.id; .ok (s', 1)) := by
  have hlen := h.tree.length
  have hroot : m.root = tptr s.root := h.tree.root
  have hf := findNodeByKey_ok (klt := klt) (elt := elt) (par := none) (k := 2 * m.next + 3) h.tree (by intro c hc; cases hc) (by simp at hlen; omega)
  have hcn : cptr (none : Option (Cursor α)) = none := rfl
  rw [hcn] at hf
  obtain ⟨hf1, hf2, -⟩ := hf
  have hfind : find klt elt m = .ok (cptr (findNode klt elt s.root [] none).1, m) := by
    rw [find, bind_apply, fuel_apply]; simp only []
    rw [bind_apply, getRoot_apply, hroot]; simp only []
    rw [bind_apply, hf1]
    rfl
  rw [hfind]
  have hm := @findNode_mem α klt elt s.root [] none
  cases hn : (findNode klt elt s.root [] none).1 with
  | none => exact ⟨none, by simp [VSet.find, hn], rfl, by simp, by simp [VSet.contains, hn], by simp [VSet.eraseKey, hn]⟩
  | some cur =>
    obtain ⟨t, fs⟩ := cur
    cases t with
    | nil => exact absurd rfl (hf2 _ hn).2
    | node c n l e r =>
      exact ⟨some e, by simp [VSet.find, hn], rfl, fun e' he => by cases he; exact hm hn, by simp [VSet.contains, hn], by simp [VSet.eraseKey, hn]⟩

theorem bound_rep {klt elt : α → Bool} {s : VSet α} {m : Mem α} (h : Rep m lost s) :
    findBoundByKey klt elt (2 * m.next + 3) m.root none m =
      .ok ((eptr (VectorSet.findBoundByKey klt elt s.root none).1, (VectorSet.findBoundByKey klt elt s.root none).2), m) := by
  have hlen := h.tree.length
  have hroot : m.root = tptr s.root := h.tree.root
  rw [hroot]
  exact findBoundByKey_ok (g := none) h.tree.tree (by simp at hlen; omega)

theorem lowerBound_rep {klt elt : α → Bool} {s : VSet α} {m : Mem α} (h : Rep m lost s) :
    lowerBound klt elt m = .ok (eptr (s.lowerBound klt elt), m) := by
  rw [lowerBound, bind_apply, fuel_apply]; simp only []
  rw [bind_apply, getRoot_apply]; simp only []
  rw [bind_apply, bound_rep h]
  rfl

theorem upperBound_rep {lt : α → α → Bool} {klt elt : α → Bool} {s : VSet α} {m : Mem α} {lost : List Nat} (hi : Inv lt s) (h : Rep m lost s) :
    ∃ o, s.upperBound klt elt = .ok o ∧ upperBound klt elt m = .ok (eptr o, m) ∧ (∀ e, o = some e → e ∈ toL s.root) := by
  have hb := bound_rep (klt := klt) (elt := elt) h
  have hmem := @findBoundByKey_mem α klt elt s.root none
  rcases hfb : VectorSet.findBoundByKey klt elt s.root none with ⟨o, b⟩
  rw [hfb] at hb hmem
  have hup : upperBound klt elt m = (if b = true then nextIter (eptr o) else pure (eptr o)) m := by
    rw [upperBound, bind_apply, fuel_apply]; simp only []
    rw [bind_apply, getRoot_apply]; simp only []
    rw [bind_apply, hb]
  rw [hup]
  cases b with
  | false => exact ⟨o, by simp [VSet.upperBound, hfb], rfl, fun e he => by simpa using hmem he⟩
  | true =>
    cases o with
    | none =>
      exfalso
      have key : ∀ (t : Tree α) (g : Option (Elem α)), (VectorSet.findBoundByKey klt elt t g).2 = true → (VectorSet.findBoundByKey klt elt t g).1 ≠ none := by
        intro t
        induction t with
        | nil => intro g hh; cases hh
        | node c n l a r ihl ihr =>
          intro g
          simp only [VectorSet.findBoundByKey]
          split
          · exact ihl _
          · split
            · exact ihr _
            · simp
      exact key s.root none (by rw [hfb]) (by rw [hfb])
    | some e =>
      have he : e ∈ toL s.root := by simpa using hmem rfl
      obtain ⟨X, Y, hXY⟩ := List.append_of_mem he
      refine ⟨Y.head?, ?_, ?_, ?_⟩
      · simp only [VSet.upperBound, hfb]
        rw [hi.list, hXY]
        exact nextOf_ok (by rw [← hXY]; exact hi.uniq)
      · have hr := h.ring
        rw [hi.list, hXY] at hr
        exact nextIter_ok hr
      · intro e' he'
        rw [hXY]
        have := List.mem_of_mem_head? he'
        simp [this]

theorem size_rep {s : VSet α} {m : Mem α} (h : Rep m lost s) : size m = .ok (s.size, m) := by
  have hroot : m.root = tptr s.root := h.tree.root
  rw [size, bind_apply, getRoot_apply, hroot]; simp only []
  cases hr : s.root with
  | nil => simp [tptr_nil, VSet.size, hr, Tree.cnt]
  | node c n l e r =>
    have hc := h.tree
    rw [hr] at hc
    rw [tptr_node, ite_apply', if_neg (by simp), bind_apply, getRoot_apply, hroot, hr, tptr_node]; simp only []
    rw [bind_apply, rd_ok hc.cell]
    simp [VSet.size, hr, Tree.cnt]

/-! ## The operations -/

theorem step_rep {lt : α → α → Bool} (hlt : StrictWeak lt) {s s' : VSet α} {m : Mem α} {op : Op α} {o : Out α} (hi : Inv lt s) (h : Rep m lost s)
    (hs : s.step lt op = .ok (s', o)) : ∃ m', step lt op m = .ok (o, m') ∧ Rep m' lost s' := by
  cases op with
  | insert v =>
    obtain ⟨⟨s1, e, b⟩, h1, hs⟩ := Res.bind_eq_ok.1 hs
    cases hs
    obtain ⟨m', e1, r1⟩ := insert_rep hlt hi h h1
    refine ⟨m', ?_, r1⟩
    have he : e ∈ toL s'.root := by
      rcases insert_ok hlt hi v with ⟨e', X, Y, k1, k2, -⟩ | ⟨s2, A, B, k1, -, -, -, k2, -⟩
      · rw [h1] at k1; cases k1; rw [k2]; simp
      · rw [h1] at k1; cases k1; rw [k2]; simp
    obtain ⟨c, d1, d2⟩ := repT_cell r1.tree.tree he
    rw [step, bind_apply, e1]; simp only []
    rw [bind_apply, rd_ok d1]
    simp [d2]
  | eraseKey k =>
    obtain ⟨⟨s1, n⟩, h1, hs⟩ := Res.bind_eq_ok.1 hs
    cases hs
    obtain ⟨o, -, f2, f3, -, f5⟩ := find_rep (klt := lt k) (elt := fun a => lt a k) h
    rw [h1] at f5
    cases o with
    | none =>
      cases f5
      refine ⟨m, ?_, h⟩
      rw [step, bind_apply, eraseKey, bind_apply, f2]; simp only []
      rw [ite_apply', if_neg (by simp [eptr])]
      rfl
    | some e =>
      obtain ⟨s2, g1, g2⟩ := Res.bind_eq_ok.1 f5.symm
      cases g2
      obtain ⟨X, Y, hXY⟩ := List.append_of_mem (f3 e rfl)
      obtain ⟨m', e1, r1⟩ := erase_rep hi h hXY g1
      refine ⟨m', ?_, r1⟩
      rw [step, bind_apply, eraseKey, bind_apply, f2]; simp only []
      rw [ite_apply', if_pos (by simp [eptr]), bind_apply]
      simp only [eptr, Option.map_some]
      rw [e1]
      rfl
  | eraseAt i =>
    simp only [VSet.step] at hs
    cases hget : s.list[i]? with
    | none => rw [hget] at hs; cases hs
    | some e =>
      rw [hget] at hs
      obtain ⟨s2, g1, g2⟩ := Res.bind_eq_ok.1 hs
      cases g2
      have he : e ∈ toL s.root := by rw [← hi.list]; exact List.mem_of_getElem? hget
      obtain ⟨X, Y, hXY⟩ := List.append_of_mem he
      obtain ⟨m', e1, r1⟩ := erase_rep hi h hXY g1
      refine ⟨m', ?_, r1⟩
      have hlt' : i < s.list.length := by
        by_contra hc
        rw [List.getElem?_eq_none (by omega)] at hget
        cases hget
      rw [step, bind_apply, iterAt_ok h.ring, if_pos (by omega), hget]
      simp only [eptr, Option.map_some]
      rw [bind_apply, e1]
      rfl
  | clear =>
    cases hs
    obtain ⟨m', e1, r1⟩ := clear_rep hi h
    refine ⟨m', ?_, r1⟩
    rw [step, bind_apply, e1]
    rfl
  | size =>
    cases hs
    exact ⟨m, by rw [step, bind_apply, size_rep h]; rfl, h⟩
  | empty =>
    cases hs
    refine ⟨m, ?_, h⟩
    have hroot : m.root = tptr s.root := h.tree.root
    rw [step, bind_apply, getRoot_apply, hroot]
    cases hr : s.root with
    | nil => simp [tptr_nil, VSet.isEmpty, hr]
    | node => simp [tptr_node, VSet.isEmpty, hr]
  | contains k =>
    cases hs
    obtain ⟨o, -, f2, -, f4, -⟩ := find_rep (klt := lt k) (elt := fun a => lt a k) h
    refine ⟨m, ?_, h⟩
    rw [step, bind_apply, f2, f4]
    cases o <;> rfl
  | find k =>
    obtain ⟨o', h1, hs⟩ := Res.bind_eq_ok.1 hs
    cases hs
    obtain ⟨o, f1, f2, f3, -, -⟩ := find_rep (klt := lt k) (elt := fun a => lt a k) h
    rw [h1] at f1
    cases f1
    refine ⟨m, ?_, h⟩
    rw [step, bind_apply, f2]; simp only []
    rw [bind_apply, deref_ok h f3]
    rfl
  | lowerBound k =>
    cases hs
    refine ⟨m, ?_, h⟩
    rw [step, bind_apply, lowerBound_rep h]; simp only []
    rw [bind_apply, deref_ok h (fun e he => by simpa using findBoundByKey_mem he)]
    rfl
  | upperBound k =>
    obtain ⟨o', h1, hs⟩ := Res.bind_eq_ok.1 hs
    cases hs
    obtain ⟨o, f1, f2, f3⟩ := upperBound_rep (klt := lt k) (elt := fun a => lt a k) hi h
    rw [h1] at f1
    cases f1
    refine ⟨m, ?_, h⟩
    rw [step, bind_apply, f2]; simp only []
    rw [bind_apply, deref_ok h f3]
    rfl

theorem step_rep_ub {lt : α → α → Bool} {s : VSet α} {m : Mem α} {op : Op α} (h : Rep m lost s)
    (hs : Spec.step lt s.forward op = .ub) : step lt op m = .ub := by
  cases op with
  | eraseAt i =>
    simp only [Spec.step] at hs
    split at hs
    · cases hs
    · rename_i hl
      have hl' : ¬ i < s.list.length := by simpa [VSet.forward] using hl
      rw [step, bind_apply, iterAt_ok h.ring]
      by_cases hil : i ≤ s.list.length
      · rw [if_pos hil, List.getElem?_eq_none (by omega)]
        rfl
      · rw [if_neg hil]
  | insert v => simp only [Spec.step] at hs; split at hs <;> cases hs
  | _ => cases hs

theorem run_rep {lt : α → α → Bool} (hlt : StrictWeak lt) : ∀ (ops : List (Op α)) {s : VSet α} {m : Mem α} {lost : List Nat}, Inv lt s → Rep m lost s →
    match s.run lt ops with
    | .ok (s', os) => ∃ m', run lt ops m = .ok (os, m') ∧ Rep m' lost s' ∧ Inv lt s'
    | .throw _ => False
    | .ub => run lt ops m = .ub := by
  intro ops
  induction ops with
  | nil => intro s m lost hi h; exact ⟨m, rfl, h, hi⟩
  | cons op ops ih =>
    intro s m lost hi h
    have hst := step_eq hlt hi op
    simp only [VSet.run]
    cases hs : s.step lt op with
    | ok r =>
      obtain ⟨s', o⟩ := r
      obtain ⟨m', e1, r1⟩ := step_rep hlt hi h hs
      have := ih (step_inv hlt hi hs) r1
      simp only [Res.ok_bind]
      cases hr : s'.run lt ops with
      | ok p =>
        obtain ⟨s'', os⟩ := p
        rw [hr] at this
        obtain ⟨m'', e2, r2, i2⟩ := this
        refine ⟨m'', ?_, r2, i2⟩
        rw [run, bind_apply, e1]; simp only []
        rw [bind_apply, e2]
        rfl
      | throw e => rw [hr] at this; exact this
      | ub =>
        rw [hr] at this
        show run lt (op :: ops) m = .ub
        rw [run, bind_apply, e1]; simp only []
        rw [bind_apply, this]
    | throw e => rw [hs] at hst; exact spec_step_not_throw op e hst.symm
    | ub =>
      rw [hs] at hst
      have := step_rep_ub h hst.symm
      show run lt (op :: ops) m = .ub
      rw [run, bind_apply, this]

end Verif.VectorSet.Heap
