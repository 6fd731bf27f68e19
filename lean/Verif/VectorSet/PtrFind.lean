import Verif.VectorSet.PtrInsert

/-! # Searching and walking in memory -/

namespace Verif.VectorSet.Heap

variable {α : Type}

/-- The pointer to a cursor. -/
def cptr : Option (Cursor α) → Ptr
  | none => none
  | some c => tptr c.1

/-- The pointer to an element. -/
def eptr (e : Option (Elem α)) : Ptr := e.map Elem.id

/-- A cursor of the tree in memory. -/
def CurOK (m : Mem α) (o : Option (Cursor α)) : Prop := ∀ c, o = some c → RepC m c.1 c.2 ∧ c.1 ≠ .nil

theorem findNodeByKey_ok {klt elt : α → Bool} {m : Mem α} : ∀ {t : Tree α} {fs : List (Frame α)} {par : Option (Cursor α)} {k : Nat},
    RepC m t fs → CurOK m par → (idsT t).length < k →
    findNodeByKey klt elt k (tptr t) (cptr par) m = .ok ((cptr (findNode klt elt t fs par).1, cptr (findNode klt elt t fs par).2), m) ∧
      CurOK m (findNode klt elt t fs par).1 ∧ CurOK m (findNode klt elt t fs par).2 := by
  intro t
  induction t with
  | nil =>
    intro fs par k h hp hk
    obtain ⟨k, rfl⟩ : ∃ i, k = i + 1 := ⟨k - 1, by omega⟩
    refine ⟨by simp [findNodeByKey, findNode, tptr, cptr], ?_, hp⟩
    intro c hc; simp [findNode] at hc
  | node c n l e r ihl ihr =>
    intro fs par k h hp hk
    obtain ⟨k, rfl⟩ : ∃ i, k = i + 1 := ⟨k - 1, by omega⟩
    have hc := h.cell
    simp only [idsT, List.length_cons, List.length_append] at hk
    have hself : CurOK m (some (.node c n l e r, fs)) := by
      intro c' hc'; cases hc'; exact ⟨h, by simp⟩
    have h1 := ihl (fs := ⟨.left, c, n, e, r⟩ :: fs) (par := some (.node c n l e r, fs)) (k := k) (repC_left.1 h) hself (by omega)
    have h2 := ihr (fs := ⟨.right, c, n, e, l⟩ :: fs) (par := some (.node c n l e r, fs)) (k := k) (repC_right.1 h) hself (by omega)
    have hcp : cptr (some ((.node c n l e r, fs) : Cursor α)) = some e.id := rfl
    rw [hcp] at h1 h2
    simp only [findNode]
    by_cases hk1 : klt e.val = true
    · rw [if_pos hk1]
      refine ⟨?_, h1.2⟩
      rw [← h1.1]
      simp [findNodeByKey, tptr_node, rd_ok hc, hk1]
    · rw [if_neg hk1]
      by_cases hk2 : elt e.val = true
      · rw [if_pos hk2]
        refine ⟨?_, h2.2⟩
        rw [← h2.1]
        simp [findNodeByKey, tptr_node, rd_ok hc, hk1, hk2]
      · rw [if_neg hk2]
        refine ⟨?_, hself, hp⟩
        simp [findNodeByKey, tptr_node, rd_ok hc, hk1, hk2, hcp]

theorem findBoundByKey_ok {klt elt : α → Bool} {m : Mem α} : ∀ {t : Tree α} {par : Ptr} {g : Option (Elem α)} {k : Nat},
    RepT m.node par t → (idsT t).length < k →
    findBoundByKey klt elt k (tptr t) (eptr g) m =
      .ok ((eptr (VectorSet.findBoundByKey klt elt t g).1, (VectorSet.findBoundByKey klt elt t g).2), m) := by
  intro t
  induction t with
  | nil =>
    intro par g k h hk
    obtain ⟨k, rfl⟩ : ∃ i, k = i + 1 := ⟨k - 1, by omega⟩
    simp [findBoundByKey, VectorSet.findBoundByKey, tptr]
  | node c n l e r ihl ihr =>
    intro par g k h hk
    obtain ⟨k, rfl⟩ : ∃ i, k = i + 1 := ⟨k - 1, by omega⟩
    have hc := h.1
    simp only [idsT, List.length_cons, List.length_append] at hk
    have h1 := ihl (g := some e) (k := k) h.2.1 (by omega)
    have h2 := ihr (g := g) (k := k) h.2.2 (by omega)
    have hcp : eptr (some e) = some e.id := rfl
    rw [hcp] at h1
    simp only [VectorSet.findBoundByKey]
    by_cases hk1 : klt e.val = true
    · rw [if_pos hk1, ← h1]
      simp [findBoundByKey, tptr_node, rd_ok hc, hk1]
    · rw [if_neg hk1]
      by_cases hk2 : elt e.val = true
      · rw [if_pos hk2, ← h2]
        simp [findBoundByKey, tptr_node, rd_ok hc, hk1, hk2]
      · rw [if_neg hk2]
        simp [findBoundByKey, tptr_node, rd_ok hc, hk1, hk2, hcp]

theorem getLeftCount_ok {m : Mem α} {par : Ptr} {c : Color} {n : Nat} {l r : Tree α} {e : Elem α} (h : RepT m.node par (.node c n l e r)) :
    getLeftCount (some e.id) m = .ok (l.cnt, m) := by
  have hc := h.1
  cases hlp : tptr l with
  | none => simp [getLeftCount, rd_ok hc, hlp, cnt_nil hlp]
  | some a =>
    obtain ⟨ca, ha1, ha2⟩ := count_of h.2.1 hlp
    simp [getLeftCount, rd_ok hc, hlp, rd_ok ha1, ha2]

theorem findNodeByIndex_ok {m : Mem α} : ∀ {t : Tree α} {par : Ptr} {i k : Nat}, RepT m.node par t → (idsT t).length < k →
    findNodeByIndex k (tptr t) i m = .ok (eptr (VectorSet.findNodeByIndex t i), m) := by
  intro t
  induction t with
  | nil =>
    intro par i k h hk
    obtain ⟨k, rfl⟩ : ∃ i, k = i + 1 := ⟨k - 1, by omega⟩
    simp [findNodeByIndex, VectorSet.findNodeByIndex, tptr, eptr]
  | node c n l e r ihl ihr =>
    intro par i k h hk
    obtain ⟨k, rfl⟩ : ∃ i, k = i + 1 := ⟨k - 1, by omega⟩
    have hc := h.1
    have hr := getLeftCount_ok h
    simp only [idsT, List.length_cons, List.length_append] at hk
    have h1 := ihl (i := i) (k := k) h.2.1 (by omega)
    have h2 := ihr (i := i - (l.cnt + 1)) (k := k) h.2.2 (by omega)
    simp only [VectorSet.findNodeByIndex]
    by_cases hk1 : i < l.cnt
    · rw [if_pos hk1, ← h1]
      simp [findNodeByIndex, tptr_node, rd_ok hc, hr, hk1]
    · rw [if_neg hk1]
      by_cases hk2 : i > l.cnt
      · rw [if_pos hk2, ← h2]
        simp [findNodeByIndex, tptr_node, rd_ok hc, hr, hk1, hk2]
      · rw [if_neg hk2]
        simp [findNodeByIndex, tptr_node, hr, hk1, hk2, eptr]

theorem indexUp_ok {m : Mem α} : ∀ {fs : List (Frame α)} {t : Tree α} {i k : Nat}, RepC m t fs → t ≠ .nil → fs.length < k →
    indexUp k (tptr t) i m = .ok (VectorSet.indexUp i fs, m) := by
  intro fs
  induction fs with
  | nil =>
    intro t i k h ht hk
    obtain ⟨k, rfl⟩ : ∃ i, k = i + 1 := ⟨k - 1, by omega⟩
    cases t with
    | nil => exact (ht rfl).elim
    | node c n l e r =>
      have hc := h.cell
      simp only [pptr] at hc
      simp [indexUp, tptr_node, rd_ok hc, VectorSet.indexUp]
  | cons f fs ih =>
    intro t i k h ht hk
    obtain ⟨k, rfl⟩ : ∃ i, k = i + 1 := ⟨k - 1, by omega⟩
    have hp := repC_plug.1 h
    have hpl : plug t f ≠ .nil := by unfold plug; split <;> simp
    have hsib := h.ne_sibling (by cases t <;> simp_all [tptr])
    have hfr := h.frame
    cases t with
    | nil => exact (ht rfl).elim
    | node c n l e r =>
      have hc := h.cell
      simp only [pptr] at hc
      simp only [List.length_cons] at hk
      obtain ⟨s, cf, nf, ef, sib⟩ := f
      cases s
      · have h1 := ih (i := i) (k := k) hp hpl (by omega)
        simp only [tptr_plug] at h1
        simp only [VectorSet.indexUp, reduceCtorEq, if_false]
        rw [← h1]
        simp only [tptr_node] at hsib hfr
        simp only [fcell] at hfr
        simp [indexUp, tptr_node, rd_ok hc, rd_ok hfr, hsib]
      · have h1 := ih (i := i + (sib.cnt + 1)) (k := k) hp hpl (by omega)
        simp only [tptr_plug] at h1
        have hg := getLeftCount_ok hp.tree
        simp only [VectorSet.indexUp, if_true]
        rw [← h1]
        simp only [tptr_node, fcell] at hfr
        simp [indexUp, tptr_node, rd_ok hc, rd_ok hfr, hg]

theorem indexOfNode_ok {m : Mem α} {t : Tree α} {fs : List (Frame α)} {i : Nat} (h : RepC m t fs) (hi : VectorSet.indexOfNode (t, fs) = .ok i) :
    indexOfNode (tptr t) m = .ok (i, m) := by
  have hl := h.length
  cases t with
  | nil => cases hi
  | node c n l e r =>
    have h1 := indexUp_ok (i := l.cnt) (k := 2 * m.next + 3) h (by simp) (by omega)
    cases hi
    simp only [tptr_node] at h1
    simp [indexOfNode, tptr_node, getLeftCount_ok h.tree, h1]

theorem goRightmost_ok {m : Mem α} : ∀ {t : Tree α} {par : Ptr} {k : Nat}, RepT m.node par t → t ≠ .nil → (idsT t).length < k →
    goRightmost k (tptr t) m = .ok (eptr (rightmost t), m) := by
  intro t
  induction t with
  | nil => intro par k h ht; exact (ht rfl).elim
  | node c n l e r _ ihr =>
    intro par k h _ hk
    obtain ⟨k, rfl⟩ : ∃ i, k = i + 1 := ⟨k - 1, by omega⟩
    have hc := h.1
    simp only [idsT, List.length_cons, List.length_append] at hk
    cases r with
    | nil => simp [goRightmost, tptr_node, tptr_nil, rd_ok hc, rightmost, eptr]
    | node c' n' l' e' r' =>
      have h1 := ihr (k := k) h.2.2 (by simp) (by omega)
      simp only [rightmost]
      rw [← h1]
      simp [goRightmost, tptr_node, rd_ok hc]

theorem climbLeft_ok {m : Mem α} : ∀ {fs : List (Frame α)} {t : Tree α} {k : Nat}, RepC m t fs → t ≠ .nil → fs.length < k →
    climbLeft k (tptr t) (pptr fs) m = .ok (eptr (climbPred fs), m) := by
  intro fs
  induction fs with
  | nil =>
    intro t k h ht hk
    obtain ⟨k, rfl⟩ : ∃ i, k = i + 1 := ⟨k - 1, by omega⟩
    simp [climbLeft, pptr, climbPred, eptr]
  | cons f fs ih =>
    intro t k h ht hk
    obtain ⟨k, rfl⟩ : ∃ i, k = i + 1 := ⟨k - 1, by omega⟩
    have hp := repC_plug.1 h
    have hpl : plug t f ≠ .nil := by unfold plug; split <;> simp
    have hsib := h.ne_sibling (by cases t <;> simp_all [tptr])
    have hfr := h.frame
    simp only [List.length_cons] at hk
    have h1 := ih (k := k) hp hpl (by omega)
    rw [tptr_plug] at h1
    obtain ⟨s, cf, nf, ef, sib⟩ := f
    cases s
    · simp only [climbPred, if_true]
      rw [← h1]
      simp only [fcell] at hfr
      simp [climbLeft, pptr, rd_ok hfr]
    · simp only [climbPred, reduceCtorEq, if_false]
      simp only [fcell] at hfr hsib
      simp [climbLeft, pptr, rd_ok hfr, hsib, eptr]

theorem getPredecessor_ok {m : Mem α} {t : Tree α} {fs : List (Frame α)} {o : Option (Elem α)} (h : RepC m t fs)
    (ho : VectorSet.getPredecessor (t, fs) = .ok o) : getPredecessor (tptr t) m = .ok (eptr o, m) := by
  have hl := h.length
  cases t with
  | nil => cases ho
  | node c n l e r =>
    have hc := h.cell
    simp only [idsT, List.length_cons, List.length_append] at hl
    cases l with
    | nil =>
      cases ho
      have h1 := climbLeft_ok (k := 2 * m.next + 3) h (by simp) (by omega)
      rw [tptr_node] at h1
      simp [getPredecessor, tptr_node, rd_ok hc, tptr_nil, h1]
    | node c' n' l' e' r' =>
      cases ho
      have h1 := goRightmost_ok (k := 2 * m.next + 3) h.tree.2.1 (by simp) (by simp only [idsT, List.length_cons, List.length_append] at hl ⊢; omega)
      rw [tptr_node] at h1
      simp [getPredecessor, tptr_node, rd_ok hc, h1]

theorem goLeftmost_ok {m : Mem α} : ∀ {t : Tree α} {fs : List (Frame α)} {k : Nat} {cur : Cursor α}, RepC m t fs → VectorSet.leftmostCursor t fs = .ok cur →
    (idsT t).length < k → goLeftmost k (tptr t) m = .ok (tptr cur.1, m) ∧ RepC m cur.1 cur.2 := by
  intro t
  induction t with
  | nil => intro fs k cur h hc; cases hc
  | node c n l e r ihl _ =>
    intro fs k cur h hcur hk
    obtain ⟨k, rfl⟩ : ∃ i, k = i + 1 := ⟨k - 1, by omega⟩
    have hc := h.cell
    simp only [idsT, List.length_cons, List.length_append] at hk
    cases l with
    | nil =>
      cases hcur
      exact ⟨by simp [goLeftmost, tptr_node, tptr_nil, rd_ok hc], h⟩
    | node c' n' l' e' r' =>
      have h1 := ihl (k := k) (repC_left.1 h) hcur (by omega)
      refine ⟨?_, h1.2⟩
      rw [← h1.1]
      simp [goLeftmost, tptr_node, rd_ok hc]

end Verif.VectorSet.Heap
