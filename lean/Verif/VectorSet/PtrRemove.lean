import Verif.VectorSet.PtrFind

/-! # Balancing after a removal, in memory -/

namespace Verif.VectorSet.Heap

variable {α : Type}

theorem pptr_cons (f : Frame α) (fs : List (Frame α)) : pptr (f :: fs) = some f.elem.id := rfl

theorem isBlack_ok {m : Mem α} {par : Ptr} {t : Tree α} (h : RepT m.node par t) : isBlack (tptr t) m = .ok (!VectorSet.isRed t, m) := by
  cases t with
  | nil => simp [isBlack, tptr, VectorSet.isRed]
  | node c n l e r =>
    cases c <;> simp [isBlack, tptr, rd_ok h.1, VectorSet.isRed]

theorem blackenIfAny_ok {m : Mem α} {t t' : Tree α} {fs : List (Frame α)} (h : RepC m t fs) (ht : VectorSet.blackenIfAny t = .ok t') :
    ∃ m', blackenIfAny (tptr t) m = .ok ((), m') ∧ RepC m' t' fs ∧ Kept m m' := by
  cases t with
  | nil => cases ht; exact ⟨m, by simp [blackenIfAny, tptr], h, Kept.refl m⟩
  | node c n l e r =>
    cases ht
    obtain ⟨m', h1, h2, h3⟩ := setColor_ok h .black
    exact ⟨m', by simp [blackenIfAny, tptr_node, h1], h2, h3⟩

theorem setColor_ok' {m : Mem α} {t t' : Tree α} {fs : List (Frame α)} {c : Color} (h : RepC m t fs) (ht : VectorSet.setColor c t = .ok t') :
    ∃ m', setColor (tptr t) c m = .ok ((), m') ∧ RepC m' t' fs ∧ Kept m m' := by
  cases t with
  | nil => cases ht
  | node c n l e r => cases ht; exact setColor_ok h _

theorem removeLoop_root {m : Mem α} {x : Tree α} (h : RepC m x []) (k : Nat) : removeLoop (k + 1) (tptr x) m = .ok (tptr x, m) := by
  have : m.root = tptr x := h.root
  simp [removeLoop, this]

/-- The sibling on the right is red. -/
theorem redSibL {m : Mem α} {c : Color} {n : Nat} {l r : Tree α} {e : Elem α} {cp cw : Color} {np nw : Nat} {ep we : Elem α} {wl wr : Tree α}
    {fs : List (Frame α)} {cur : Cursor α} (h : RepC m (.node c n l e r) (⟨.left, cp, np, ep, .node cw nw wl we wr⟩ :: fs))
    (hm : (if cw = .red then do
               let t := plug (.node c n l e r) { (⟨.left, cp, np, ep, .node cw nw wl we wr⟩ : Frame α) with color := .red, sibling := .node .black nw wl we wr }
               goLeft (← goLeft (← VectorSet.rotateLeft (t, fs)))
             else .ok (.node c n l e r, ⟨.left, cp, np, ep, .node cw nw wl we wr⟩ :: fs) : Res (Cursor α)) = .ok cur) :
    ∃ m' cp' np' ep' w' fs', cur = (.node c n l e r, ⟨.left, cp', np', ep', w'⟩ :: fs') ∧
      (do
          if (← rd (some we.id)).color = .red then
            setColor (some we.id) .black
            setColor (← rd (some e.id)).parent .red
            rotateLeft (← rd (some e.id)).parent
            return (← rd (← rd (some e.id)).parent).right
          else return (some we.id) : M α Ptr) m = .ok (tptr w', m') ∧
      RepC m' (.node c n l e r) (⟨.left, cp', np', ep', w'⟩ :: fs') ∧ Kept m m' := by
  have hw := h.sibling
  have nw0 := hw.cell
  by_cases hc : cw = .red
  · subst hc
    simp only [if_true] at hm
    obtain ⟨m1, e1, h1, k1⟩ := setColor_ok hw .black
    have h1' := h1.sibling
    have n1 := h1'.cell
    obtain ⟨m2, e2, h2, k2⟩ := setColor_frame h1' .red
    have n2 := h2.cell
    obtain ⟨cur1, hrot, hm⟩ := Res.bind_eq_ok.1 hm
    obtain ⟨m3, e3, h3, k3⟩ := rotateLeft_ok (repC_plug.1 h2) hrot
    obtain ⟨q, q', gs, rfl, _⟩ := rotateLeft_shape hrot
    simp only [goLeft, Res.ok_bind, Res.ok.injEq] at hm
    have h3' := repC_left.1 (repC_left.1 h3)
    have n3 := h3'.cell
    have f3 := h3'.frame
    simp only [pptr_cons, tptr_node] at n1 n2 n3 f3
    simp only [tptr_plug] at e3
    refine ⟨m3, _, _, _, _, _, hm.symm, ?_, h3', k1.trans (k2.trans k3)⟩
    simp only [bind_apply, rd_ok nw0, ite_apply', if_true, e1, rd_ok n1, e2, rd_ok n2, e3, rd_ok n3, rd_ok f3, pure_apply, fcell]
  · rw [if_neg hc] at hm
    simp only [Res.ok.injEq] at hm
    refine ⟨m, _, _, _, _, _, hm.symm, ?_, h, Kept.refl m⟩
    simp only [bind_apply, rd_ok nw0, ite_apply', if_neg hc, pure_apply, tptr_node]

/-- The far child of the sibling on the right is black. -/
theorem nearL {m : Mem α} {c : Color} {n : Nat} {l r : Tree α} {e : Elem α} {cp cw : Color} {np nw : Nat} {ep we : Elem α} {wl wr : Tree α}
    {fs fs' : List (Frame α)} {w' : Tree α} {p' : Frame α} (h : RepC m (.node c n l e r) (⟨.left, cp, np, ep, .node cw nw wl we wr⟩ :: fs))
    (hm : (if !VectorSet.isRed wr then do
             let wl' ← VectorSet.blackenIfAny wl
             let (w, ws) ← VectorSet.rotateRight (.node .red nw wl' we wr, ⟨.right, cp, np, ep, .node c n l e r⟩ :: fs)
             match ws with
             | q :: fs' => .ok (w, { (⟨.left, cp, np, ep, .node cw nw wl we wr⟩ : Frame α) with color := q.color, count := q.count, elem := q.elem }, fs')
             | [] => .ub
           else .ok (.node cw nw wl we wr, ⟨.left, cp, np, ep, .node cw nw wl we wr⟩, fs) : Res (Tree α × Frame α × List (Frame α))) = .ok (w', p', fs')) :
    ∃ m' nq sib', p' = ⟨.left, cp, nq, ep, sib'⟩ ∧
      (do
          if (← isBlack (← rd (some we.id)).right) then
            blackenIfAny (← rd (some we.id)).left
            setColor (some we.id) .red
            rotateRight (some we.id)
            return (← rd (← rd (some e.id)).parent).right
          else return (some we.id) : M α Ptr) m = .ok (tptr w', m') ∧
      RepC m' (.node c n l e r) (⟨.left, cp, nq, ep, w'⟩ :: fs') ∧ w' ≠ .nil ∧ Kept m m' := by
  have hw := h.sibling
  have nw0 := hw.cell
  have hb := isBlack_ok hw.tree.2.2
  by_cases hc : VectorSet.isRed wr = false
  · simp only [hc, Bool.not_false, if_true] at hm
    obtain ⟨x1, hbl, hm⟩ := Res.bind_eq_ok.1 hm
    obtain ⟨m1, e1, h1, k1⟩ := blackenIfAny_ok (repC_left.1 hw) hbl
    have h1' := repC_left.2 h1
    obtain ⟨m2, e2, h2, k2⟩ := setColor_ok h1' .red
    obtain ⟨⟨w2, ws⟩, hrot, hm⟩ := Res.bind_eq_ok.1 hm
    obtain ⟨m3, e3, h3, k3⟩ := rotateRight_ok h2 hrot
    cases x1 with
    | nil => simp [VectorSet.rotateRight] at hrot
    | node c1 n1 l1 e1' r1 =>
    obtain ⟨q, q', gs, hq, hgs⟩ := rotateRight_shape hrot
    cases hq
    obtain ⟨nq, gs, rfl, _⟩ := samePath_cons hgs
    simp only [Res.ok.injEq, Prod.mk.injEq] at hm
    obtain ⟨rfl, rfl, rfl⟩ := hm
    have h3' := h3.sibling
    have n3 := h3'.cell
    have f3 := h3'.frame
    simp only [pptr_cons, tptr_node] at n3 f3
    simp only [tptr_node] at e3
    refine ⟨m3, nq, _, rfl, ?_, h3', by simp, k1.trans (k2.trans k3)⟩
    simp only [bind_apply, rd_ok nw0, hb, hc, Bool.not_false, ite_apply', if_true, e1, e2, e3, rd_ok n3, rd_ok f3, pure_apply, fcell, tptr_node]
  · simp only [Bool.not_eq_false] at hc
    simp only [hc, Bool.not_true, Bool.false_eq_true, if_false, Res.ok.injEq, Prod.mk.injEq] at hm
    obtain ⟨rfl, rfl, rfl⟩ := hm
    refine ⟨m, np, _, rfl, ?_, h, by simp, Kept.refl m⟩
    simp only [bind_apply, rd_ok nw0, hb, hc, Bool.not_true, ite_apply', Bool.false_eq_true, if_false, pure_apply, tptr_node]

/-- The last rotation to the left. -/
theorem finalL {m : Mem α} {c : Color} {n : Nat} {l r : Tree α} {e : Elem α} {cp cw : Color} {np nw : Nat} {ep we : Elem α} {wl wr w1 T : Tree α}
    {fs : List (Frame α)} {cur : Cursor α} (h : RepC m (.node c n l e r) (⟨.left, cp, np, ep, .node cw nw wl we wr⟩ :: fs))
    (hbl : VectorSet.blackenIfAny wr = .ok w1)
    (hrot : VectorSet.rotateLeft (plug (.node c n l e r) ⟨.left, .black, np, ep, .node cp nw wl we w1⟩, fs) = .ok cur)
    (hT : VectorSet.setColor .black (zip cur.1 cur.2) = .ok T) (k : Nat) :
    ∃ p m' m'', (do
        let c := (← rd (← rd (some e.id)).parent).color
        setColor (some we.id) c
        setColor (← rd (some e.id)).parent .black
        blackenIfAny (← rd (some we.id)).right
        rotateLeft (← rd (some e.id)).parent
        removeLoop (k + 1) (← getRoot) : M α Ptr) m = .ok (p, m') ∧ setColor p .black m' = .ok ((), m'') ∧ RepC m'' T [] ∧ Kept m m'' := by
  have n0 := h.cell
  have f0 := h.frame
  have hw := h.sibling
  obtain ⟨m1, e1, h1, k1⟩ := setColor_ok hw cp
  have h1' := h1.sibling
  have n1 := h1'.cell
  obtain ⟨m2, e2, h2, k2⟩ := setColor_frame h1' .black
  have h2w := h2.sibling
  have nw2 := h2w.cell
  obtain ⟨m3, e3, h3, k3⟩ := blackenIfAny_ok (repC_right.1 h2w) hbl
  have h3' := (repC_right.2 h3).sibling
  have n3 := h3'.cell
  obtain ⟨m4, e4, h4, k4⟩ := rotateLeft_ok (repC_plug.1 h3') hrot
  have h5 := repC_zip.1 h4
  have hr : m4.root = tptr (zip cur.1 cur.2) := h5.root
  have hl := removeLoop_root h5 k
  obtain ⟨m5, e5, h6, k5⟩ := setColor_ok' h5 hT
  simp only [pptr_cons, tptr_node] at n0 f0 n1 n3
  simp only [tptr_plug] at e4
  refine ⟨_, m4, m5, ?_, e5, h6, k1.trans (k2.trans (k3.trans (k4.trans k5)))⟩
  simp only [bind_apply, rd_ok n0, rd_ok f0, fcell, e1, rd_ok n1, e2, rd_ok nw2, e3, rd_ok n3, e4, getRoot_apply, hr, hl]

/-- The sibling on the left is red. -/
theorem redSibR {m : Mem α} {c : Color} {n : Nat} {l r : Tree α} {e : Elem α} {cp cw : Color} {np nw : Nat} {ep we : Elem α} {wl wr : Tree α}
    {fs : List (Frame α)} {cur : Cursor α} (h : RepC m (.node c n l e r) (⟨.right, cp, np, ep, .node cw nw wl we wr⟩ :: fs))
    (hm : (if cw = .red then do
               let t := plug (.node c n l e r) { (⟨.right, cp, np, ep, .node cw nw wl we wr⟩ : Frame α) with color := .red, sibling := .node .black nw wl we wr }
               goRight (← goRight (← VectorSet.rotateRight (t, fs)))
             else .ok (.node c n l e r, ⟨.right, cp, np, ep, .node cw nw wl we wr⟩ :: fs) : Res (Cursor α)) = .ok cur) :
    ∃ m' cp' np' ep' w' fs', cur = (.node c n l e r, ⟨.right, cp', np', ep', w'⟩ :: fs') ∧
      (do
          if (← rd (some we.id)).color = .red then
            setColor (some we.id) .black
            setColor (← rd (some e.id)).parent .red
            rotateRight (← rd (some e.id)).parent
            return (← rd (← rd (some e.id)).parent).left
          else return (some we.id) : M α Ptr) m = .ok (tptr w', m') ∧
      RepC m' (.node c n l e r) (⟨.right, cp', np', ep', w'⟩ :: fs') ∧ Kept m m' := by
  have hw := h.sibling
  have nw0 := hw.cell
  by_cases hc : cw = .red
  · subst hc
    simp only [if_true] at hm
    obtain ⟨m1, e1, h1, k1⟩ := setColor_ok hw .black
    have h1' := h1.sibling
    have n1 := h1'.cell
    obtain ⟨m2, e2, h2, k2⟩ := setColor_frame h1' .red
    have n2 := h2.cell
    obtain ⟨cur1, hrot, hm⟩ := Res.bind_eq_ok.1 hm
    obtain ⟨m3, e3, h3, k3⟩ := rotateRight_ok (repC_plug.1 h2) hrot
    obtain ⟨q, q', gs, rfl, _⟩ := rotateRight_shape hrot
    simp only [goRight, Res.ok_bind, Res.ok.injEq] at hm
    have h3' := repC_right.1 (repC_right.1 h3)
    have n3 := h3'.cell
    have f3 := h3'.frame
    simp only [pptr_cons, tptr_node] at n1 n2 n3 f3
    simp only [tptr_plug] at e3
    refine ⟨m3, _, _, _, _, _, hm.symm, ?_, h3', k1.trans (k2.trans k3)⟩
    simp only [bind_apply, rd_ok nw0, ite_apply', if_true, e1, rd_ok n1, e2, rd_ok n2, e3, rd_ok n3, rd_ok f3, pure_apply, fcell]
  · rw [if_neg hc] at hm
    simp only [Res.ok.injEq] at hm
    refine ⟨m, _, _, _, _, _, hm.symm, ?_, h, Kept.refl m⟩
    simp only [bind_apply, rd_ok nw0, ite_apply', if_neg hc, pure_apply, tptr_node]

/-- The far child of the sibling on the left is black. -/
theorem nearR {m : Mem α} {c : Color} {n : Nat} {l r : Tree α} {e : Elem α} {cp cw : Color} {np nw : Nat} {ep we : Elem α} {wl wr : Tree α}
    {fs fs' : List (Frame α)} {w' : Tree α} {p' : Frame α} (h : RepC m (.node c n l e r) (⟨.right, cp, np, ep, .node cw nw wl we wr⟩ :: fs))
    (hm : (if !VectorSet.isRed wl then do
             let wr' ← VectorSet.blackenIfAny wr
             let (w, ws) ← VectorSet.rotateLeft (.node .red nw wl we wr', ⟨.left, cp, np, ep, .node c n l e r⟩ :: fs)
             match ws with
             | q :: fs' => .ok (w, { (⟨.right, cp, np, ep, .node cw nw wl we wr⟩ : Frame α) with color := q.color, count := q.count, elem := q.elem }, fs')
             | [] => .ub
           else .ok (.node cw nw wl we wr, ⟨.right, cp, np, ep, .node cw nw wl we wr⟩, fs) : Res (Tree α × Frame α × List (Frame α))) = .ok (w', p', fs')) :
    ∃ m' nq sib', p' = ⟨.right, cp, nq, ep, sib'⟩ ∧
      (do
          if (← isBlack (← rd (some we.id)).left) then
            blackenIfAny (← rd (some we.id)).right
            setColor (some we.id) .red
            rotateLeft (some we.id)
            return (← rd (← rd (some e.id)).parent).left
          else return (some we.id) : M α Ptr) m = .ok (tptr w', m') ∧
      RepC m' (.node c n l e r) (⟨.right, cp, nq, ep, w'⟩ :: fs') ∧ w' ≠ .nil ∧ Kept m m' := by
  have hw := h.sibling
  have nw0 := hw.cell
  have hb := isBlack_ok hw.tree.2.1
  by_cases hc : VectorSet.isRed wl = false
  · simp only [hc, Bool.not_false, if_true] at hm
    obtain ⟨x1, hbl, hm⟩ := Res.bind_eq_ok.1 hm
    obtain ⟨m1, e1, h1, k1⟩ := blackenIfAny_ok (repC_right.1 hw) hbl
    have h1' := repC_right.2 h1
    obtain ⟨m2, e2, h2, k2⟩ := setColor_ok h1' .red
    obtain ⟨⟨w2, ws⟩, hrot, hm⟩ := Res.bind_eq_ok.1 hm
    obtain ⟨m3, e3, h3, k3⟩ := rotateLeft_ok h2 hrot
    cases x1 with
    | nil => simp [VectorSet.rotateLeft] at hrot
    | node c1 n1 l1 e1' r1 =>
    obtain ⟨q, q', gs, hq, hgs⟩ := rotateLeft_shape hrot
    cases hq
    obtain ⟨nq, gs, rfl, _⟩ := samePath_cons hgs
    simp only [Res.ok.injEq, Prod.mk.injEq] at hm
    obtain ⟨rfl, rfl, rfl⟩ := hm
    have h3' := h3.sibling
    have n3 := h3'.cell
    have f3 := h3'.frame
    simp only [pptr_cons, tptr_node] at n3 f3
    simp only [tptr_node] at e3
    refine ⟨m3, nq, _, rfl, ?_, h3', by simp, k1.trans (k2.trans k3)⟩
    simp only [bind_apply, rd_ok nw0, hb, hc, Bool.not_false, ite_apply', if_true, e1, e2, e3, rd_ok n3, rd_ok f3, pure_apply, fcell, tptr_node]
  · simp only [Bool.not_eq_false] at hc
    simp only [hc, Bool.not_true, Bool.false_eq_true, if_false, Res.ok.injEq, Prod.mk.injEq] at hm
    obtain ⟨rfl, rfl, rfl⟩ := hm
    refine ⟨m, np, _, rfl, ?_, h, by simp, Kept.refl m⟩
    simp only [bind_apply, rd_ok nw0, hb, hc, Bool.not_true, ite_apply', Bool.false_eq_true, if_false, pure_apply, tptr_node]

/-- The last rotation to the right. -/
theorem finalR {m : Mem α} {c : Color} {n : Nat} {l r : Tree α} {e : Elem α} {cp cw : Color} {np nw : Nat} {ep we : Elem α} {wl wr w1 T : Tree α}
    {fs : List (Frame α)} {cur : Cursor α} (h : RepC m (.node c n l e r) (⟨.right, cp, np, ep, .node cw nw wl we wr⟩ :: fs))
    (hbl : VectorSet.blackenIfAny wl = .ok w1)
    (hrot : VectorSet.rotateRight (plug (.node c n l e r) ⟨.right, .black, np, ep, .node cp nw w1 we wr⟩, fs) = .ok cur)
    (hT : VectorSet.setColor .black (zip cur.1 cur.2) = .ok T) (k : Nat) :
    ∃ p m' m'', (do
        let c := (← rd (← rd (some e.id)).parent).color
        setColor (some we.id) c
        setColor (← rd (some e.id)).parent .black
        blackenIfAny (← rd (some we.id)).left
        rotateRight (← rd (some e.id)).parent
        removeLoop (k + 1) (← getRoot) : M α Ptr) m = .ok (p, m') ∧ setColor p .black m' = .ok ((), m'') ∧ RepC m'' T [] ∧ Kept m m'' := by
  have n0 := h.cell
  have f0 := h.frame
  have hw := h.sibling
  obtain ⟨m1, e1, h1, k1⟩ := setColor_ok hw cp
  have h1' := h1.sibling
  have n1 := h1'.cell
  obtain ⟨m2, e2, h2, k2⟩ := setColor_frame h1' .black
  have h2w := h2.sibling
  have nw2 := h2w.cell
  obtain ⟨m3, e3, h3, k3⟩ := blackenIfAny_ok (repC_left.1 h2w) hbl
  have h3' := (repC_left.2 h3).sibling
  have n3 := h3'.cell
  obtain ⟨m4, e4, h4, k4⟩ := rotateRight_ok (repC_plug.1 h3') hrot
  have h5 := repC_zip.1 h4
  have hr : m4.root = tptr (zip cur.1 cur.2) := h5.root
  have hl := removeLoop_root h5 k
  obtain ⟨m5, e5, h6, k5⟩ := setColor_ok' h5 hT
  simp only [pptr_cons, tptr_node] at n0 f0 n1 n3
  simp only [tptr_plug] at e4
  refine ⟨_, m4, m5, ?_, e5, h6, k1.trans (k2.trans (k3.trans (k4.trans k5)))⟩
  simp only [bind_apply, rd_ok n0, rd_ok f0, fcell, e1, rd_ok n1, e2, rd_ok nw2, e3, rd_ok n3, e4, getRoot_apply, hr, hl]

theorem removeLoop_ok (j : Nat) : ∀ {m : Mem α} {x : Tree α} {fs : List (Frame α)} {T : Tree α} {k : Nat}, x ≠ .nil → RepC m x fs →
    VectorSet.balanceAfterRemove j x fs = .ok T → j < k →
    ∃ p m' m'', removeLoop k (tptr x) m = .ok (p, m') ∧ setColor p .black m' = .ok ((), m'') ∧ RepC m'' T [] ∧ Kept m m'' := by
  induction j with
  | zero => intro m x fs T k _ _ hb; cases fs <;> cases hb
  | succ j ih =>
    intro m x fs T k hx hrep hb hk
    obtain ⟨k, rfl⟩ : ∃ i, k = i + 1 + 1 := ⟨k - 2, by omega⟩
    cases fs with
    | nil =>
      rw [VectorSet.balanceAfterRemove] at hb
      obtain ⟨m1, e1, h1, k1⟩ := setColor_ok' hrep hb
      exact ⟨_, m, m1, removeLoop_root hrep _, e1, h1, k1⟩
    | cons p fs =>
    cases x with
    | nil => exact (hx rfl).elim
    | node c n l e r =>
    have nx := hrep.cell
    have np := hrep.frame
    have hxr := hrep.ne_root
    have hsx := hrep.ne_sibling (by simp [tptr])
    have hpl : plug (.node c n l e r) p ≠ .nil := by unfold plug; split <;> simp
    simp only [pptr_cons, tptr_node] at nx np hsx
    cases c with
    | red =>
      simp only [VectorSet.balanceAfterRemove, Res.ok.injEq] at hb
      obtain ⟨m1, e1, h1, k1⟩ := setColor_ok hrep .black
      refine ⟨some e.id, m, m1, ?_, e1, hb ▸ repC_zip.1 h1, k1⟩
      change removeLoop (k + 1 + 1) (some e.id) m = _
      rw [removeLoop, bind_apply, getRoot_apply]
      simp only []
      rw [ite_apply']
      simp only [bind_apply, ite_apply', if_neg hxr, rd_ok nx, ne_eq, reduceCtorEq, not_false_eq_true, if_true, pure_apply]
    | black =>
    obtain ⟨s, cp, np', ep, sib⟩ := p
    have hrepp := repC_plug.1 hrep
    simp only at hsx np nx
    cases s
    · -- `x` is a left child
      have hxl : some e.id = (fcell (some e.id) ⟨.left, cp, np', ep, sib⟩ (pptr fs)).left := rfl
      have hpr : (fcell (some e.id) ⟨.left, cp, np', ep, sib⟩ (pptr fs)).right = tptr sib := rfl
      cases sib with
      | nil =>
        rw [VectorSet.balanceAfterRemove] at hb
        · obtain ⟨q, m1, m2, e1, e2, h1, k1⟩ := ih (k := k + 1) hpl hrepp hb (by omega)
          rw [tptr_plug] at e1
          refine ⟨q, m1, m2, ?_, e2, h1, k1⟩
          refine Eq.trans ?_ e1
          change removeLoop (k + 1 + 1) (some e.id) m = _
          conv_lhs => rw [removeLoop]
          rw [bind_apply, getRoot_apply]
          simp only []
          rw [ite_apply']
          simp only [bind_apply, ite_apply', if_neg hxr, rd_ok nx, rd_ok np, ne_eq, not_true_eq_false, if_false, if_pos hxl, hpr, tptr_nil, if_true]
        all_goals simp
      | node cw nw wl we wr =>
        rw [VectorSet.balanceAfterRemove] at hb
        · simp only at hb
          obtain ⟨⟨x1, fs1⟩, hred, hb⟩ := Res.bind_eq_ok.1 hb
          obtain ⟨m1, cp1, np1, ep1, w1, fs2, hcur, e1, h1, k1⟩ := redSibL hrep hred
          cases hcur
          simp only at hb
          have n1 := h1.cell
          have f1 := h1.frame
          simp only [pptr_cons, tptr_node] at n1 f1
          have hstep : removeLoop (k + 1 + 1) (some e.id) m = (do
              if tptr w1 = none then removeLoop (k + 1) (← rd (some e.id)).parent
              else if (← isBlack (← rd (tptr w1)).left) && (← isBlack (← rd (tptr w1)).right) then
                setColor (tptr w1) .red
                removeLoop (k + 1) (← rd (some e.id)).parent
              else
                let w ← (do
                  if (← isBlack (← rd (tptr w1)).right) then
                    blackenIfAny (← rd (tptr w1)).left
                    setColor (tptr w1) .red
                    rotateRight (tptr w1)
                    return (← rd (← rd (some e.id)).parent).right
                  else return (tptr w1))
                let c := (← rd (← rd (some e.id)).parent).color
                setColor w c
                setColor (← rd (some e.id)).parent .black
                blackenIfAny (← rd w).right
                rotateLeft (← rd (some e.id)).parent
                removeLoop (k + 1) (← getRoot) : M α Ptr) m1 := by
            conv_lhs => rw [removeLoop]
            rw [bind_apply, getRoot_apply]
            simp only []
            rw [ite_apply', if_neg hxr, bind_apply, rd_ok nx]
            simp only [ne_eq, not_true_eq_false, if_false]
            rw [bind_apply, rd_ok nx]
            simp only []
            rw [bind_apply, rd_ok np]
            simp only []
            rw [ite_apply', if_pos hxl, bind_apply, rd_ok nx]
            simp only []
            rw [bind_apply, rd_ok np]
            simp only [hpr, tptr_node, reduceCtorEq, if_false]
            rw [bind_apply, e1]
          rw [tptr_node, hstep, ite_apply']
          cases w1 with
          | nil =>
            obtain ⟨q, m2, m3, e2, e3, h2, k2⟩ := ih (k := k + 1) (by unfold plug; split <;> simp) (repC_plug.1 h1) hb (by omega)
            rw [tptr_plug] at e2
            refine ⟨q, m2, m3, ?_, e3, h2, k1.trans k2⟩
            rw [← e2]
            rw [if_pos tptr_nil]
            simp only [bind_apply, rd_ok n1]
          | node cw1 nw1 wl1 we1 wr1 =>
            simp only at hb
            have hw1 := h1.sibling
            have nw1' := hw1.cell
            have hbl := isBlack_ok hw1.tree.2.1
            have hbr := isBlack_ok hw1.tree.2.2
            rw [if_neg (by simp [tptr_node])]
            simp only [tptr_node]
            by_cases hbb : (!VectorSet.isRed wl1 && !VectorSet.isRed wr1) = true
            · rw [if_pos hbb] at hb
              obtain ⟨m2, e2, h2, k2⟩ := setColor_ok hw1 .red
              have h2' := h2.sibling
              have n2 := h2'.cell
              simp only [pptr_cons] at n2
              obtain ⟨q, m3, m4, e3, e4, h3, k3⟩ := ih (k := k + 1) (by unfold plug; split <;> simp) (repC_plug.1 h2') hb (by omega)
              rw [tptr_plug] at e3
              refine ⟨q, m3, m4, ?_, e4, h3, k1.trans (k2.trans k3)⟩
              rw [← e3]
              simp only [bind_apply, ite_apply', rd_ok nw1', hbl, hbr, hbb, if_true, e2, rd_ok n2]
            · rw [if_neg hbb] at hb
              obtain ⟨⟨w2, p2, fs3⟩, hnear, hb⟩ := Res.bind_eq_ok.1 hb
              obtain ⟨m2, nq, sib', rfl, e2, h2, hw2, k2⟩ := nearL h1 hnear
              cases w2 with
              | nil => exact (hw2 rfl).elim
              | node cw2 nw2 wl2 we2 wr2 =>
              simp only at hb
              obtain ⟨w3, hbl3, hb⟩ := Res.bind_eq_ok.1 hb
              obtain ⟨cur, hrot, hT⟩ := Res.bind_eq_ok.1 hb
              obtain ⟨q, m3, m4, e3, e4, h3, k3⟩ := finalL h2 hbl3 hrot hT k
              refine ⟨q, m3, m4, ?_, e4, h3, k1.trans (k2.trans k3)⟩
              rw [← e3, bind_apply, rd_ok nw1']
              simp only []
              rw [bind_apply, hbl]
              simp only []
              rw [bind_apply, rd_ok nw1']
              simp only []
              rw [bind_apply, hbr]
              simp only [hbb]
              simp only [Bool.false_eq_true, if_false]
              rw [bind_apply, e2]
              rfl
        all_goals simp
    · -- `x` is a right child
      have hxl : ¬ (some e.id = (fcell (some e.id) ⟨.right, cp, np', ep, sib⟩ (pptr fs)).left) := hsx
      have hpr : (fcell (some e.id) ⟨.right, cp, np', ep, sib⟩ (pptr fs)).left = tptr sib := rfl
      cases sib with
      | nil =>
        rw [VectorSet.balanceAfterRemove] at hb
        · obtain ⟨q, m1, m2, e1, e2, h1, k1⟩ := ih (k := k + 1) hpl hrepp hb (by omega)
          rw [tptr_plug] at e1
          refine ⟨q, m1, m2, ?_, e2, h1, k1⟩
          refine Eq.trans ?_ e1
          change removeLoop (k + 1 + 1) (some e.id) m = _
          conv_lhs => rw [removeLoop]
          rw [bind_apply, getRoot_apply]
          simp only []
          rw [ite_apply']
          simp only [bind_apply, ite_apply', if_neg hxr, rd_ok nx, rd_ok np, ne_eq, not_true_eq_false, if_false, hpr, if_neg (Option.some_ne_none e.id), tptr_nil, if_true]
        all_goals simp
      | node cw nw wl we wr =>
        rw [VectorSet.balanceAfterRemove] at hb
        · simp only at hb
          obtain ⟨⟨x1, fs1⟩, hred, hb⟩ := Res.bind_eq_ok.1 hb
          obtain ⟨m1, cp1, np1, ep1, w1, fs2, hcur, e1, h1, k1⟩ := redSibR hrep hred
          cases hcur
          simp only at hb
          have n1 := h1.cell
          have f1 := h1.frame
          simp only [pptr_cons, tptr_node] at n1 f1
          have hstep : removeLoop (k + 1 + 1) (some e.id) m = (do
              if tptr w1 = none then removeLoop (k + 1) (← rd (some e.id)).parent
              else if (← isBlack (← rd (tptr w1)).right) && (← isBlack (← rd (tptr w1)).left) then
                setColor (tptr w1) .red
                removeLoop (k + 1) (← rd (some e.id)).parent
              else
                let w ← (do
                  if (← isBlack (← rd (tptr w1)).left) then
                    blackenIfAny (← rd (tptr w1)).right
                    setColor (tptr w1) .red
                    rotateLeft (tptr w1)
                    return (← rd (← rd (some e.id)).parent).left
                  else return (tptr w1))
                let c := (← rd (← rd (some e.id)).parent).color
                setColor w c
                setColor (← rd (some e.id)).parent .black
                blackenIfAny (← rd w).left
                rotateRight (← rd (some e.id)).parent
                removeLoop (k + 1) (← getRoot) : M α Ptr) m1 := by
            conv_lhs => rw [removeLoop]
            rw [bind_apply, getRoot_apply]
            simp only []
            rw [ite_apply', if_neg hxr, bind_apply, rd_ok nx]
            simp only [ne_eq, not_true_eq_false, if_false]
            rw [bind_apply, rd_ok nx]
            simp only []
            rw [bind_apply, rd_ok np]
            simp only []
            rw [ite_apply', if_neg hxl, bind_apply, rd_ok nx]
            simp only []
            rw [bind_apply, rd_ok np]
            simp only [hpr, tptr_node, reduceCtorEq, if_false]
            rw [bind_apply, e1]
          rw [tptr_node, hstep, ite_apply']
          cases w1 with
          | nil =>
            obtain ⟨q, m2, m3, e2, e3, h2, k2⟩ := ih (k := k + 1) (by unfold plug; split <;> simp) (repC_plug.1 h1) hb (by omega)
            rw [tptr_plug] at e2
            refine ⟨q, m2, m3, ?_, e3, h2, k1.trans k2⟩
            rw [← e2]
            rw [if_pos tptr_nil]
            simp only [bind_apply, rd_ok n1]
          | node cw1 nw1 wl1 we1 wr1 =>
            simp only at hb
            have hw1 := h1.sibling
            have nw1' := hw1.cell
            have hbl := isBlack_ok hw1.tree.2.1
            have hbr := isBlack_ok hw1.tree.2.2
            rw [if_neg (by simp [tptr_node])]
            simp only [tptr_node]
            by_cases hbb : (!VectorSet.isRed wr1 && !VectorSet.isRed wl1) = true
            · rw [if_pos hbb] at hb
              obtain ⟨m2, e2, h2, k2⟩ := setColor_ok hw1 .red
              have h2' := h2.sibling
              have n2 := h2'.cell
              simp only [pptr_cons] at n2
              obtain ⟨q, m3, m4, e3, e4, h3, k3⟩ := ih (k := k + 1) (by unfold plug; split <;> simp) (repC_plug.1 h2') hb (by omega)
              rw [tptr_plug] at e3
              refine ⟨q, m3, m4, ?_, e4, h3, k1.trans (k2.trans k3)⟩
              rw [← e3]
              simp only [bind_apply, ite_apply', rd_ok nw1', hbl, hbr, hbb, if_true, e2, rd_ok n2]
            · rw [if_neg hbb] at hb
              obtain ⟨⟨w2, p2, fs3⟩, hnear, hb⟩ := Res.bind_eq_ok.1 hb
              obtain ⟨m2, nq, sib', rfl, e2, h2, hw2, k2⟩ := nearR h1 hnear
              cases w2 with
              | nil => exact (hw2 rfl).elim
              | node cw2 nw2 wl2 we2 wr2 =>
              simp only at hb
              obtain ⟨w3, hbl3, hb⟩ := Res.bind_eq_ok.1 hb
              obtain ⟨cur, hrot, hT⟩ := Res.bind_eq_ok.1 hb
              obtain ⟨q, m3, m4, e3, e4, h3, k3⟩ := finalR h2 hbl3 hrot hT k
              refine ⟨q, m3, m4, ?_, e4, h3, k1.trans (k2.trans k3)⟩
              rw [← e3, bind_apply, rd_ok nw1']
              simp only []
              rw [bind_apply, hbr]
              simp only []
              rw [bind_apply, rd_ok nw1']
              simp only []
              rw [bind_apply, hbl]
              simp only [hbb]
              simp only [Bool.false_eq_true, if_false]
              rw [bind_apply, e2]
              rfl
        all_goals simp

theorem balanceAfterRemove_ok {m : Mem α} {x : Tree α} {fs : List (Frame α)} {T : Tree α} (hx : x ≠ .nil) (h : RepC m x fs)
    (hb : VectorSet.balanceAfterRemove (2 * fs.length + 2) x fs = .ok T) :
    ∃ m', balanceAfterRemove (tptr x) m = .ok ((), m') ∧ RepC m' T [] ∧ Kept m m' := by
  have hl := h.length
  obtain ⟨p, m1, m2, e1, e2, h1, k1⟩ := removeLoop_ok _ (k := 2 * m.next + 3) hx h hb (by omega)
  refine ⟨m2, ?_, h1, k1⟩
  simp only [balanceAfterRemove, bind_apply, fuel_apply, e1, e2]

end Verif.VectorSet.Heap
