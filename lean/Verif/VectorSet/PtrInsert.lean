import Verif.VectorSet.PtrRotate

/-! # Balancing after an insertion, in memory -/

namespace Verif.VectorSet.Heap

variable {α : Type}

theorem samePath_cons {f : Frame α} {fs gs : List (Frame α)} (h : SamePath gs (f :: fs)) :
    ∃ n gs', gs = { f with count := n } :: gs' ∧ SamePath gs' fs := by
  cases gs with
  | nil => exact h.elim
  | cons g gs =>
    obtain ⟨s, c, n, e, sib⟩ := g
    obtain ⟨⟨h1, h2, h3, h4⟩, h5⟩ := h
    simp only at h1 h2 h3 h4
    subst h1 h2 h3 h4
    exact ⟨n, gs, rfl, h5⟩

theorem updateCount_shape {c : Color} {n : Nat} {l r : Tree α} {e : Elem α} {fs : List (Frame α)} {cur : Cursor α}
    (h : VectorSet.updateCount (.node c n l e r, fs) = .ok cur) : ∃ n' fs', cur = (.node c n' l e r, fs') ∧ SamePath fs' fs := by
  simp only [VectorSet.updateCount] at h
  split at h <;> cases h
  · exact ⟨_, _, rfl, updPath_same _ _⟩
  · exact ⟨_, _, rfl, SamePath.refl _⟩

theorem rotateLeft_shape {cx cy : Color} {nx ny : Nat} {a b c : Tree α} {ex ey : Elem α} {fs : List (Frame α)} {cur : Cursor α}
    (h : VectorSet.rotateLeft (.node cx nx a ex (.node cy ny b ey c), fs) = .ok cur) :
    ∃ n n' fs', cur = (.node cy n' (.node cx n a ex b) ey c, fs') ∧ SamePath fs' fs := by
  simp only [VectorSet.rotateLeft] at h
  obtain ⟨⟨x, fs1⟩, h1, h2⟩ := Res.bind_eq_ok.1 h
  obtain ⟨n, fs', h3, h4⟩ := updateCount_shape h1
  cases h3
  obtain ⟨n', gs, rfl, h5⟩ := samePath_cons h4
  simp only [Res.ok.injEq] at h2
  exact ⟨n, n', gs, h2.symm, h5⟩

theorem rotateRight_shape {cx cy : Color} {nx ny : Nat} {a b c : Tree α} {ex ey : Elem α} {fs : List (Frame α)} {cur : Cursor α}
    (h : VectorSet.rotateRight (.node cy ny (.node cx nx a ex b) ey c, fs) = .ok cur) :
    ∃ n n' fs', cur = (.node cx n' a ex (.node cy n b ey c), fs') ∧ SamePath fs' fs := by
  simp only [VectorSet.rotateRight] at h
  obtain ⟨⟨x, fs1⟩, h1, h2⟩ := Res.bind_eq_ok.1 h
  obtain ⟨n, fs', h3, h4⟩ := updateCount_shape h1
  cases h3
  obtain ⟨n', gs, rfl, h5⟩ := samePath_cons h4
  simp only [Res.ok.injEq] at h2
  exact ⟨n, n', gs, h2.symm, h5⟩

theorem isRed_ok {m : Mem α} {par : Ptr} {t : Tree α} (h : RepT m.node par t) : isRed (tptr t) m = .ok (VectorSet.isRed t, m) := by
  cases t with
  | nil => simp [isRed, tptr, VectorSet.isRed]
  | node c n l e r =>
    cases c <;> simp [isRed, tptr, rd_ok h.1, VectorSet.isRed]

theorem RepC.ne_root {m : Mem α} {c : Color} {n : Nat} {l r : Tree α} {e : Elem α} {f : Frame α} {fs : List (Frame α)}
    (h : RepC m (.node c n l e r) (f :: fs)) : some e.id ≠ m.root := by
  rw [h.root]
  have hn := h.nodup
  simp only [idsT, List.cons_append, List.nodup_cons, List.mem_append, not_or] at hn
  have key : ∀ (gs : List (Frame α)) (g : Frame α), (∃ a, topPtr (some g.elem.id) gs = some a ∧ a ∈ idsF (g :: gs)) := by
    intro gs
    induction gs with
    | nil => intro g; exact ⟨_, rfl, by simp [idsF]⟩
    | cons k gs ih =>
      intro g
      obtain ⟨a, h1, h2⟩ := ih k
      exact ⟨a, h1, by rw [idsF]; simp [h2]⟩
  obtain ⟨a, h1, h2⟩ := key fs f
  rw [topPtr, h1]
  intro he
  simp only [Option.some.injEq] at he
  exact hn.1.2 (he ▸ h2)

/-- The address of a frame is not that of the root of its other subtree. -/
theorem RepC.ne_sibling {m : Mem α} {t : Tree α} {f : Frame α} {fs : List (Frame α)} (h : RepC m t (f :: fs)) (ht : tptr t ≠ none) : tptr t ≠ tptr f.sibling := by
  intro he
  obtain ⟨a, ha⟩ : ∃ a, tptr t = some a := Option.ne_none_iff_exists'.1 ht
  have hn := h.nodup
  simp only [idsF, List.nodup_append] at hn
  exact hn.2.2 a (tptr_mem ha) a (by simp [tptr_mem (he ▸ ha)]) rfl

theorem insertLoop_root {m : Mem α} {x : Tree α} (h : RepC m x []) (k : Nat) : insertLoop (k + 1) (tptr x) m = .ok ((), m) := by
  have : m.root = tptr x := h.root
  simp [insertLoop, this]

theorem insertLoop_black {m : Mem α} {c : Color} {n : Nat} {l r : Tree α} {e : Elem α} {f : Frame α} {fs : List (Frame α)}
    (h : RepC m (.node c n l e r) (f :: fs)) (hf : f.color ≠ .red) (k : Nat) : insertLoop (k + 1) (some e.id) m = .ok ((), m) := by
  have h1 := h.cell
  have h2 := h.frame
  have h3 := h.ne_root
  have h4 : (fcell (some e.id) f (pptr fs)).color = f.color := by simp only [fcell]; split <;> rfl
  simp only [pptr] at h1
  simp only [insertLoop, bind_apply, getRoot_apply, ite_apply', if_neg h3, rd_ok h1, rd_ok h2, tptr_node, h4, ne_eq, hf, not_false_eq_true, if_true, pure_apply]

theorem fcell_parent (q : Ptr) (f : Frame α) (p : Ptr) : (fcell q f p).parent = p := by simp only [fcell]; split <;> rfl
theorem fcell_color (q : Ptr) (f : Frame α) (p : Ptr) : (fcell q f p).color = f.color := by simp only [fcell]; split <;> rfl

theorem tptr_plug (t : Tree α) (f : Frame α) : tptr (plug t f) = some f.elem.id := by unfold plug; split <;> rfl

/-- The other subtree of a frame can be looked at by itself. -/
theorem RepC.sibling {m : Mem α} {t : Tree α} {f : Frame α} {fs : List (Frame α)} (h : RepC m t (f :: fs)) :
    RepC m f.sibling (⟨match f.side with | .left => .right | .right => .left, f.color, f.count, f.elem, t⟩ :: fs) := by
  obtain ⟨s, c, n, e, sib⟩ := f
  cases s
  · exact repC_right.1 (repC_left.2 h)
  · exact repC_left.1 (repC_right.2 h)

/-- The uncle is red: the three colors change and the loop goes on with the grandparent. -/
theorem recolor {m : Mem α} {c : Color} {n : Nat} {l r : Tree α} {e : Elem α} {p g : Frame α} {fs : List (Frame α)} {y : Tree α}
    (h : RepC m (.node c n l e r) (p :: g :: fs)) (hy : VectorSet.setColor .black g.sibling = .ok y) (k : Nat) :
    ∃ m', (do
        setColor (← rd (some e.id)).parent .black
        setColor (tptr g.sibling) .black
        setColor (← rd (← rd (some e.id)).parent).parent .red
        insertLoop k (← rd (← rd (some e.id)).parent).parent : M α Unit) m = insertLoop k (some g.elem.id) m' ∧
      RepC m' (plug (plug (.node c n l e r) { p with color := .black }) { g with color := .red, sibling := y }) fs ∧ Kept m m' := by
  have n0 := h.cell
  obtain ⟨m1, e1, h1, k1⟩ := setColor_frame h .black
  have h1' := (repC_plug.1 h1).sibling
  obtain ⟨sg, cg, ng, eg, sibg⟩ := g
  cases sibg with
  | nil => cases hy
  | node cs ns ls es rs =>
  cases hy
  obtain ⟨m2, e2, h2, k2⟩ := setColor_ok h1' .black
  have h2' : RepC m2 (.node c n l e r) ({ p with color := .black } :: ⟨sg, cg, ng, eg, .node .black ns ls es rs⟩ :: fs) := by
    have := h2.sibling
    cases sg <;> exact repC_plug.2 this
  have n2 := h2'.cell
  have f2 := h2'.frame
  obtain ⟨m3, e3, h3, k3⟩ := setColor_frame (repC_plug.1 h2') .red
  have h3' := repC_plug.2 h3
  have n3 := h3'.cell
  have f3 := h3'.frame
  simp only [pptr, tptr_node] at n0 n2 f2 n3 f3
  refine ⟨m3, ?_, repC_plug.1 h3, k1.trans (k2.trans k3)⟩
  simp only [bind_apply, rd_ok n0, e1, tptr_node, e2, rd_ok n2, rd_ok f2, fcell_parent, e3, rd_ok n3, rd_ok f3]

/-- The last rotation to the right; the loop then sees a black parent. -/
theorem lastRight {m : Mem α} {c : Color} {n : Nat} {l r : Tree α} {e : Elem α} {cp cg : Color} {np ng : Nat} {ep eg : Elem α} {sp sg : Tree α}
    {fs : List (Frame α)} {cur : Cursor α}
    (h : RepC m (.node c n l e r) (⟨.left, cp, np, ep, sp⟩ :: ⟨.left, cg, ng, eg, sg⟩ :: fs))
    (hr : VectorSet.rotateRight (.node .red ng (.node .black np (.node c n l e r) ep sp) eg sg, fs) = .ok cur) (k : Nat) :
    ∃ m', (do
        setColor (← rd (some e.id)).parent .black
        setColor (← rd (← rd (some e.id)).parent).parent .red
        rotateRight (← rd (← rd (some e.id)).parent).parent
        insertLoop (k + 1) (some e.id) : M α Unit) m = .ok ((), m') ∧ RepC m' cur.1 cur.2 ∧ Kept m m' := by
  have n0 := h.cell
  obtain ⟨m1, e1, h1, k1⟩ := setColor_frame h .black
  have n1 := h1.cell
  have f1 := h1.frame
  obtain ⟨m2, e2, h2, k2⟩ := setColor_frame (repC_plug.1 h1) .red
  have n2 := (repC_plug.2 h2).cell
  have f2 := (repC_plug.2 h2).frame
  obtain ⟨m3, e3, h3, k3⟩ := rotateRight_ok (repC_plug.1 h2) hr
  obtain ⟨_, _, _, rfl, _⟩ := rotateRight_shape hr
  have h4 := insertLoop_black (repC_left.1 h3) (by simp) k
  simp only [pptr, tptr_node] at n0 n1 f1 n2 f2 e1 e2 e3
  simp only [tptr_plug] at e3
  refine ⟨m3, ?_, h3, k1.trans (k2.trans k3)⟩
  simp only [bind_apply, rd_ok n0, e1, rd_ok n1, rd_ok f1, fcell_parent, e2, rd_ok n2, rd_ok f2, e3, h4]

/-- The last rotation to the left. -/
theorem lastLeft {m : Mem α} {c : Color} {n : Nat} {l r : Tree α} {e : Elem α} {cp cg : Color} {np ng : Nat} {ep eg : Elem α} {sp sg : Tree α}
    {fs : List (Frame α)} {cur : Cursor α}
    (h : RepC m (.node c n l e r) (⟨.right, cp, np, ep, sp⟩ :: ⟨.right, cg, ng, eg, sg⟩ :: fs))
    (hr : VectorSet.rotateLeft (.node .red ng sg eg (.node .black np sp ep (.node c n l e r)), fs) = .ok cur) (k : Nat) :
    ∃ m', (do
        setColor (← rd (some e.id)).parent .black
        setColor (← rd (← rd (some e.id)).parent).parent .red
        rotateLeft (← rd (← rd (some e.id)).parent).parent
        insertLoop (k + 1) (some e.id) : M α Unit) m = .ok ((), m') ∧ RepC m' cur.1 cur.2 ∧ Kept m m' := by
  have n0 := h.cell
  obtain ⟨m1, e1, h1, k1⟩ := setColor_frame h .black
  have n1 := h1.cell
  have f1 := h1.frame
  obtain ⟨m2, e2, h2, k2⟩ := setColor_frame (repC_plug.1 h1) .red
  have n2 := (repC_plug.2 h2).cell
  have f2 := (repC_plug.2 h2).frame
  obtain ⟨m3, e3, h3, k3⟩ := rotateLeft_ok (repC_plug.1 h2) hr
  obtain ⟨_, _, _, rfl, _⟩ := rotateLeft_shape hr
  have h4 := insertLoop_black (repC_right.1 h3) (by simp) k
  simp only [pptr, tptr_node] at n0 n1 f1 n2 f2 e1 e2 e3
  simp only [tptr_plug] at e3
  refine ⟨m3, ?_, h3, k1.trans (k2.trans k3)⟩
  simp only [bind_apply, rd_ok n0, e1, rd_ok n1, rd_ok f1, fcell_parent, e2, rd_ok n2, rd_ok f2, e3, h4]

theorem insertLoop_ok (j : Nat) : ∀ {m : Mem α} {x : Tree α} {fs : List (Frame α)} {T : Tree α} {k : Nat}, fs.length ≤ j → x ≠ .nil → RepC m x fs →
    VectorSet.balanceAfterInsert x fs = .ok T → fs.length + 1 < k →
    ∃ m' T', insertLoop k (tptr x) m = .ok ((), m') ∧ RepC m' T' [] ∧ blackenRoot T' = .ok T ∧ Kept m m' := by
  induction j with
  | zero =>
    intro m x fs T k hj hx hrep hb hk
    obtain ⟨k, rfl⟩ : ∃ i, k = i + 1 := ⟨k - 1, by omega⟩
    obtain rfl : fs = [] := List.eq_nil_of_length_eq_zero (by omega)
    exact ⟨m, x, insertLoop_root hrep k, hrep, hb, Kept.refl m⟩
  | succ j ih =>
    intro m x fs T k hj hx hrep hb hk
    obtain ⟨k, rfl⟩ : ∃ i, k = i + 1 := ⟨k - 1, by omega⟩
    cases x with
    | nil => exact (hx rfl).elim
    | node c n l e r =>
    match fs, hj, hrep, hb, hk with
    | [], _, hrep, hb, _ => exact ⟨m, _, insertLoop_root hrep k, hrep, hb, Kept.refl m⟩
    | [p], _, hrep, hb, _ =>
      simp only [VectorSet.balanceAfterInsert] at hb
      split at hb
      · cases hb
      · rename_i hp
        exact ⟨m, _, insertLoop_black hrep hp k, repC_zip.1 hrep, hb, Kept.refl m⟩
    | p :: g :: fs, hj, hrep, hb, hk =>
      rw [VectorSet.balanceAfterInsert] at hb
      by_cases hp : p.color = .red
      swap
      · rw [if_neg hp] at hb
        exact ⟨m, _, insertLoop_black hrep hp k, repC_zip.1 hrep, hb, Kept.refl m⟩
      rw [if_pos hp] at hb
      have nx := hrep.cell
      have np := hrep.frame
      have hrepp := repC_plug.1 hrep
      have ng := hrepp.frame
      have hxr := hrep.ne_root
      have hpl : tptr (plug (.node c n l e r) p) = some p.elem.id := by unfold plug; split <;> rfl
      have hsib := hrepp.ne_sibling (by rw [hpl]; simp)
      have hsx := hrep.ne_sibling (by simp [tptr])
      have hsg : RepT m.node (some g.elem.id) g.sibling := hrepp.path.2.1
      have hred := isRed_ok hsg
      rw [hpl] at ng hsib
      simp only [pptr, tptr_node] at nx np hsx
      obtain ⟨sp, cp, np', ep, sibp⟩ := p
      simp only at hp hpl np hsx
      subst hp
      obtain ⟨sg, cg, ng', eg, sibg⟩ := g
      simp only at hsg hred hsib ng nx np
      obtain ⟨k, rfl⟩ : ∃ i, k = i + 1 := ⟨k - 1, by simp at hk; omega⟩
      cases sg
      · -- the parent is a left child
        simp only at hb
        have hgl : some ep.id = (fcell (some ep.id) ⟨.left, cg, ng', eg, sibg⟩ (pptr fs)).left := rfl
        have hgr : (fcell (some ep.id) ⟨.left, cg, ng', eg, sibg⟩ (pptr fs)).right = tptr sibg := rfl
        by_cases hu : VectorSet.isRed sibg = true
        · rw [if_pos hu] at hb
          obtain ⟨y, hy, hb⟩ := Res.bind_eq_ok.1 hb
          obtain ⟨m1, e1, h1, k1⟩ := recolor hrep hy (k + 1)
          obtain ⟨m2, T', e2, h2, h3, k2⟩ := ih (k := k + 1) (by simp at hj; omega) (by simp [plug]) h1 hb (by simp at hk; omega)
          rw [tptr_plug] at e2
          refine ⟨m2, T', ?_, h2, h3, k1.trans k2⟩
          refine Eq.trans ?_ (e1.trans e2)
          change insertLoop (k + 1 + 1) (some e.id) m = _
          conv_lhs => rw [insertLoop]
          rw [bind_apply, getRoot_apply]
          simp only []
          rw [ite_apply']
          simp only [bind_apply, ite_apply', if_neg hxr, rd_ok nx, rd_ok np, rd_ok ng, fcell_parent, fcell_color, ne_eq,
            not_true_eq_false, if_false, if_pos hgl, hgr, hred, hu, if_true]
        · rw [if_neg hu] at hb
          obtain ⟨⟨x', fs'⟩, hx', hb⟩ := Res.bind_eq_ok.1 hb
          cases sp
          · simp only [reduceCtorEq, if_false, Res.ok.injEq, Prod.mk.injEq] at hx'
            obtain ⟨rfl, rfl⟩ := hx'
            simp only at hb
            obtain ⟨⟨r1, rs⟩, hr, hb⟩ := Res.bind_eq_ok.1 hb
            obtain ⟨m1, e1, h1, k1⟩ := lastRight hrep hr k
            have hpr : ¬ (some e.id = (fcell (some e.id) ⟨.left, .red, np', ep, sibp⟩ (some eg.id)).right) := hsx
            refine ⟨m1, _, ?_, repC_zip.1 h1, hb, k1⟩
            refine Eq.trans ?_ e1
            change insertLoop (k + 1 + 1) (some e.id) m = _
            conv_lhs => rw [insertLoop]
            rw [bind_apply, getRoot_apply]
            simp only []
            rw [ite_apply']
            simp only [bind_apply, ite_apply', if_neg hxr, rd_ok nx, rd_ok np, rd_ok ng, fcell_parent, fcell_color, ne_eq,
              not_true_eq_false, if_false, if_pos hgl, hgr, hred, hu, if_neg hpr, pure_apply, Bool.false_eq_true]
          · simp only [if_true] at hx'
            obtain ⟨cur, hrot, hx'⟩ := Res.bind_eq_ok.1 hx'
            obtain ⟨m0, e0, h0, k0⟩ := rotateLeft_ok hrepp hrot
            obtain ⟨n1, n2, gs, rfl, hgs⟩ := rotateLeft_shape hrot
            obtain ⟨n3, gs, rfl, _⟩ := samePath_cons hgs
            simp only [goLeft, Res.ok.injEq, Prod.mk.injEq] at hx'
            obtain ⟨rfl, rfl⟩ := hx'
            simp only at hb
            obtain ⟨⟨r1, rs⟩, hr, hb⟩ := Res.bind_eq_ok.1 hb
            obtain ⟨m1, e1, h1, k1⟩ := lastRight (repC_left.1 h0) hr k
            have hpr : (some e.id = (fcell (some e.id) ⟨.right, .red, np', ep, sibp⟩ (some eg.id)).right) := rfl
            refine ⟨m1, _, ?_, repC_zip.1 h1, hb, k0.trans k1⟩
            rw [hpl] at e0
            refine Eq.trans ?_ e1
            change insertLoop (k + 1 + 1) (some e.id) m = _
            conv_lhs => rw [insertLoop]
            rw [bind_apply, getRoot_apply]
            simp only []
            rw [ite_apply']
            simp only [bind_apply, ite_apply', if_neg hxr, rd_ok nx, rd_ok np, rd_ok ng, fcell_parent, fcell_color, ne_eq,
              not_true_eq_false, if_false, if_pos hgl, hgr, hred, hu, if_pos hpr, pure_apply, Bool.false_eq_true, e0]
      · -- the parent is a right child
        simp only at hb
        have hgr : (fcell (some ep.id) ⟨.right, cg, ng', eg, sibg⟩ (pptr fs)).left = tptr sibg := rfl
        by_cases hu : VectorSet.isRed sibg = true
        · rw [if_pos hu] at hb
          obtain ⟨y, hy, hb⟩ := Res.bind_eq_ok.1 hb
          obtain ⟨m1, e1, h1, k1⟩ := recolor hrep hy (k + 1)
          obtain ⟨m2, T', e2, h2, h3, k2⟩ := ih (k := k + 1) (by simp at hj; omega) (by simp [plug]) h1 hb (by simp at hk; omega)
          rw [tptr_plug] at e2
          refine ⟨m2, T', ?_, h2, h3, k1.trans k2⟩
          refine Eq.trans ?_ (e1.trans e2)
          change insertLoop (k + 1 + 1) (some e.id) m = _
          conv_lhs => rw [insertLoop]
          rw [bind_apply, getRoot_apply]
          simp only []
          rw [ite_apply']
          simp only [bind_apply, ite_apply', if_neg hxr, rd_ok nx, rd_ok np, rd_ok ng, fcell_parent, fcell_color, ne_eq,
            not_true_eq_false, if_false, hgr, if_neg hsib, hred, hu, if_true]
        · rw [if_neg hu] at hb
          obtain ⟨⟨x', fs'⟩, hx', hb⟩ := Res.bind_eq_ok.1 hb
          cases sp
          · simp only [if_true] at hx'
            obtain ⟨cur, hrot, hx'⟩ := Res.bind_eq_ok.1 hx'
            obtain ⟨m0, e0, h0, k0⟩ := rotateRight_ok hrepp hrot
            obtain ⟨n1, n2, gs, rfl, hgs⟩ := rotateRight_shape hrot
            obtain ⟨n3, gs, rfl, _⟩ := samePath_cons hgs
            simp only [goRight, Res.ok.injEq, Prod.mk.injEq] at hx'
            obtain ⟨rfl, rfl⟩ := hx'
            simp only at hb
            obtain ⟨⟨r1, rs⟩, hr, hb⟩ := Res.bind_eq_ok.1 hb
            obtain ⟨m1, e1, h1, k1⟩ := lastLeft (repC_right.1 h0) hr k
            have hpr : (some e.id = (fcell (some e.id) ⟨.left, .red, np', ep, sibp⟩ (some eg.id)).left) := rfl
            refine ⟨m1, _, ?_, repC_zip.1 h1, hb, k0.trans k1⟩
            rw [hpl] at e0
            refine Eq.trans ?_ e1
            change insertLoop (k + 1 + 1) (some e.id) m = _
            conv_lhs => rw [insertLoop]
            rw [bind_apply, getRoot_apply]
            simp only []
            rw [ite_apply']
            simp only [bind_apply, ite_apply', if_neg hxr, rd_ok nx, rd_ok np, rd_ok ng, fcell_parent, fcell_color, ne_eq,
              not_true_eq_false, if_false, hgr, if_neg hsib, hred, hu, if_pos hpr, pure_apply, Bool.false_eq_true, e0]
          · simp only [reduceCtorEq, if_false, Res.ok.injEq, Prod.mk.injEq] at hx'
            obtain ⟨rfl, rfl⟩ := hx'
            simp only at hb
            obtain ⟨⟨r1, rs⟩, hr, hb⟩ := Res.bind_eq_ok.1 hb
            obtain ⟨m1, e1, h1, k1⟩ := lastLeft hrep hr k
            have hpr : ¬ (some e.id = (fcell (some e.id) ⟨.right, .red, np', ep, sibp⟩ (some eg.id)).left) := hsx
            refine ⟨m1, _, ?_, repC_zip.1 h1, hb, k1⟩
            refine Eq.trans ?_ e1
            change insertLoop (k + 1 + 1) (some e.id) m = _
            conv_lhs => rw [insertLoop]
            rw [bind_apply, getRoot_apply]
            simp only []
            rw [ite_apply']
            simp only [bind_apply, ite_apply', if_neg hxr, rd_ok nx, rd_ok np, rd_ok ng, fcell_parent, fcell_color, ne_eq,
              not_true_eq_false, if_false, hgr, if_neg hsib, hred, hu, if_neg hpr, pure_apply, Bool.false_eq_true]

theorem balanceAfterInsert_ok {m : Mem α} {x : Tree α} {fs : List (Frame α)} {T : Tree α} (hx : x ≠ .nil) (h : RepC m x fs)
    (hb : VectorSet.balanceAfterInsert x fs = .ok T) : ∃ m', balanceAfterInsert (tptr x) m = .ok ((), m') ∧ RepC m' T [] ∧ Kept m m' := by
  have hl := h.length
  obtain ⟨m1, T', e1, h1, h2, k1⟩ := insertLoop_ok fs.length (k := 2 * m.next + 3) (Nat.le_refl _) hx h hb (by omega)
  cases T' with
  | nil => cases h2
  | node c n l e r =>
  cases h2
  obtain ⟨m2, e2, h3, k2⟩ := setColor_ok h1 .black
  have hr : m1.root = some e.id := h1.root
  refine ⟨m2, ?_, h3, k1.trans k2⟩
  simp only [balanceAfterInsert, bind_apply, fuel_apply, e1, getRoot_apply, hr, e2]

end Verif.VectorSet.Heap
