import Verif.VectorSet.PtrRep

/-! # Rotations of a tree in memory -/

namespace Verif.VectorSet.Heap

open QuickList (upd)

variable {α : Type}

theorem repT_set {m : Mem α} {par : Ptr} {t : Tree α} {a : Nat} {c : Cell α} (h : RepT m.node par t) (ha : a ∉ idsT t) : RepT (m.set a c).node par t :=
  h.congr fun i hi => by
    simp only [set_node]; rw [if_neg]; rintro rfl; contradiction

theorem repF_set {m : Mem α} {p : Ptr} {fs : List (Frame α)} {a : Nat} {c : Cell α} (h : RepF m.node p fs) (ha : a ∉ idsF fs) : RepF (m.set a c).node p fs :=
  h.congr fun i hi => by
    simp only [set_node]; rw [if_neg]; rintro rfl; contradiction

theorem reparent_ok {m : Mem α} {b : Tree α} {par q : Ptr} (hb : RepT m.node par b) (hn : (idsT b).Nodup) :
    ∃ m', reparent (tptr b) q m = .ok ((), m') ∧ RepT m'.node q b ∧ (∀ i, i ∉ idsT b → m'.node i = m.node i) ∧ m'.root = m.root ∧ Kept m m' := by
  cases b with
  | nil => exact ⟨m, by simp [reparent, tptr], trivial, fun _ _ => rfl, rfl, Kept.refl m⟩
  | node c n l e r =>
    obtain ⟨h1, h2, h3⟩ := hb
    simp only [idsT, List.nodup_cons, List.mem_append, not_or] at hn
    refine ⟨m.set e.id ⟨q, tptr l, tptr r, c, n, e.val⟩, by simp [reparent, tptr, wr, h1], ⟨by simp, repT_set h2 hn.1.1, repT_set h3 hn.1.2⟩, ?_, rfl, Kept.set h1⟩
    intro i hi
    simp only [set_node]
    rw [if_neg]
    rintro rfl
    exact hi (by simp [idsT])

theorem replaceChild_ok {m : Mem α} {x : Nat} {q : Ptr} {cx : Cell α} {fs : List (Frame α)} (hx : m.node x = some cx) (hp : cx.parent = pptr fs)
    (hf : RepF m.node (some x) fs) (hn : (idsF fs).Nodup) (hxf : x ∉ idsF fs) (hr : m.root = topPtr (some x) fs) :
    ∃ m', replaceChild (some x) q m = .ok ((), m') ∧ RepF m'.node q fs ∧ (∀ i, i ∉ idsF fs → m'.node i = m.node i) ∧ m'.root = topPtr q fs ∧ Kept m m' := by
  cases fs with
  | nil =>
    exact ⟨{ m with root := q }, by simp [replaceChild, rd, hx, hp, pptr], trivial, fun _ _ => rfl, rfl, Kept.setRoot m q⟩
  | cons f fs =>
    obtain ⟨s, c, n, e, sib⟩ := f
    obtain ⟨h1, h2, h3⟩ := hf
    simp only [idsF, List.nodup_cons, List.mem_append, not_or] at hn
    simp only [idsF, List.mem_cons, List.mem_append, not_or] at hxf
    simp only at h1
    cases s
    · simp only [fcell] at h1
      refine ⟨m.set e.id ⟨pptr fs, q, tptr sib, c, n, e.val⟩, ?_, ⟨by simp [fcell], repT_set h2 hn.1.1, repF_set h3 hn.1.2⟩, ?_, by simpa [topPtr] using hr, Kept.set h1⟩
      · simp [replaceChild, rd, wr, hx, hp, pptr, h1]
      · intro i hi
        simp only [set_node]
        rw [if_neg]
        rintro rfl
        exact hi (by simp [idsF])
    · simp only [fcell] at h1
      have hne : some x ≠ tptr sib := by
        intro he
        exact hxf.2.1 (tptr_mem he.symm)
      refine ⟨m.set e.id ⟨pptr fs, tptr sib, q, c, n, e.val⟩, ?_, ⟨by simp [fcell], repT_set h2 hn.1.1, repF_set h3 hn.1.2⟩, ?_, by simpa [topPtr] using hr, Kept.set h1⟩
      · simp [replaceChild, rd, wr, hx, hp, pptr, h1, hne]
      · intro i hi
        simp only [set_node]
        rw [if_neg]
        rintro rfl
        exact hi (by simp [idsF])

theorem topPtr_some {p : Ptr} {x y : Ptr} (f : Frame α) (fs : List (Frame α)) (h : p = topPtr x (f :: fs)) : p = topPtr y (f :: fs) := h

theorem rotateLeft_ok {m : Mem α} {t : Tree α} {fs : List (Frame α)} {cur : Cursor α} (h : RepC m t fs) (hr : VectorSet.rotateLeft (t, fs) = .ok cur) :
    ∃ m', rotateLeft (tptr t) m = .ok ((), m') ∧ RepC m' cur.1 cur.2 ∧ Kept m m' := by
  match t, h, hr with
  | .node cx nx a ex (.node cy ny b ey c), h, hr =>
    simp only [VectorSet.rotateLeft] at hr
    obtain ⟨⟨x', fs'⟩, hu, hr⟩ := Res.bind_eq_ok.1 hr
    cases fs' with
    | nil => simp at hr
    | cons y fs'' =>
      simp only [Res.ok.injEq] at hr
      subst hr
      have hlen := h.length
      obtain ⟨⟨h1, h2, h3, h4, h5⟩, h6, h7, h8, h9⟩ := h
      have hn := h8
      simp only [idsT, List.cons_append, List.append_assoc, List.nodup_cons, List.mem_cons, List.mem_append, List.nodup_append, not_or, tptr_node] at hn h6 h1
      obtain ⟨⟨xa, xy, xb, xc, xf⟩, na, ⟨⟨yb, yc, yf⟩, nb, ⟨nc, nf, cf⟩, bcf⟩, ay⟩ := hn
      have ay' : ey.id ∉ idsT a := fun hm => ay _ hm _ (Or.inl rfl) rfl
      have ab : ∀ i ∈ idsT a, i ∉ idsT b := fun i hi hm => ay _ hi _ (Or.inr (Or.inl hm)) rfl
      have af : ∀ i ∈ idsT a, i ∉ idsF fs := fun i hi hm => ay _ hi _ (Or.inr (Or.inr (Or.inr hm))) rfl
      have bc : ∀ i ∈ idsT c, i ∉ idsT b := fun i hi hm => bcf _ hm _ (Or.inl hi) rfl
      have bf : ∀ i ∈ idsT b, i ∉ idsF fs := fun i hi hm => bcf _ hi _ (Or.inr hm) rfl
      have cf' : ∀ i ∈ idsT c, i ∉ idsF fs := fun i hi hm => cf _ hi _ hm rfl
      -- x->right = y->left
      let m1 := m.set ex.id ⟨pptr fs, tptr a, tptr b, cx, nx, ex.val⟩
      have k1 : Kept m m1 := Kept.set h1
      -- y->left->parent = x
      obtain ⟨m2, e2, t2, o2, r2, k2⟩ := reparent_ok (m := m1) (q := some ex.id) (repT_set h4 xb) nb
      have n2x : m2.node ex.id = some ⟨pptr fs, tptr a, tptr b, cx, nx, ex.val⟩ := by rw [o2 _ xb]; simp [m1]
      have n2y : m2.node ey.id = some ⟨some ex.id, tptr b, tptr c, cy, ny, ey.val⟩ := by rw [o2 _ yb]; simp [m1, Ne.symm xy, h3]
      -- y->parent = x->parent
      let m3 := m2.set ey.id ⟨pptr fs, tptr b, tptr c, cy, ny, ey.val⟩
      have k3 : Kept m2 m3 := Kept.set n2y
      have n3x : m3.node ex.id = some ⟨pptr fs, tptr a, tptr b, cx, nx, ex.val⟩ := by simp [m3, xy, n2x]
      have f3 : RepF m3.node (some ex.id) fs := by
        refine repF_set ?_ yf
        refine h6.congr fun i hi => ?_
        rw [o2 _ (fun hb => bf _ hb hi)]
        simp only [m1, set_node]; rw [if_neg]; rintro rfl; exact xf hi
      -- the parent of x
      obtain ⟨m4, e4, f4, o4, r4, k4⟩ := replaceChild_ok (m := m3) (q := some ey.id) n3x rfl f3 nf xf (by rw [show m3.root = m2.root from rfl, r2]; exact h7)
      have n4x : m4.node ex.id = some ⟨pptr fs, tptr a, tptr b, cx, nx, ex.val⟩ := by rw [o4 _ xf, n3x]
      have n4y : m4.node ey.id = some ⟨pptr fs, tptr b, tptr c, cy, ny, ey.val⟩ := by rw [o4 _ yf]; simp [m3]
      -- y->left = x, x->parent = y
      let m5 := m4.set ey.id ⟨pptr fs, some ex.id, tptr c, cy, ny, ey.val⟩
      have k5 : Kept m4 m5 := Kept.set n4y
      have n5x : m5.node ex.id = some ⟨pptr fs, tptr a, tptr b, cx, nx, ex.val⟩ := by simp [m5, xy, n4x]
      let m6 := m5.set ex.id ⟨some ey.id, tptr a, tptr b, cx, nx, ex.val⟩
      have k6 : Kept m5 m6 := Kept.set n5x
      have kk : Kept m m6 := k1.trans (k2.trans (k3.trans (k4.trans (k5.trans k6))))
      have out : ∀ i, i ≠ ex.id → i ≠ ey.id → i ∉ idsT b → i ∉ idsF fs → m6.node i = m.node i := by
        intro i i1 i2 i3 i4
        simp only [m6, m5, set_node, i1, i2, if_false]
        rw [o4 _ i4]
        simp only [m3, set_node, i2, if_false]
        rw [o2 _ i3]
        simp [m1, i1]
      have rep : RepC m6 (.node cx nx a ex b) (⟨.left, cy, ny, ey, c⟩ :: fs) := by
        refine ⟨⟨by simp [m6, pptr], ?_, ?_⟩, ⟨?_, ?_, ?_⟩, ?_, ?_, ?_⟩
        · exact h2.congr fun i hi => out i (by rintro rfl; exact xa hi) (by rintro rfl; exact ay' hi) (ab i hi) (af i hi)
        · refine t2.congr fun i hi => ?_
          have i1 : i ≠ ex.id := by rintro rfl; exact xb hi
          have i2 : i ≠ ey.id := by rintro rfl; exact yb hi
          simp only [m6, m5, set_node, i1, i2, if_false]
          rw [o4 _ (bf i hi)]
          simp [m3, i2]
        · have : ey.id ≠ ex.id := Ne.symm xy
          simp [m6, m5, this, fcell, tptr]
        · refine h5.congr fun i hi => out i (by rintro rfl; exact xc hi) (by rintro rfl; exact yc hi) (bc i hi) (cf' i hi)
        · exact repF_set (repF_set f4 yf) xf
        · show m4.root = _
          rw [r4]; rfl
        · refine List.Perm.nodup_iff ?_ |>.1 h8
          simp only [idsT, idsF, List.cons_append, List.append_assoc]
          refine List.Perm.cons _ (List.Perm.append_left _ ?_)
          exact (List.perm_middle).symm
        · intro i hi
          rw [kk.next]
          apply h9
          simp only [idsT, idsF, List.cons_append, List.append_assoc, List.mem_cons, List.mem_append] at hi ⊢
          tauto
      obtain ⟨m7, e7, rep7, k7⟩ := updateCount_ok rep hu (2 * m6.next + 3) (by
        rw [kk.next]; simp only [List.length_cons]; simp only [idsT, List.length_cons] at hlen; omega)
      refine ⟨m7, ?_, repC_plug.1 rep7, kk.trans k7⟩
      have e7' : updateCount (2 * m6.next + 3) (some ex.id) m6 = .ok ((), m7) := e7
      simp only [rotateLeft, tptr_node, bind_apply, rd_ok h1, rd_ok h3, wr_ok _ h1]
      have n1y : m1.node ey.id = some ⟨some ex.id, tptr b, tptr c, cy, ny, ey.val⟩ := by simp [m1, Ne.symm xy, h3]
      rw [show m.set ex.id _ = m1 from rfl]
      simp only [rd_ok n1y, e2, rd_ok n2x, wr_ok _ n2y]
      rw [show m2.set ey.id _ = m3 from rfl]
      simp only [e4, wr_ok _ n4y]
      rw [show m4.set ey.id _ = m5 from rfl]
      simp only [wr_ok _ n5x]
      rw [show m5.set ex.id _ = m6 from rfl]
      simp only [fuel_apply, e7']

theorem rotateRight_ok {m : Mem α} {t : Tree α} {fs : List (Frame α)} {cur : Cursor α} (h : RepC m t fs) (hr : VectorSet.rotateRight (t, fs) = .ok cur) :
    ∃ m', rotateRight (tptr t) m = .ok ((), m') ∧ RepC m' cur.1 cur.2 ∧ Kept m m' := by
  match t, h, hr with
  | .node cx nx (.node cy ny c ey b) ex a, h, hr =>
    simp only [VectorSet.rotateRight] at hr
    obtain ⟨⟨x', fs'⟩, hu, hr⟩ := Res.bind_eq_ok.1 hr
    cases fs' with
    | nil => simp at hr
    | cons y fs'' =>
      simp only [Res.ok.injEq] at hr
      subst hr
      have hlen := h.length
      obtain ⟨⟨h1, ⟨h3, h5, h4⟩, h2⟩, h6, h7, h8, h9⟩ := h
      have hn := h8
      simp only [idsT, List.cons_append, List.append_assoc, List.nodup_cons, List.mem_cons, List.mem_append, List.nodup_append, not_or, tptr_node] at hn h6 h1
      obtain ⟨⟨xy, xc, xb, xa, xf⟩, ⟨yc, yb, ya, yf⟩, nc, ⟨nb, ⟨na, nf, af0⟩, baf⟩, cbaf⟩ := hn
      have ay' : ey.id ∉ idsT a := ya
      have ab : ∀ i ∈ idsT a, i ∉ idsT b := fun i hi hm => baf _ hm _ (Or.inl hi) rfl
      have af : ∀ i ∈ idsT a, i ∉ idsF fs := fun i hi hm => af0 _ hi _ hm rfl
      have bc : ∀ i ∈ idsT c, i ∉ idsT b := fun i hi hm => cbaf _ hi _ (Or.inl hm) rfl
      have bf : ∀ i ∈ idsT b, i ∉ idsF fs := fun i hi hm => baf _ hi _ (Or.inr hm) rfl
      have cf' : ∀ i ∈ idsT c, i ∉ idsF fs := fun i hi hm => cbaf _ hi _ (Or.inr (Or.inr hm)) rfl
      -- x->left = y->right
      let m1 := m.set ex.id ⟨pptr fs, tptr b, tptr a, cx, nx, ex.val⟩
      have k1 : Kept m m1 := Kept.set h1
      -- y->right->parent = x
      obtain ⟨m2, e2, t2, o2, r2, k2⟩ := reparent_ok (m := m1) (q := some ex.id) (repT_set h4 xb) nb
      have n2x : m2.node ex.id = some ⟨pptr fs, tptr b, tptr a, cx, nx, ex.val⟩ := by rw [o2 _ xb]; simp [m1]
      have n2y : m2.node ey.id = some ⟨some ex.id, tptr c, tptr b, cy, ny, ey.val⟩ := by rw [o2 _ yb]; simp [m1, Ne.symm xy, h3]
      -- y->parent = x->parent
      let m3 := m2.set ey.id ⟨pptr fs, tptr c, tptr b, cy, ny, ey.val⟩
      have k3 : Kept m2 m3 := Kept.set n2y
      have n3x : m3.node ex.id = some ⟨pptr fs, tptr b, tptr a, cx, nx, ex.val⟩ := by simp [m3, xy, n2x]
      have f3 : RepF m3.node (some ex.id) fs := by
        refine repF_set ?_ yf
        refine h6.congr fun i hi => ?_
        rw [o2 _ (fun hb => bf _ hb hi)]
        simp only [m1, set_node]; rw [if_neg]; rintro rfl; exact xf hi
      -- the parent of x
      obtain ⟨m4, e4, f4, o4, r4, k4⟩ := replaceChild_ok (m := m3) (q := some ey.id) n3x rfl f3 nf xf (by rw [show m3.root = m2.root from rfl, r2]; exact h7)
      have n4x : m4.node ex.id = some ⟨pptr fs, tptr b, tptr a, cx, nx, ex.val⟩ := by rw [o4 _ xf, n3x]
      have n4y : m4.node ey.id = some ⟨pptr fs, tptr c, tptr b, cy, ny, ey.val⟩ := by rw [o4 _ yf]; simp [m3]
      -- y->right = x, x->parent = y
      let m5 := m4.set ey.id ⟨pptr fs, tptr c, some ex.id, cy, ny, ey.val⟩
      have k5 : Kept m4 m5 := Kept.set n4y
      have n5x : m5.node ex.id = some ⟨pptr fs, tptr b, tptr a, cx, nx, ex.val⟩ := by simp [m5, xy, n4x]
      let m6 := m5.set ex.id ⟨some ey.id, tptr b, tptr a, cx, nx, ex.val⟩
      have k6 : Kept m5 m6 := Kept.set n5x
      have kk : Kept m m6 := k1.trans (k2.trans (k3.trans (k4.trans (k5.trans k6))))
      have out : ∀ i, i ≠ ex.id → i ≠ ey.id → i ∉ idsT b → i ∉ idsF fs → m6.node i = m.node i := by
        intro i i1 i2 i3 i4
        simp only [m6, m5, set_node, i1, i2, if_false]
        rw [o4 _ i4]
        simp only [m3, set_node, i2, if_false]
        rw [o2 _ i3]
        simp [m1, i1]
      have rep : RepC m6 (.node cx nx b ex a) (⟨.right, cy, ny, ey, c⟩ :: fs) := by
        refine ⟨⟨by simp [m6, pptr], ?_, ?_⟩, ⟨?_, ?_, ?_⟩, ?_, ?_, ?_⟩
        · refine t2.congr fun i hi => ?_
          have i1 : i ≠ ex.id := by rintro rfl; exact xb hi
          have i2 : i ≠ ey.id := by rintro rfl; exact yb hi
          simp only [m6, m5, set_node, i1, i2, if_false]
          rw [o4 _ (bf i hi)]
          simp [m3, i2]
        · exact h2.congr fun i hi => out i (by rintro rfl; exact xa hi) (by rintro rfl; exact ay' hi) (ab i hi) (af i hi)
        · have : ey.id ≠ ex.id := Ne.symm xy
          simp [m6, m5, this, fcell, tptr]
        · refine h5.congr fun i hi => out i (by rintro rfl; exact xc hi) (by rintro rfl; exact yc hi) (bc i hi) (cf' i hi)
        · exact repF_set (repF_set f4 yf) xf
        · show m4.root = _
          rw [r4]; rfl
        · refine List.Perm.nodup_iff ?_ |>.1 h8
          simp only [idsT, idsF, List.cons_append, List.append_assoc]
          refine List.perm_iff_count.2 fun x => ?_
          simp only [List.count_append, List.count_cons]
          omega
        · intro i hi
          rw [kk.next]
          apply h9
          simp only [idsT, idsF, List.cons_append, List.append_assoc, List.mem_cons, List.mem_append] at hi ⊢
          tauto
      obtain ⟨m7, e7, rep7, k7⟩ := updateCount_ok rep hu (2 * m6.next + 3) (by
        rw [kk.next]; simp only [List.length_cons]; simp only [idsT, List.length_cons] at hlen; omega)
      refine ⟨m7, ?_, repC_plug.1 rep7, kk.trans k7⟩
      have e7' : updateCount (2 * m6.next + 3) (some ex.id) m6 = .ok ((), m7) := e7
      simp only [rotateRight, tptr_node, bind_apply, rd_ok h1, rd_ok h3, wr_ok _ h1]
      have n1y : m1.node ey.id = some ⟨some ex.id, tptr c, tptr b, cy, ny, ey.val⟩ := by simp [m1, Ne.symm xy, h3]
      rw [show m.set ex.id _ = m1 from rfl]
      simp only [rd_ok n1y, e2, rd_ok n2x, wr_ok _ n2y]
      rw [show m2.set ey.id _ = m3 from rfl]
      simp only [e4, wr_ok _ n4y]
      rw [show m4.set ey.id _ = m5 from rfl]
      simp only [wr_ok _ n5x]
      rw [show m5.set ex.id _ = m6 from rfl]
      simp only [fuel_apply, e7']

end Verif.VectorSet.Heap
