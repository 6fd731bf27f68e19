import Verif.VectorSet.PtrErase

/-!
# `CopyFrom` and `RemoveNode` on nodes in memory

`y` takes the place of `z` (Awl/VectorSet.h:129-162, 1064-1070), and with it `RemoveNode` (Awl/VectorSet.h:1036-1082).
-/

namespace Verif.VectorSet.Heap

open Verif.VectorSet (Tree Elem Color Side Frame Cursor plug zip updPath SamePath updPath_same onlyChild unlink)

variable {α : Type}

theorem replaceBelow_ok {m : Mem α} {e y : Nat} {ce : Cell α} {n : Nat} {fs : List (Frame α)} (he : m.node e = some ce) (hpar : ce.parent = pptr fs)
    (hf : RepF m.node (some e) fs) (hn : (idsF fs).Nodup) (hef : e ∉ idsF fs) (hyf : y ∉ idsF fs) (hc : CntAt m (some y) n) (hl : fs.length ≤ m.next) :
    ∃ m', replaceBelow (some y) (some e) m = .ok ((), m') ∧ RepF m'.node (some y) (updPath n fs) ∧ (∀ i, i ∉ idsF fs → m'.node i = m.node i) ∧
      m'.root = m.root ∧ Kept m m' := by
  cases fs with
  | nil =>
    refine ⟨m, ?_, trivial, fun _ _ => rfl, rfl, Kept.refl m⟩
    rw [replaceBelow, bind_apply, rd_ok he]
    simp only []
    rw [ite_apply', if_neg (by simp [hpar, pptr])]
    rfl
  | cons f fs =>
    have hpar' : ce.parent = some f.elem.id := hpar
    obtain ⟨m', u1, u2, u3, u4, u5⟩ := setChild_ok hf hn (q := some y) (fun a ha => by cases ha; exact hyf) hc (by simp only [List.length_cons] at hl; omega)
    refine ⟨m', ?_, u2, u3, u4, u5⟩
    obtain ⟨s, cf, nf, ef, sib⟩ := f
    have hfc := hf.1
    have hse : ¬ (tptr sib = some e) := by
      intro he
      apply hef
      simp [idsF, tptr_mem he]
    rw [replaceBelow, bind_apply, rd_ok he]
    simp only []
    rw [ite_apply', if_pos (by simp [hpar']), bind_apply, rd_ok he]
    simp only []
    rw [hpar', bind_apply, rd_ok hfc]
    simp only []
    cases s
    · rw [ite_apply', if_pos (by simp [fcell]), bind_apply, rd_ok he]
      simp only [hpar']
      exact u1
    · rw [ite_apply', if_neg (by simpa [fcell] using hse), bind_apply, rd_ok he]
      simp only [hpar']
      exact u1

theorem takePlace_ok {m : Mem α} {c : Color} {n : Nat} {l r : Tree α} {e : Elem α} {fs : List (Frame α)} {y : Nat} {cy : Cell α}
    (h : RepC m (.node c n l e r) fs) (hy : m.node y = some cy) (hyn : y ∉ idsT (.node c n l e r) ++ idsF fs) (hyl : y < m.next) :
    ∃ m', takePlace (some y) (some e.id) m = .ok ((), m') ∧
      RepC m' (.node c n l ⟨y, cy.value⟩ r) (updPath (n + 1) (updPath (n + 1) fs)) ∧ Kept m m' := by
  have hz := h.cell
  have hlen := h.length
  have hlt := h.lt
  have hnd := h.nodup
  have hroot := h.root
  have hnr := @RepC.ne_root α m c n l r e
  obtain ⟨⟨_, hl, hr⟩, hf, _, _, _⟩ := id h
  rw [tptr_node] at hf hroot
  simp only [idsT, List.cons_append, List.append_assoc, List.nodup_cons, List.mem_append, List.mem_cons, not_or] at hnd hyn
  obtain ⟨⟨hel, her, hef⟩, hnd⟩ := hnd
  obtain ⟨hye, hyl', hyr, hyf⟩ := hyn
  have hnd0 := hnd
  rw [List.nodup_append] at hnd
  obtain ⟨hnl, hnd, dl⟩ := hnd
  rw [List.nodup_append] at hnd
  obtain ⟨hnr', hnf, dr⟩ := hnd
  have dlr : ∀ i ∈ idsT l, i ∉ idsT r := fun i hi hi' => dl i hi i (by simp [hi']) rfl
  have dlf : ∀ i ∈ idsT l, i ∉ idsF fs := fun i hi hi' => dl i hi i (by simp [hi']) rfl
  have drf : ∀ i ∈ idsT r, i ∉ idsF fs := fun i hi hi' => dr i hi i hi' rfl
  have hlenF : fs.length ≤ m.next := by
    have := length_idsF fs
    simp only [idsT, List.length_cons, List.length_append] at hlen
    omega
  have hey : e.id ≠ y := fun hh => hye hh.symm
  -- the counter
  have w1 := wr_ok (fun c => { c with count := n }) hy
  have n1 : ∀ i, i ≠ y → (m.set y { cy with count := n }).node i = m.node i := fun i hi => by simp [hi]
  have y1 : (m.set y { cy with count := n }).node y = some { cy with count := n } := by simp
  have k1 : Kept m (m.set y { cy with count := n }) := Kept.set hy
  have r1 : (m.set y { cy with count := n }).root = m.root := rfl
  generalize m.set y { cy with count := n } = m1 at *
  -- the left child
  have hl1 : RepT m1.node (some e.id) l := hl.congr fun i hi => n1 i fun hh => hyl' (hh ▸ hi)
  obtain ⟨m2, e2, t2, n2, r2, k2⟩ := reparent_ok hl1 hnl (q := some y)
  have y2 : m2.node y = some { cy with count := n } := by rw [n2 _ hyl', y1]
  have w2 := wr_ok (fun c => { c with left := tptr l }) y2
  have n3 : ∀ i, i ≠ y → (m2.set y { cy with count := n, left := tptr l }).node i = m2.node i := fun i hi => by simp [hi]
  have y3 : (m2.set y { cy with count := n, left := tptr l }).node y = some { cy with count := n, left := tptr l } := by simp
  have k3 : Kept m2 (m2.set y { cy with count := n, left := tptr l }) := Kept.set y2
  have r3 : (m2.set y { cy with count := n, left := tptr l }).root = m2.root := rfl
  simp only [] at w2
  generalize m2.set y { cy with count := n, left := tptr l } = m3 at *
  -- the right child
  have hr3 : RepT m3.node (some e.id) r := hr.congr fun i hi => by
    rw [n3 i (fun hh => hyr (hh ▸ hi)), n2 i (fun hh => dlr i hh hi), n1 i (fun hh => hyr (hh ▸ hi))]
  obtain ⟨m4, e4, t4, n4, r4, k4⟩ := reparent_ok hr3 hnr' (q := some y)
  have y4 : m4.node y = some { cy with count := n, left := tptr l } := by rw [n4 _ hyr, y3]
  have w4 := wr_ok (fun c => { c with right := tptr r }) y4
  have n5 : ∀ i, i ≠ y → (m4.set y { cy with count := n, left := tptr l, right := tptr r }).node i = m4.node i := fun i hi => by simp [hi]
  have y5 : (m4.set y { cy with count := n, left := tptr l, right := tptr r }).node y = some { cy with count := n, left := tptr l, right := tptr r } := by simp
  have k5 : Kept m4 (m4.set y { cy with count := n, left := tptr l, right := tptr r }) := Kept.set y4
  have r5 : (m4.set y { cy with count := n, left := tptr l, right := tptr r }).root = m4.root := rfl
  simp only [] at w4
  generalize m4.set y { cy with count := n, left := tptr l, right := tptr r } = m5 at *
  have z1 : m1.node e.id = m.node e.id := n1 _ hey
  have z2 : m2.node e.id = m.node e.id := by rw [n2 _ hel, z1]
  have z3 : m3.node e.id = m.node e.id := by rw [n3 _ hey, z2]
  have z4 : m4.node e.id = m.node e.id := by rw [n4 _ her, z3]
  have z5 : m5.node e.id = m.node e.id := by rw [n5 _ hey, z4]
  have f5 : RepF m5.node (some e.id) fs := hf.congr fun i hi => by
    rw [n5 i (fun hh => hyf (hh ▸ hi)), n4 i (fun hh => drf i hh hi), n3 i (fun hh => hyf (hh ▸ hi)), n2 i (fun hh => dlf i hh hi), n1 i (fun hh => hyf (hh ▸ hi))]
  have l5 : RepT m5.node (some y) l := t2.congr fun i hi => by
    rw [n5 i (fun hh => hyl' (hh ▸ hi)), n4 i (dlr i hi), n3 i (fun hh => hyl' (hh ▸ hi))]
  have rr5 : RepT m5.node (some y) r := t4.congr fun i hi => n5 i (fun hh => hyr (hh ▸ hi))
  have k05 : Kept m m5 := ((((k1.trans k2).trans k3).trans k4).trans k5)
  have hz5 := z5.trans hz
  -- below the parent
  obtain ⟨m6, e6, f6, n6, r6, k6⟩ := replaceBelow_ok hz5 rfl f5 hnf hef hyf (n := n + 1) ⟨_, y5, rfl⟩ (by rw [k05.next]; exact hlenF)
  have y6 := (n6 y hyf).trans y5
  have z6 := (n6 e.id hef).trans hz5
  -- the colour
  have w6 := wr_ok (fun cc => { cc with color := c }) y6
  simp only [] at w6
  have y7 : (m6.set y { cy with count := n, left := tptr l, right := tptr r, color := c }).node y = some { cy with count := n, left := tptr l, right := tptr r, color := c } := by simp
  have n7 : ∀ i, i ≠ y → (m6.set y { cy with count := n, left := tptr l, right := tptr r, color := c }).node i = m6.node i := fun i hi => by simp [hi]
  have k7 : Kept m6 (m6.set y { cy with count := n, left := tptr l, right := tptr r, color := c }) := Kept.set y6
  have r7 : (m6.set y { cy with count := n, left := tptr l, right := tptr r, color := c }).root = m6.root := rfl
  generalize m6.set y { cy with count := n, left := tptr l, right := tptr r, color := c } = m7 at *
  have hs1 := updPath_same (n + 1) fs
  have hi1 := idsF_same hs1
  have hp1 := pptr_same hs1
  have f7 : RepF m7.node (some y) (updPath (n + 1) fs) := f6.congr fun i hi => n7 i fun hh => hyf (by rw [hi1] at hi; exact hh ▸ hi)
  have k07 : Kept m m7 := (k05.trans k6).trans k7
  obtain ⟨m8, e8, f8, y8, n8, r8, k8⟩ := setParent_ok y7 f7 (by rw [hi1]; exact hnf) (by rw [hi1]; exact hyf) (fun a ha => by cases ha; rw [hi1]; exact hyf) (n := n + 1)
    ⟨_, y7, rfl⟩ (by rw [k07.next, hs1.length]; exact hlenF)
  rw [hi1] at n8
  rw [hp1] at e8 y8
  have hs2 := (updPath_same (n + 1) (updPath (n + 1) fs)).trans hs1
  have k08 : Kept m m8 := k07.trans k8
  have hroot8 : m8.root = m.root := by rw [r8, r7, r6, r5, r4, r3, r2, r1]
  have l8 : RepT m8.node (some y) l := l5.congr fun i hi => by
    have hiy : i ≠ y := fun hh => hyl' (hh ▸ hi)
    rw [n8 i (dlf i hi) hiy, n7 i hiy, n6 i (dlf i hi)]
  have rr8 : RepT m8.node (some y) r := rr5.congr fun i hi => by
    have hiy : i ≠ y := fun hh => hyr (hh ▸ hi)
    rw [n8 i (drf i hi) hiy, n7 i hiy, n6 i (drf i hi)]
  have hcopy : copyFrom (some y) (some e.id) m = .ok ((), m8) := by
    rw [copyFrom, bind_apply, rd_ok hz]; simp only []
    rw [bind_apply, w1]; simp only []
    rw [bind_apply, rd_ok (z1.trans hz)]; simp only []
    rw [bind_apply, e2]; simp only []
    rw [bind_apply, rd_ok (z2.trans hz)]; simp only []
    rw [bind_apply, w2]; simp only []
    rw [bind_apply, rd_ok (z3.trans hz)]; simp only []
    rw [bind_apply, e4]; simp only []
    rw [bind_apply, rd_ok (z4.trans hz)]; simp only []
    rw [bind_apply, w4]; simp only []
    rw [bind_apply, e6]; simp only []
    rw [bind_apply, rd_ok z6]; simp only []
    rw [bind_apply, setColor, w6]; simp only []
    rw [bind_apply, rd_ok ((n7 _ hey).trans z6)]
    exact e8
  have hperm : y ∉ idsT l ++ (idsT r ++ idsF fs) := by simp [hyl', hyr, hyf]
  have hnd' : (idsT (.node c n l ⟨y, cy.value⟩ r) ++ idsF (updPath (n + 1) (updPath (n + 1) fs))).Nodup := by
    rw [idsF_same hs2]
    simp only [idsT, List.cons_append, List.append_assoc, List.nodup_cons]
    exact ⟨hperm, hnd0⟩
  have hlt' : ∀ i ∈ idsT (.node c n l ⟨y, cy.value⟩ r) ++ idsF (updPath (n + 1) (updPath (n + 1) fs)), i < m.next := by
    rw [idsF_same hs2]
    intro i hi
    simp only [idsT, List.cons_append, List.append_assoc, List.mem_cons] at hi
    rcases hi with rfl | hi
    · exact hyl
    · exact hlt i (by simp only [idsT, List.cons_append, List.append_assoc, List.mem_cons]; exact Or.inr hi)
  have htake : takePlace (some y) (some e.id) m = (if some e.id = m8.root then setRoot (some y) else pure ()) m8 := by
    rw [takePlace, ite_apply', if_pos (by simpa using hye), bind_apply, hcopy]; simp only []
    rw [bind_apply, getRoot_apply]
  rw [htake, ite_apply', hroot8]
  cases fs with
  | nil =>
    have hr0 : m.root = some e.id := hroot
    rw [if_pos hr0.symm]
    exact ⟨{ m8 with root := some y }, rfl, ⟨⟨by rw [y8]; rfl, l8, rr8⟩, f8, rfl, hnd', fun i hi => by
      show i < m8.next
      rw [k08.next]; exact hlt' i hi⟩, k08.trans (Kept.setRoot _ _)⟩
  | cons f fs =>
    rw [if_neg (hnr h)]
    refine ⟨m8, rfl, ⟨⟨?_, l8, rr8⟩, f8, ?_, hnd', fun i hi => by rw [k08.next]; exact hlt' i hi⟩, k08⟩
    · rw [y8, pptr_same hs2]
    · rw [hroot8, hroot, topPtr_same _ hs2]
      rfl

/-! ## `RemoveNode` -/

theorem repC_append {m : Mem α} {t : Tree α} {gs fs : List (Frame α)} : RepC m t (gs ++ fs) ↔ RepC m (zip t gs) fs := by
  induction gs generalizing t with
  | nil => rfl
  | cons g gs ih => rw [List.cons_append, repC_plug, ih]; rfl

theorem ids_plug {t : Tree α} {f : Frame α} {fs : List (Frame α)} {i : Nat} :
    i ∈ idsT (plug t f) ++ idsF fs ↔ i ∈ idsT t ++ idsF (f :: fs) := by
  obtain ⟨s, c, n, e, sib⟩ := f
  cases s <;> simp only [plug, idsT, idsF, List.mem_append, List.mem_cons] <;> tauto

theorem ids_append {t : Tree α} {gs fs : List (Frame α)} {i : Nat} :
    i ∈ idsT (zip t gs) ++ idsF fs ↔ i ∈ idsT t ++ idsF (gs ++ fs) := by
  induction gs generalizing t with
  | nil => rfl
  | cons g gs ih => rw [List.cons_append, ← ids_plug, ← ih]; rfl

theorem replaceFrame_append {y : Elem α} {gs fs : List (Frame α)} {f : Frame α} :
    VectorSet.replaceFrame y gs.length (gs ++ f :: fs) = .ok (gs ++ { f with elem := y } :: updPath (f.count + 1) (updPath (f.count + 1) fs)) := by
  induction gs with
  | nil => rfl
  | cons g gs ih =>
    simp only [List.length_cons, List.cons_append, VectorSet.replaceFrame, ih]
    rfl

theorem leftmostCursor_shape {t : Tree α} {fs : List (Frame α)} {cur : Cursor α} (h : VectorSet.leftmostCursor t fs = .ok cur) :
    ∃ c n e r gs, cur = (.node c n .nil e r, gs ++ fs) := by
  induction t generalizing fs with
  | nil => cases h
  | node c n l e r ihl _ =>
    cases l with
    | nil => cases h; exact ⟨c, n, e, r, [], rfl⟩
    | node =>
      obtain ⟨c', n', e', r', gs, rfl⟩ := ihl h
      exact ⟨c', n', e', r', gs ++ [_], by simp; rfl⟩

theorem rebalance_ok {m : Mem α} {x : Tree α} {xs : List (Frame α)} {y : Nat} {cy : Cell α} {T : Tree α} (h : RepC m x xs) (hy : m.node y = some cy)
    (hT : VectorSet.removeEnd cy.color x xs = .ok T) : ∃ m', rebalance (tptr x) (some y) m = .ok ((), m') ∧ RepC m' T [] ∧ Kept m m' := by
  rw [rebalance, bind_apply, rd_ok hy]
  simp only []
  rw [ite_apply']
  cases x with
  | nil =>
    cases hT
    exact ⟨m, by rw [if_neg (by simp [tptr_nil])]; rfl, repC_zip.1 h, Kept.refl m⟩
  | node c n l e r =>
    simp only [VectorSet.removeEnd] at hT
    split at hT
    · rename_i hb
      rw [if_pos ⟨hb, by simp [tptr_node]⟩]
      exact balanceAfterRemove_ok (by simp) h hT
    · rename_i hb
      cases hT
      exact ⟨m, by rw [if_neg (by simp [hb])]; rfl, repC_zip.1 h, Kept.refl m⟩

theorem removeNode_ok {m : Mem α} {c : Color} {n : Nat} {l r : Tree α} {e : Elem α} {fs : List (Frame α)} {T : Tree α} (h : RepC m (.node c n l e r) fs)
    (hT : VectorSet.removeTree (.node c n l e r, fs) = .ok T) :
    ∃ m', removeNode (some e.id) m = destroyNode (some e.id) m' ∧ RepC m' T [] ∧ Kept m m' := by
  have hz := h.cell
  by_cases hlr : l = .nil ∨ r = .nil
  · have hT' : VectorSet.removeEnd c (onlyChild l r) (unlink (n + 1) (onlyChild l r) fs).2 = .ok T := by
      rcases hlr with rfl | rfl
      · exact hT
      · cases l <;> exact hT
    obtain ⟨m1, m2, e1, e2, c2, z2, -, -, k2⟩ := unlink_ok h hlr
    obtain ⟨m3, e3, c3, k3⟩ := rebalance_ok c2 (z2.trans hz) hT'
    refine ⟨m3, ?_, c3, k2.trans k3⟩
    have hl0 : leaving (some e.id) m = .ok (some e.id, m) := by
      rw [leaving, bind_apply, rd_ok hz]; simp only []
      rw [bind_apply, rd_ok hz]; simp only []
      rw [ite_apply', if_pos (by rcases hlr with rfl | rfl <;> simp [tptr_nil])]
      rfl
    rw [removeNode, bind_apply, hl0]; simp only []
    rw [bind_apply, childOf_ok h.tree]; simp only []
    rw [bind_apply, e1]; simp only []
    rw [bind_apply, e2]; simp only []
    rw [bind_apply, takePlace, ite_apply', if_neg (by simp)]
    rw [show (pure () : M α Unit) m2 = .ok ((), m2) from rfl]; simp only []
    rw [bind_apply, e3]
  · simp only [not_or] at hlr
    obtain ⟨hl, hr⟩ := hlr
    have hT' : (do
        let (y, ys) ← VectorSet.leftmostCursor r (⟨.right, c, n, e, l⟩ :: fs)
        let ((x, xs), cy) ← (match y with
         | .nil => Res.ub
         | .node _ ny ly ey ry => do
           let (x, xs) := unlink (ny + 1) (onlyChild ly ry) ys
           let xs' ← VectorSet.replaceFrame ey (ys.length - fs.length - 1) xs
           Res.ok ((x, xs'), c))
        VectorSet.removeEnd cy x xs) = .ok T := by
      cases l with
      | nil => exact absurd rfl hl
      | node => cases r with
        | nil => exact absurd rfl hr
        | node =>
          rw [← hT]
          simp only [VectorSet.removeTree]
          cases VectorSet.leftmostCursor _ _ <;> rfl
    obtain ⟨⟨y, ys⟩, hlc, hT'⟩ := Res.bind_eq_ok.1 hT'
    obtain ⟨cy, ny, ey, ry, gs, he⟩ := leftmostCursor_shape hlc
    cases he
    have hlen : (gs ++ ⟨.right, c, n, e, l⟩ :: fs).length - fs.length - 1 = gs.length := by simp only [List.length_append, List.length_cons]; omega
    simp only [] at hT'
    rw [hlen] at hT'
    -- the successor
    have hcr : RepC m r (⟨.right, c, n, e, l⟩ :: fs) := repC_right.1 h
    have hfuel : (idsT r).length < 2 * m.next + 3 := by
      have := hcr.length
      omega
    obtain ⟨e0, c0⟩ := goLeftmost_ok hcr hlc hfuel
    simp only [tptr_node] at e0 c0
    have hl0 : leaving (some e.id) m = .ok (some ey.id, m) := by
      rw [leaving, bind_apply, rd_ok hz]; simp only []
      rw [bind_apply, rd_ok hz]; simp only []
      rw [ite_apply', if_neg (by cases l <;> cases r <;> simp_all [tptr_node])]
      rw [getSuccessor, bind_apply, rd_ok hz]; simp only []
      rw [ite_apply', if_pos (by cases r <;> simp_all [tptr_node]), bind_apply, fuel_apply]; simp only []
      rw [bind_apply, rd_ok hz]
      exact e0
    obtain ⟨m1, m2, e1, e2, c2, z2, hn2, sp, k2⟩ := unlink_ok c0 (Or.inl rfl)
    have hx0 : childOf (some ey.id) m = .ok (tptr (onlyChild .nil ry), m) := childOf_ok c0.tree
    generalize hx : onlyChild .nil ry = x at *
    have hu : unlink (ny + 1) x (gs ++ ⟨.right, c, n, e, l⟩ :: fs) = (x, (unlink (ny + 1) x (gs ++ ⟨.right, c, n, e, l⟩ :: fs)).2) := rfl
    generalize (unlink (ny + 1) x (gs ++ ⟨.right, c, n, e, l⟩ :: fs)).2 = xs at *
    obtain ⟨gs', ⟨s', col', n', e', sib'⟩, fs', rfl, g1, g2, g3, g4, g5, -, g6⟩ := SamePath.split sp
    simp only at g2 g3 g4 g5
    subst g2 g3 g4 g5
    rw [← g1, hu] at hT'
    simp only [replaceFrame_append, Res.ok_bind] at hT'
    -- `y` in the place of `z`
    have c3 : RepC m2 (.node col' n' sib' e' (zip x gs')) fs' := by
      rw [repC_append, ← repC_right] at c2
      exact c2
    have hn3 : ey.id ∉ idsT (.node col' n' sib' e' (zip x gs')) ++ idsF fs' := by
      rw [show Tree.node col' n' sib' e' (zip x gs') = plug (zip x gs') ⟨.right, col', n', e', sib'⟩ from rfl, ids_plug, ids_append]
      exact hn2
    have hcy := c0.cell
    obtain ⟨m3, e3, c4, k3⟩ := takePlace_ok c3 (z2.trans hcy) hn3 (by rw [k2.next]; exact c0.lt _ (by simp [idsT]))
    have hy3 := c4.cell
    rw [repC_right] at c4
    rw [← repC_append] at c4
    obtain ⟨m4, e4, c5, k4⟩ := rebalance_ok c4 hy3 hT'
    refine ⟨m4, ?_, c5, (k2.trans k3).trans k4⟩
    rw [removeNode, bind_apply, hl0]; simp only []
    rw [bind_apply, hx0]; simp only []
    rw [bind_apply, e1]; simp only []
    rw [bind_apply, e2]; simp only []
    rw [bind_apply, e3]; simp only []
    rw [bind_apply, e4]

end Verif.VectorSet.Heap
