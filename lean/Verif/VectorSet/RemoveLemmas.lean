import Verif.VectorSet.InsertLemmas

/-! # BalanceAfterRemove and RemoveNode keep the sequence and the counters and never follow a null pointer -/

namespace Verif.VectorSet

variable {α : Type}

theorem cntOK_toL_eq {t t' : Tree α} (h : toL t' = toL t) : (toL t').length = (toL t).length := by rw [h]

theorem blackenIfAny_ok (t : Tree α) : ∃ t', blackenIfAny t = .ok t' ∧ toL t' = toL t ∧ (CntOK t → CntOK t') := by
  cases t with
  | nil => exact ⟨.nil, rfl, rfl, id⟩
  | node c n l e r => exact ⟨.node .black n l e r, rfl, rfl, id⟩

/-- How many iterations the loop may still need. -/
def need (x : Tree α) (fs : List (Frame α)) : Nat := if isRed x then 1 else fs.length + 1

theorem isRed_plug_red (x : Tree α) (s : Side) (n : Nat) (e : Elem α) (t : Tree α) :
    isRed (plug x ⟨s, .red, n, e, t⟩) = true := by
  unfold plug; cases s <;> rfl

theorem need_le (x : Tree α) (fs : List (Frame α)) : need x fs ≤ fs.length + 1 := by
  unfold need; split <;> omega

/-- The last part of the loop body (1114-1136): the sibling `w` is a node. -/
theorem balRemove_finishL {p : Frame α} {fs : List (Frame α)} {x : Tree α} {cw : Color} {nw : Nat} {wl wr : Tree α}
    {we : Elem α} (hs : p.side = .left) (hw : p.sibling = .node cw nw wl we wr)
    (hc : CntOK (zip x (p :: fs))) (hb : isRed wl = true ∨ isRed wr = true) :
    ∃ t, (do
      let (w, p, fs) ←
        (if !isRed wr then do
           let wl' ← blackenIfAny wl
           let (w, ws) ← rotateRight (.node .red nw wl' we wr, ⟨.right, p.color, p.count, p.elem, x⟩ :: fs)
           match ws with
           | q :: fs' => .ok (w, { p with color := q.color, count := q.count, elem := q.elem }, fs')
           | [] => .ub
         else .ok (.node cw nw wl we wr, p, fs))
      match w with
      | .nil => .ub
      | .node _ nw wl we wr => do
        let wr' ← blackenIfAny wr
        let t := plug x { p with color := .black, sibling := .node p.color nw wl we wr' }
        let (r, rs) ← rotateLeft (t, fs)
        setColor .black (zip r rs)) = .ok t ∧ toL t = toL (zip x (p :: fs)) ∧ CntOK t ∧ BlackRoot t := by
  obtain ⟨ps, pc, pn, pe, pt⟩ := p
  simp only at hs hw
  subst hs hw
  obtain ⟨hcx, hpn, ⟨hnw, hwl, hwr⟩, hfr⟩ := cntOK_zip.1 hc
  simp only [toL, List.length_append, List.length_cons] at hpn hnw hwl hwr hfr
  by_cases hr : isRed wr = true
  · simp only [hr, Bool.not_true, Bool.false_eq_true, if_false, Res.ok_bind]
    obtain ⟨wr', h1, h2, h3⟩ := blackenIfAny_ok wr
    simp only [h1, Res.ok_bind, plug]
    rw [rotateLeft_eq (by
      simp only [CntOK, toL, List.length_append, List.length_cons, h2]
      exact ⟨by omega, hcx, by omega, hwl, h3 hwr⟩) hfr]
    simp only [Res.ok_bind]
    apply finish_ok (zip_ne_nil (Or.inl (by simp)))
    · simp only [zip, toL_zip, toL_plug, toL, h2]; simp
    · rw [cntOK_zip]
      simp only [CntOK, toL, List.length_append, List.length_cons, h2]
      refine ⟨⟨by omega, ⟨trivial, hcx, hwl⟩, h3 hwr⟩, ?_⟩
      have e : (toL x).length + ((toL wl).length + 1) + ((toL wr).length + 1) = pn + 1 := by omega
      rw [e]; exact hfr
  · have hl : isRed wl = true := by rcases hb with h | h <;> simp_all
    simp only [hr, Bool.not_false, if_true]
    cases wl with
    | nil => simp [isRed] at hl
    | node cl nl ll le lr =>
      obtain ⟨hnl, hll, hlr⟩ := hwl
      simp only [toL, List.length_append, List.length_cons] at hpn hnw
      simp only [blackenIfAny, Res.ok_bind]
      rw [rotateRight_eq (by
        simp only [CntOK, toL, List.length_append, List.length_cons]
        exact ⟨by omega, ⟨hnl, hll, hlr⟩, hwr⟩) (by
        refine ⟨by simp only; omega, hcx, hfr⟩)]
      simp only [Res.ok_bind]
      have hb2 : blackenIfAny (Tree.node Color.red ((toL lr).length + (toL wr).length) lr we wr)
          = .ok (.node .black ((toL lr).length + (toL wr).length) lr we wr) := rfl
      simp only [plug]
      rw [rotateLeft_eq (by
        simp only [CntOK, toL, List.length_append, List.length_cons]
        exact ⟨by omega, hcx, by omega, hll, trivial, hlr, hwr⟩) hfr]
      simp only [Res.ok_bind]
      apply finish_ok (zip_ne_nil (Or.inl (by simp)))
      · simp only [zip, toL_zip, toL_plug, toL]; simp
      · rw [cntOK_zip]
        simp only [CntOK, toL, List.length_append, List.length_cons]
        refine ⟨⟨by omega, ⟨trivial, hcx, hll⟩, trivial, hlr, hwr⟩, ?_⟩
        have e : (toL x).length + ((toL ll).length + 1) + ((toL lr).length + ((toL wr).length + 1) + 1) = pn + 1 := by
          omega
        rw [e]; exact hfr

/-- The same for the mirrored part (1162-1185). -/
theorem balRemove_finishR {p : Frame α} {fs : List (Frame α)} {x : Tree α} {cw : Color} {nw : Nat} {wl wr : Tree α}
    {we : Elem α} (hs : p.side = .right) (hw : p.sibling = .node cw nw wl we wr)
    (hc : CntOK (zip x (p :: fs))) (hb : isRed wl = true ∨ isRed wr = true) :
    ∃ t, (do
      let (w, p, fs) ←
        (if !isRed wl then do
           let wr' ← blackenIfAny wr
           let (w, ws) ← rotateLeft (.node .red nw wl we wr', ⟨.left, p.color, p.count, p.elem, x⟩ :: fs)
           match ws with
           | q :: fs' => .ok (w, { p with color := q.color, count := q.count, elem := q.elem }, fs')
           | [] => .ub
         else .ok (.node cw nw wl we wr, p, fs))
      match w with
      | .nil => .ub
      | .node _ nw wl we wr => do
        let wl' ← blackenIfAny wl
        let t := plug x { p with color := .black, sibling := .node p.color nw wl' we wr }
        let (r, rs) ← rotateRight (t, fs)
        setColor .black (zip r rs)) = .ok t ∧ toL t = toL (zip x (p :: fs)) ∧ CntOK t ∧ BlackRoot t := by
  obtain ⟨ps, pc, pn, pe, pt⟩ := p
  simp only at hs hw
  subst hs hw
  obtain ⟨hcx, hpn, ⟨hnw, hwl, hwr⟩, hfr⟩ := cntOK_zip.1 hc
  simp only [toL, List.length_append, List.length_cons] at hpn hnw hwl hwr hfr
  by_cases hr : isRed wl = true
  · simp only [hr, Bool.not_true, Bool.false_eq_true, if_false, Res.ok_bind]
    obtain ⟨wl', h1, h2, h3⟩ := blackenIfAny_ok wl
    simp only [h1, Res.ok_bind, plug]
    rw [rotateRight_eq (by
      simp only [CntOK, toL, List.length_append, List.length_cons, h2]
      exact ⟨by omega, ⟨by omega, h3 hwl, hwr⟩, hcx⟩) hfr]
    simp only [Res.ok_bind]
    apply finish_ok (zip_ne_nil (Or.inl (by simp)))
    · simp only [zip, toL_zip, toL_plug, toL, h2]; simp
    · rw [cntOK_zip]
      simp only [CntOK, toL, List.length_append, List.length_cons, h2]
      refine ⟨⟨by omega, h3 hwl, trivial, hwr, hcx⟩, ?_⟩
      have e : (toL wl).length + ((toL wr).length + ((toL x).length + 1) + 1) = pn + 1 := by omega
      rw [e]; exact hfr
  · have hl : isRed wr = true := by rcases hb with h | h <;> simp_all
    simp only [hr, Bool.not_false, if_true]
    cases wr with
    | nil => simp [isRed] at hl
    | node cl nl ll le lr =>
      obtain ⟨hnl, hll, hlr⟩ := hwr
      simp only [toL, List.length_append, List.length_cons] at hpn hnw
      simp only [blackenIfAny, Res.ok_bind]
      rw [rotateLeft_eq (by
        simp only [CntOK, toL, List.length_append, List.length_cons]
        exact ⟨by omega, hwl, hnl, hll, hlr⟩) (by
        refine ⟨by simp only; omega, hcx, hfr⟩)]
      simp only [Res.ok_bind]
      simp only [plug]
      rw [rotateRight_eq (by
        simp only [CntOK, toL, List.length_append, List.length_cons]
        exact ⟨by omega, ⟨by omega, ⟨trivial, hwl, hll⟩, hlr⟩, hcx⟩) hfr]
      simp only [Res.ok_bind]
      apply finish_ok (zip_ne_nil (Or.inl (by simp)))
      · simp only [zip, toL_zip, toL_plug, toL]; simp
      · rw [cntOK_zip]
        simp only [CntOK, toL, List.length_append, List.length_cons]
        refine ⟨⟨by omega, ⟨trivial, hwl, hll⟩, trivial, hlr, hcx⟩, ?_⟩
        have e : (toL wl).length + ((toL ll).length + 1) + ((toL lr).length + ((toL x).length + 1) + 1) = pn + 1 := by
          omega
        rw [e]; exact hfr

/-- What the loop does to a cursor whose sibling is a black node or null: case split used twice (with and without the
preceding rotation). -/
theorem balanceAfterRemove_ok : ∀ (fuel : Nat) (fs : List (Frame α)) (x : Tree α), x ≠ .nil → CntOK (zip x fs) →
    TopBlack fs → need x fs ≤ fuel →
    ∃ t, balanceAfterRemove fuel x fs = .ok t ∧ toL t = toL (zip x fs) ∧ CntOK t ∧ BlackRoot t := by
  intro fuel
  induction fuel with
  | zero =>
    intro fs x _ _ _ hf
    exfalso
    unfold need at hf; split at hf <;> omega
  | succ fuel ih =>
    intro fs x hx hc ht hf
    cases fs with
    | nil => exact finish_ok hx rfl hc
    | cons p fs =>
      cases x with
      | nil => simp at hx
      | node cx nx xl xe xr =>
        cases cx with
        | red =>
          refine ⟨_, rfl, ?_, ?_, blackRoot_zip ht (by simp)⟩
          · simp only [toL_zip, toL]
          · rw [cntOK_zip] at hc ⊢; exact hc
        | black =>
          have hfl : fs.length + 1 ≤ fuel := by
            simp only [need, isRed, List.length_cons] at hf
            simp at hf; omega
          -- the step that moves up without changing anything but colours of the sibling
          have hup : ∀ (x : Tree α) (p : Frame α) (fs : List (Frame α)) (s : Tree α), toL s = toL p.sibling →
              CntOK s → CntOK (zip x (p :: fs)) → TopBlack (p :: fs) → (p.color = .red ∨ fs.length + 1 ≤ fuel) →
              1 ≤ fuel →
              ∃ t, balanceAfterRemove fuel (plug x { p with sibling := s }) fs = .ok t ∧
                toL t = toL (zip x (p :: fs)) ∧ CntOK t ∧ BlackRoot t := by
            intro x p fs s hs1 hs2 hc ht hor h1
            have := ih fs (plug x { p with sibling := s }) (plug_ne_nil _ _) (by
                obtain ⟨h1, h2, h3, h4⟩ := cntOK_zip.1 hc
                have := (cntOK_zip (t := x) (fs := { p with sibling := s } :: fs)).2
                exact this ⟨h1, by simp only [hs1]; exact h2, hs2, h4⟩)
              ht.tail (by
                rcases hor with h | h
                · have : isRed (plug x { p with sibling := s }) = true := by
                    obtain ⟨a, b, c, d, e⟩ := p
                    simp only at h; subst h
                    exact isRed_plug_red _ _ _ _ _
                  simp only [need, this, if_true]; exact h1
                · exact Nat.le_trans (need_le _ _) h)
            obtain ⟨t, e1, e2, e3, e4⟩ := this
            refine ⟨t, e1, ?_, e3, e4⟩
            rw [e2]
            simp only [toL_zip, toL_plug, ctxL, ctxR, hs1]
            cases p.side <;> simp
          have hup' : ∀ (x : Tree α) (p : Frame α) (fs : List (Frame α)),
              CntOK (zip x (p :: fs)) → TopBlack (p :: fs) → (p.color = .red ∨ fs.length + 1 ≤ fuel) →
              1 ≤ fuel →
              ∃ t, balanceAfterRemove fuel (plug x p) fs = .ok t ∧
                toL t = toL (zip x (p :: fs)) ∧ CntOK t ∧ BlackRoot t := by
            intro x p fs h1 h2 h3 h4
            have := hup x p fs p.sibling rfl (by
              obtain ⟨_, _, h, _⟩ := cntOK_zip.1 h1; exact h) h1 h2 h3 h4
            exact this
          have h1f : 1 ≤ fuel := by omega
          obtain ⟨ps, pc, pn, pe, pt⟩ := p
          cases ps with
          | left =>
            cases pt with
            | nil => exact hup' _ _ _ hc ht (Or.inr hfl) h1f
            | node cw nw wl we wr =>
              by_cases hcw : cw = .red
              · -- red sibling
                subst hcw
                obtain ⟨hcx, hpn, ⟨hnw, hwl, hwr⟩, hfr⟩ := cntOK_zip.1 hc
                simp only [toL, List.length_append, List.length_cons] at hpn hnw hwl hwr hfr
                have hrot := rotateLeft_eq (cx := .red) (cy := .black) (nx := pn) (ny := nw)
                  (a := .node .black nx xl xe xr) (b := wl) (c := wr) (ex := pe) (ey := we) (fs := fs) (by
                    simp only [CntOK, toL, List.length_append, List.length_cons]
                    exact ⟨by omega, hcx, by omega, hwl, hwr⟩) hfr
                -- the situation after the rotation
                have hc2 : CntOK (zip (.node .black nx xl xe xr)
                    (⟨.left, .red, (toL (Tree.node Color.black nx xl xe xr)).length + (toL wl).length, pe, wl⟩ ::
                      ⟨.left, .black, pn, we, wr⟩ :: fs)) := by
                  rw [cntOK_zip]
                  refine ⟨hcx, rfl, hwl, ?_, hwr, ?_⟩
                  · simp only [toL, List.length_append, List.length_cons]; omega
                  · exact hfr
                have ht2 : TopBlack ((⟨.left, .black, pn, we, wr⟩ : Frame α) :: fs) := by
                  cases fs with
                  | nil => rfl
                  | cons => exact ht
                have heq : toL (zip (.node .black nx xl xe xr)
                    (⟨.left, .red, (toL (Tree.node Color.black nx xl xe xr)).length + (toL wl).length, pe, wl⟩ ::
                      ⟨.left, .black, pn, we, wr⟩ :: fs))
                    = toL (zip (.node .black nx xl xe xr) (⟨.left, pc, pn, pe, .node .red nw wl we wr⟩ :: fs)) := by
                  simp only [toL_zip, toL, ctxL, ctxR]; simp
                simp only [balanceAfterRemove, plug, if_true, hrot, Res.ok_bind, goLeft]
                rw [← heq]
                cases wl with
                | nil => exact hup' _ _ _ hc2 ht2 (Or.inl rfl) h1f
                | node cw' nw' wl' we' wr' =>
                  simp only
                  by_cases hbb : (!isRed wl' && !isRed wr') = true
                  · simp only [hbb, if_true]
                    exact hup _ _ _ (.node .red nw' wl' we' wr') rfl hwl hc2 ht2 (Or.inl rfl) h1f
                  · simp only [hbb, Bool.false_eq_true, if_false]
                    exact balRemove_finishL rfl rfl hc2 (by
                      cases h1 : isRed wl' <;> cases h2 : isRed wr' <;> simp [h1, h2] at hbb ⊢)
              · simp only [balanceAfterRemove, hcw, if_false, Res.ok_bind]
                by_cases hbb : (!isRed wl && !isRed wr) = true
                · simp only [hbb, if_true]
                  exact hup _ _ _ (.node .red nw wl we wr) rfl (by
                    obtain ⟨_, _, h, _⟩ := cntOK_zip.1 hc; exact h) hc ht (Or.inr hfl) h1f
                · simp only [hbb, Bool.false_eq_true, if_false]
                  exact balRemove_finishL rfl rfl hc (by
                    cases h1 : isRed wl <;> cases h2 : isRed wr <;> simp [h1, h2] at hbb ⊢)
          | right =>
            cases pt with
            | nil => exact hup' _ _ _ hc ht (Or.inr hfl) h1f
            | node cw nw wl we wr =>
              by_cases hcw : cw = .red
              · subst hcw
                obtain ⟨hcx, hpn, ⟨hnw, hwl, hwr⟩, hfr⟩ := cntOK_zip.1 hc
                simp only [toL, List.length_append, List.length_cons] at hpn hnw hwl hwr hfr
                have hrot := rotateRight_eq (cx := .black) (cy := .red) (nx := nw) (ny := pn)
                  (a := wl) (b := wr) (c := .node .black nx xl xe xr) (ex := we) (ey := pe) (fs := fs) (by
                    simp only [CntOK, toL, List.length_append, List.length_cons]
                    exact ⟨by omega, ⟨by omega, hwl, hwr⟩, hcx⟩) hfr
                have hc2 : CntOK (zip (.node .black nx xl xe xr)
                    (⟨.right, .red, (toL wr).length + (toL (Tree.node Color.black nx xl xe xr)).length, pe, wr⟩ ::
                      ⟨.right, .black, pn, we, wl⟩ :: fs)) := by
                  rw [cntOK_zip]
                  refine ⟨hcx, Nat.add_comm _ _, hwr, ?_, hwl, ?_⟩
                  · simp only [toL, List.length_append, List.length_cons]; omega
                  · exact hfr
                have ht2 : TopBlack ((⟨.right, .black, pn, we, wl⟩ : Frame α) :: fs) := by
                  cases fs with
                  | nil => rfl
                  | cons => exact ht
                have heq : toL (zip (.node .black nx xl xe xr)
                    (⟨.right, .red, (toL wr).length + (toL (Tree.node Color.black nx xl xe xr)).length, pe, wr⟩ ::
                      ⟨.right, .black, pn, we, wl⟩ :: fs))
                    = toL (zip (.node .black nx xl xe xr) (⟨.right, pc, pn, pe, .node .red nw wl we wr⟩ :: fs)) := by
                  simp only [toL_zip, toL, ctxL, ctxR]; simp
                simp only [balanceAfterRemove, plug, if_true, hrot, Res.ok_bind, goRight]
                rw [← heq]
                cases wr with
                | nil => exact hup' _ _ _ hc2 ht2 (Or.inl rfl) h1f
                | node cw' nw' wl' we' wr' =>
                  simp only
                  by_cases hbb : (!isRed wr' && !isRed wl') = true
                  · simp only [hbb, if_true]
                    exact hup _ _ _ (.node .red nw' wl' we' wr') rfl hwr hc2 ht2 (Or.inl rfl) h1f
                  · simp only [hbb, Bool.false_eq_true, if_false]
                    exact balRemove_finishR rfl rfl hc2 (by
                      cases h1 : isRed wl' <;> cases h2 : isRed wr' <;> simp [h1, h2] at hbb ⊢)
              · simp only [balanceAfterRemove, hcw, if_false, Res.ok_bind]
                by_cases hbb : (!isRed wr && !isRed wl) = true
                · simp only [hbb, if_true]
                  exact hup _ _ _ (.node .red nw wl we wr) rfl (by
                    obtain ⟨_, _, h, _⟩ := cntOK_zip.1 hc; exact h) hc ht (Or.inr hfl) h1f
                · simp only [hbb, Bool.false_eq_true, if_false]
                  exact balRemove_finishR rfl rfl hc (by
                    cases h1 : isRed wl <;> cases h2 : isRed wr <;> simp [h1, h2] at hbb ⊢)

theorem ctxL_append (gs fs : List (Frame α)) : ctxL (gs ++ fs) = ctxL fs ++ ctxL gs := by
  induction gs with
  | nil => simp [ctxL]
  | cons g gs ih => simp only [List.cons_append, ctxL, ih]; cases g.side <;> simp

theorem ctxR_append (gs fs : List (Frame α)) : ctxR (gs ++ fs) = ctxR gs ++ ctxR fs := by
  induction gs with
  | nil => simp [ctxR]
  | cons g gs ih => simp only [List.cons_append, ctxR, ih]; cases g.side <;> simp

theorem zip_append (t : Tree α) (gs fs : List (Frame α)) : zip t (gs ++ fs) = zip (zip t gs) fs := by
  induction gs generalizing t with
  | nil => rfl
  | cons g gs ih => simp only [List.cons_append, zip, ih]

theorem SamePath.topBlack {fs gs : List (Frame α)} (h : SamePath fs gs) (hb : TopBlack gs) : TopBlack fs := by
  induction fs generalizing gs with
  | nil => trivial
  | cons f fs ih => cases gs with
    | nil => cases h
    | cons g gs =>
      cases fs with
      | nil =>
        cases gs with
        | nil => obtain ⟨⟨_, h2, _⟩, _⟩ := h; simp only [TopBlack] at hb ⊢; rw [h2, hb]
        | cons => obtain ⟨_, h⟩ := h; cases h
      | cons f' fs' =>
        cases gs with
        | nil => obtain ⟨_, h⟩ := h; cases h
        | cons => exact ih h.2 hb

theorem SamePath.trans {a b c : List (Frame α)} (h : SamePath a b) (h' : SamePath b c) : SamePath a c := by
  induction a generalizing b c with
  | nil => cases b with
    | nil => exact h'
    | cons => cases h
  | cons x a ih => cases b with
    | nil => cases h
    | cons y b => cases c with
      | nil => cases h'
      | cons z c =>
        obtain ⟨⟨h1, h2, h3, h4⟩, h5⟩ := h
        obtain ⟨⟨k1, k2, k3, k4⟩, k5⟩ := h'
        exact ⟨⟨h1.trans k1, h2.trans k2, h3.trans k3, h4.trans k4⟩, ih h5 k5⟩

theorem topBlack_of_blackRoot {t : Tree α} {fs : List (Frame α)} (h : BlackRoot (zip t fs)) : TopBlack fs := by
  induction fs generalizing t with
  | nil => trivial
  | cons f fs ih =>
    cases fs with
    | nil =>
      simp only [zip, plug] at h
      simp only [TopBlack]
      revert h
      cases f.side <;> cases f.color <;> simp [BlackRoot]
    | cons g gs => exact ih h

theorem topBlack_append {gs fs : List (Frame α)} (h : TopBlack (gs ++ fs)) : TopBlack fs := by
  induction gs with
  | nil => exact h
  | cons g gs ih => exact ih h.tail

/-- Replacing the element of a frame keeps everything else. -/
theorem topBlack_replace {gs fs : List (Frame α)} {f : Frame α} {y : Elem α} (h : TopBlack (gs ++ f :: fs)) :
    TopBlack (gs ++ { f with elem := y } :: fs) := by
  induction gs with
  | nil =>
    cases fs with
    | nil => exact h
    | cons => exact h
  | cons g gs ih =>
    cases gs with
    | nil => exact ih h
    | cons => exact ih h

theorem frOK_replace {gs fs : List (Frame α)} {f : Frame α} {y : Elem α} {m : Nat} (h : FrOK m (gs ++ f :: fs)) :
    FrOK m (gs ++ { f with elem := y } :: fs) := by
  induction gs generalizing m with
  | nil => exact h
  | cons g gs ih => exact ⟨h.1, h.2.1, ih h.2.2⟩

theorem replaceFrame_eq {gs fs : List (Frame α)} {f : Frame α} {y : Elem α} {m : Nat} (h : FrOK m (gs ++ f :: fs)) :
    replaceFrame y gs.length (gs ++ f :: fs) = .ok (gs ++ { f with elem := y } :: fs) := by
  induction gs generalizing m with
  | nil =>
    simp only [List.nil_append, List.length_nil, replaceFrame]
    rw [updPath_id h.2.2, updPath_id h.2.2]
  | cons g gs ih =>
    simp only [List.cons_append, List.length_cons, replaceFrame, ih h.2.2, Res.ok_bind]

/-- The path to the leftmost node of a non-empty subtree. -/
theorem leftmostCursor_ok (t : Tree α) (fs : List (Frame α)) (h : t ≠ .nil) :
    ∃ c n e r gs, leftmostCursor t fs = .ok (.node c n .nil e r, gs ++ fs) ∧
      zip (.node c n .nil e r) gs = t ∧ ctxL gs = [] := by
  induction t generalizing fs with
  | nil => simp at h
  | node c n l e r ihl ihr =>
    cases l with
    | nil => exact ⟨c, n, e, r, [], rfl, rfl, rfl⟩
    | node cl nl ll el rl =>
      obtain ⟨c', n', e', r', gs, h1, h2, h3⟩ := ihl (⟨.left, c, n, e, r⟩ :: fs) (by simp)
      refine ⟨c', n', e', r', gs ++ [⟨.left, c, n, e, r⟩], ?_, ?_, ?_⟩
      · simp only [leftmostCursor, h1]; simp
      · rw [zip_append, h2]; rfl
      · rw [ctxL_append, h3]; rfl

theorem unlink_ok {ny : Nat} {x : Tree α} {fs : List (Frame α)} (hx : CntOK x) (h : FrOK ny fs) :
    (unlink ny x fs).1 = x ∧ FrOK (toL x).length (unlink ny x fs).2 ∧ SamePath (unlink ny x fs).2 fs := by
  have h1 : unlink ny x fs = (x, updPath x.cnt fs) := by
    cases x with
    | nil => rfl
    | node => simp only [unlink, updPath_id h]
  rw [h1]
  refine ⟨rfl, ?_, updPath_same _ _⟩
  rw [← cnt_eq hx]
  exact updPath_ok h

theorem SamePath.split {gs fs : List (Frame α)} {f : Frame α} {xs : List (Frame α)} (h : SamePath xs (gs ++ f :: fs)) :
    ∃ gs' f' fs', xs = gs' ++ f' :: fs' ∧ gs'.length = gs.length ∧ f'.side = f.side ∧ f'.color = f.color ∧
      f'.elem = f.elem ∧ f'.sibling = f.sibling ∧ SamePath gs' gs ∧ SamePath fs' fs := by
  induction gs generalizing xs with
  | nil =>
    cases xs with
    | nil => cases h
    | cons x xs =>
      obtain ⟨⟨h1, h2, h3, h4⟩, h5⟩ := h
      exact ⟨[], x, xs, rfl, rfl, h1, h2, h3, h4, trivial, h5⟩
  | cons g gs ih =>
    cases xs with
    | nil => cases h
    | cons x xs =>
      obtain ⟨h1, h2⟩ := h
      obtain ⟨gs', f', fs', rfl, a, b, c, d, e, k, l⟩ := ih h2
      exact ⟨x :: gs', f', fs', rfl, by simp [a], b, c, d, e, ⟨h1, k⟩, l⟩

theorem cntOK_onlyChild {l r : Tree α} (hl : CntOK l) (hr : CntOK r) : CntOK (onlyChild l r) := by
  unfold onlyChild; cases l <;> assumption

/-- The end of RemoveNode (1077-1078). -/
theorem removeEnd_ok {x : Tree α} {xs : List (Frame α)} {cy : Color} (hx : CntOK x) (hf : FrOK (toL x).length xs)
    (ht : TopBlack xs) (hr : xs = [] → cy = .black) :
    ∃ t, removeEnd cy x xs = .ok t ∧
      toL t = toL (zip x xs) ∧ CntOK t ∧ (t = .nil ∨ BlackRoot t) := by
  have hc : CntOK (zip x xs) := cntOK_zip.2 ⟨hx, hf⟩
  cases x with
  | nil =>
    refine ⟨_, rfl, rfl, hc, ?_⟩
    cases xs with
    | nil => left; rfl
    | cons => right; exact blackRoot_zip ht (by simp)
  | node c n l e r =>
    simp only [removeEnd]
    by_cases hcy : cy = .black
    · rw [if_pos hcy]
      obtain ⟨t, h1, h2, h3, h4⟩ := balanceAfterRemove_ok (2 * xs.length + 2) xs (.node c n l e r) (by simp) hc ht
        (Nat.le_trans (need_le _ _) (by omega))
      exact ⟨t, h1, h2, h3, Or.inr h4⟩
    · rw [if_neg hcy]
      refine ⟨_, rfl, rfl, hc, Or.inr (blackRoot_zip ht ?_)⟩
      intro h; exact hcy (hr h)

/-- `RemoveNode` never follows a null pointer, removes exactly the node, and keeps the counters right. -/
theorem removeTree_ok {cz : Color} {nz : Nat} {lz rz : Tree α} {ez : Elem α} {fs : List (Frame α)}
    (hc : CntOK (zip (.node cz nz lz ez rz) fs)) (hb : BlackRoot (zip (.node cz nz lz ez rz) fs)) :
    ∃ t, removeTree (.node cz nz lz ez rz, fs) = .ok t ∧ toL t = ctxL fs ++ (toL lz ++ toL rz) ++ ctxR fs ∧
      CntOK t ∧ (t = .nil ∨ BlackRoot t) := by
  obtain ⟨⟨hn, hl, hr⟩, hf⟩ := cntOK_zip.1 hc
  have hnz : (toL (.node cz nz lz ez rz)).length = nz + 1 := by simp [toL]; omega
  rw [hnz] at hf
  have htb := topBlack_of_blackRoot hb
  have hroot : fs = [] → cz = .black := by
    rintro rfl
    simp only [zip] at hb
    cases cz with
    | red => exact hb.elim
    | black => rfl
  have hone : ∀ x : Tree α, CntOK x → toL x = toL lz ++ toL rz →
      ∃ t, removeEnd cz (unlink (nz + 1) x fs).1 (unlink (nz + 1) x fs).2 = .ok t ∧
        toL t = ctxL fs ++ (toL lz ++ toL rz) ++ ctxR fs ∧ CntOK t ∧ (t = .nil ∨ BlackRoot t) := by
    intro x hx hxl
    obtain ⟨h1, h2, h3⟩ := unlink_ok hx hf
    rw [h1]
    have h4 : (unlink (nz + 1) x fs).2 = [] → cz = .black := by
      intro h
      apply hroot
      have := h3.length
      rw [h] at this
      exact List.eq_nil_of_length_eq_zero this.symm
    obtain ⟨t, e1, e2, e3, e4⟩ := removeEnd_ok hx h2 (h3.topBlack htb) h4
    refine ⟨t, e1, ?_, e3, e4⟩
    rw [e2, toL_zip, h3.ctx.1, h3.ctx.2, hxl]
  cases lz with
  | nil =>
    simp only [removeTree, Res.ok_bind]
    exact hone _ (cntOK_onlyChild hl hr) rfl
  | node cl nl ll el rl =>
    cases rz with
    | nil =>
      simp only [removeTree, Res.ok_bind]
      exact hone _ (cntOK_onlyChild hl hr) (by simp [onlyChild, toL])
    | node cr nr lr er rr =>
      obtain ⟨cy, ny, ey, ry, gs, h1, h2, h3⟩ := leftmostCursor_ok (.node cr nr lr er rr)
        (⟨.right, cz, nz, ez, .node cl nl ll el rl⟩ :: fs) (by simp)
      have hcz : CntOK (zip (.node cy ny .nil ey ry) (gs ++ ⟨.right, cz, nz, ez, .node cl nl ll el rl⟩ :: fs)) := by
        rw [zip_append, h2]; exact hc
      obtain ⟨⟨hny, _, hry⟩, hfy⟩ := cntOK_zip.1 hcz
      have hnyl : (toL (.node cy ny .nil ey ry)).length = ny + 1 := by simp [toL] at hny ⊢; omega
      rw [hnyl] at hfy
      obtain ⟨u1, u2, u3⟩ := unlink_ok (x := onlyChild .nil ry) (cntOK_onlyChild trivial hry) hfy
      obtain ⟨gs', f', fs', s1, s2, s3, s4, s5, s6, s7, s8⟩ := u3.split
      have hlen : (gs ++ (⟨.right, cz, nz, ez, .node cl nl ll el rl⟩ : Frame α) :: fs).length - fs.length - 1 = gs'.length := by
        simp [s2]; omega
      have htop : TopBlack (gs' ++ f' :: fs') := by
        rw [← s1]; apply u3.topBlack
        have : BlackRoot (zip (.node cy ny .nil ey ry) (gs ++ ⟨.right, cz, nz, ez, .node cl nl ll el rl⟩ :: fs)) := by
          rw [zip_append, h2]; exact hb
        exact topBlack_of_blackRoot this
      simp only [removeTree, h1, Res.ok_bind]
      rw [hlen, s1, replaceFrame_eq (by rw [← s1]; exact u2)]
      simp only [Res.ok_bind, u1]
      obtain ⟨t, e1, e2, e3, e4⟩ := removeEnd_ok (x := onlyChild .nil ry) (xs := gs' ++ { f' with elem := ey } :: fs')
        (cy := cz) (cntOK_onlyChild trivial hry) (frOK_replace (by rw [← s1]; exact u2)) (topBlack_replace htop) (by simp)
      refine ⟨t, e1, ?_, e3, e4⟩
      have hy : toL (zip (.node cy ny .nil ey ry) gs) = toL (.node cr nr lr er rr) := by rw [h2]
      rw [toL_zip, h3] at hy
      rw [e2, toL_zip, ctxL_append, ctxR_append, s7.ctx.1, s7.ctx.2, h3]
      simp only at s3
      simp only [ctxL, ctxR, s3, s6, s8.ctx.1, s8.ctx.2, onlyChild, ← hy]
      simp [toL]

end Verif.VectorSet
