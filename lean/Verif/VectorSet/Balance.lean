import Verif.VectorSet.StepLemmas

/-! # Red-black balance: helper lemmas for C08 and C09 -/

namespace Verif.VectorSet

variable {α : Type}

/-- The red-black rules with black height `n`: every path has `n` black nodes and a red node has no red child. -/
def Rb : Tree α → Nat → Prop
  | .nil, n => n = 0
  | .node .red _ l _ r, n => Rb l n ∧ Rb r n ∧ isRed l = false ∧ isRed r = false
  | .node .black _ l _ r, n => ∃ m, n = m + 1 ∧ Rb l m ∧ Rb r m

def headRed : List (Frame α) → Bool
  | f :: _ => f.color == .red
  | [] => false

theorem headRed_cons (f : Frame α) (fs : List (Frame α)) : headRed (f :: fs) = (f.color == .red) := rfl

/-- The red-black rules for the path, with a subtree of black height `n` in the hole. -/
def CtxRb : List (Frame α) → Nat → Prop
  | [], _ => True
  | f :: fs, n => match f.color with
    | .red => Rb f.sibling n ∧ isRed f.sibling = false ∧ headRed fs = false ∧ CtxRb fs n
    | .black => Rb f.sibling n ∧ CtxRb fs (n + 1)

def Tree.height : Tree α → Nat
  | .nil => 0
  | .node _ _ l _ r => max l.height r.height + 1

theorem isRed_plug (t : Tree α) (f : Frame α) : isRed (plug t f) = (f.color == .red) := by
  unfold plug; cases f.side <;> cases f.color <;> rfl

theorem rb_plug {t : Tree α} {f : Frame α} {n : Nat} :
    Rb (plug t f) n ↔ match f.color with
      | .red => Rb t n ∧ Rb f.sibling n ∧ isRed t = false ∧ isRed f.sibling = false
      | .black => ∃ m, n = m + 1 ∧ Rb t m ∧ Rb f.sibling m := by
  unfold plug
  cases f.side <;> cases f.color <;> simp only [Rb]
  · constructor <;> (rintro ⟨h1, h2, h3, h4⟩; exact ⟨h2, h1, h4, h3⟩)
  · constructor <;> (rintro ⟨m, h0, h1, h2⟩; exact ⟨m, h0, h2, h1⟩)

theorem rb_zip {t : Tree α} {fs : List (Frame α)} : (∃ m, Rb (zip t fs) m) ↔
    ∃ n, Rb t n ∧ CtxRb fs n ∧ (headRed fs = true → isRed t = false) := by
  induction fs generalizing t with
  | nil => simp [zip, CtxRb, headRed]
  | cons f fs ih =>
    rw [zip, ih]
    obtain ⟨s, c, k, e, sib⟩ := f
    cases c with
    | red =>
      simp only [rb_plug, isRed_plug, CtxRb, headRed_cons, beq_self_eq_true]
      constructor
      · rintro ⟨n, ⟨h1, h2, h3, h4⟩, h5, h6⟩
        refine ⟨n, h1, ⟨h2, h4, ?_, h5⟩, fun _ => h3⟩
        cases h : headRed fs with
        | false => rfl
        | true => exact absurd (h6 h) (by simp)
      · rintro ⟨n, h1, ⟨h2, h4, h7, h5⟩, h6⟩
        exact ⟨n, ⟨h1, h2, h6 trivial, h4⟩, h5, fun h => by rw [h7] at h; cases h⟩
    | black =>
      simp only [rb_plug, isRed_plug, CtxRb, headRed_cons]
      constructor
      · rintro ⟨n, ⟨m, rfl, h1, h2⟩, h5, h6⟩
        exact ⟨m, h1, ⟨h2, h5⟩, fun h => by cases h⟩
      · rintro ⟨n, h1, ⟨h2, h5⟩, h6⟩
        exact ⟨n + 1, ⟨n, rfl, h1, h2⟩, h5, fun _ => rfl⟩

theorem SamePath.headRed {fs gs : List (Frame α)} (h : SamePath fs gs) :
    Verif.VectorSet.headRed fs = Verif.VectorSet.headRed gs := by
  cases fs with
  | nil => cases gs with
    | nil => rfl
    | cons => cases h
  | cons f fs => cases gs with
    | nil => cases h
    | cons g gs => simp only [Verif.VectorSet.headRed, h.1.2.1]

theorem SamePath.ctxRb {fs gs : List (Frame α)} (h : SamePath fs gs) {n : Nat} (hg : CtxRb gs n) : CtxRb fs n := by
  induction fs generalizing gs n with
  | nil => trivial
  | cons f fs ih => cases gs with
    | nil => cases h
    | cons g gs =>
      obtain ⟨⟨h1, h2, h3, h4⟩, h5⟩ := h
      simp only [CtxRb, h2, h4, h5.headRed] at hg ⊢
      cases hc : g.color with
      | red => simp only [hc] at hg ⊢; exact ⟨hg.1, hg.2.1, hg.2.2.1, ih h5 hg.2.2.2⟩
      | black => simp only [hc] at hg ⊢; exact ⟨hg.1, ih h5 hg.2⟩

theorem rotateLeft_shape (cx cy : Color) (nx ny : Nat) (a b c : Tree α) (ex ey : Elem α) (fs : List (Frame α)) :
    ∃ n1 n2 fs', rotateLeft (.node cx nx a ex (.node cy ny b ey c), fs) =
      .ok (.node cy n1 (.node cx n2 a ex b) ey c, fs') ∧ SamePath fs' fs := by
  simp only [rotateLeft, updateCount]
  by_cases h : a.cnt + b.cnt ≠ nx
  · simp only [if_pos h, Res.ok_bind, updPath]
    by_cases h2 : a.cnt + b.cnt + 1 + c.cnt ≠ ny
    · rw [if_pos h2]; exact ⟨_, _, _, rfl, updPath_same _ _⟩
    · rw [if_neg h2]; exact ⟨_, _, _, rfl, SamePath.refl _⟩
  · simp only [if_neg h, Res.ok_bind]
    exact ⟨_, _, _, rfl, SamePath.refl _⟩

theorem rotateRight_shape (cx cy : Color) (nx ny : Nat) (a b c : Tree α) (ex ey : Elem α) (fs : List (Frame α)) :
    ∃ n1 n2 fs', rotateRight (.node cy ny (.node cx nx a ex b) ey c, fs) =
      .ok (.node cx n1 a ex (.node cy n2 b ey c), fs') ∧ SamePath fs' fs := by
  simp only [rotateRight, updateCount]
  by_cases h : b.cnt + c.cnt ≠ ny
  · simp only [if_pos h, Res.ok_bind, updPath]
    by_cases h2 : b.cnt + c.cnt + 1 + a.cnt ≠ nx
    · rw [if_pos h2]; exact ⟨_, _, _, rfl, updPath_same _ _⟩
    · rw [if_neg h2]; exact ⟨_, _, _, rfl, SamePath.refl _⟩
  · simp only [if_neg h, Res.ok_bind]
    exact ⟨_, _, _, rfl, SamePath.refl _⟩

theorem rb_blacken {t t' : Tree α} {n : Nat} (h : Rb t n) (hb : blackenRoot t = .ok t') : ∃ m, Rb t' m := by
  cases t with
  | nil => cases hb
  | node c k l e r =>
    simp only [blackenRoot, setColor, Res.ok.injEq] at hb
    subst hb
    cases c with
    | red => obtain ⟨h1, h2, _, _⟩ := h; exact ⟨n + 1, n, rfl, h1, h2⟩
    | black => exact ⟨n, h⟩

theorem rb_finish {t t' : Tree α} (h : ∃ n, Rb t n) (hb : blackenRoot t = .ok t') : ∃ m, Rb t' m := by
  obtain ⟨n, h⟩ := h; exact rb_blacken h hb

theorem isRed_false_of_ne {t : Tree α} (h : ¬ isRed t = true) : isRed t = false := by simpa using h

/-- The rebalancing loop restores the red-black rules when only the new node and its parent break them. -/
theorem balanceAfterInsert_rb : ∀ (fs : List (Frame α)) (x t : Tree α) (n : Nat), isRed x = true → Rb x n →
    CtxRb fs n → balanceAfterInsert x fs = .ok t → ∃ m, Rb t m
  | [], x, t, n, hx, hr, hc, h => rb_blacken hr h
  | [p], x, t, n, hx, hr, hc, h => by
    simp only [balanceAfterInsert] at h
    by_cases hp : p.color = .red
    · rw [if_pos hp] at h; cases h
    · rw [if_neg hp] at h
      refine rb_finish (rb_zip.2 ⟨n, hr, hc, ?_⟩) h
      simp [headRed, hp]
  | p :: g :: fs, x, t, n, hx, hr, hc, h => by
    by_cases hp : p.color = .red
    rotate_left
    · simp only [balanceAfterInsert, hp, if_false] at h
      refine rb_finish (rb_zip.2 ⟨n, hr, hc, ?_⟩) h
      simp [headRed, hp]
    obtain ⟨ps, pc, pn, pe, pt⟩ := p
    obtain ⟨gs, gc, gn, ge, gt⟩ := g
    simp only at hp
    subst hp
    obtain ⟨hpt, hptb, hgc, hc⟩ := hc
    have hgb : gc = .black := by cases gc <;> simp [headRed] at hgc ⊢
    subst hgb
    simp only [CtxRb] at hc
    obtain ⟨hgt, hfs⟩ := hc
    by_cases hu : isRed gt = true
    · cases gt with
      | nil => simp [isRed] at hu
      | node uc un ul ue ur =>
        cases uc with
        | black => simp [isRed] at hu
        | red =>
          have h' : balanceAfterInsert (plug (plug x ⟨ps, .black, pn, pe, pt⟩)
              ⟨gs, .red, gn, ge, .node .black un ul ue ur⟩) fs = .ok t := by
            cases gs <;> simpa only [balanceAfterInsert, if_true, hu, setColor, Res.ok_bind] using h
          refine balanceAfterInsert_rb fs _ t (n + 1) ?_ ?_ hfs h'
          · rw [isRed_plug]; rfl
          · rw [rb_plug]
            refine ⟨rb_plug.2 ⟨n, rfl, hr, hpt⟩, ⟨n, rfl, hgt.1, hgt.2.1⟩, ?_, rfl⟩
            rw [isRed_plug]; rfl
    · have hgt2 := isRed_false_of_ne hu
      cases x with
      | nil => simp [isRed] at hx
      | node cx nx xl xe xr =>
        cases cx with
        | black => simp [isRed] at hx
        | red =>
          obtain ⟨hxl, hxr, hxlb, hxrb⟩ := hr
          cases gs <;> cases ps
          · simp only [balanceAfterInsert, if_true, hu, reduceCtorEq, if_false, Res.ok_bind, plug, Bool.false_eq_true] at h
            obtain ⟨n1, n2, fs', e1, e2⟩ := rotateRight_shape .black .red pn gn (.node .red nx xl xe xr) pt gt pe ge fs
            rw [e1] at h
            simp only [Res.ok_bind] at h
            refine rb_finish (rb_zip.2 ⟨n + 1, ?_, e2.ctxRb hfs, fun _ => rfl⟩) h
            exact ⟨n, rfl, ⟨hxl, hxr, hxlb, hxrb⟩, hpt, hgt, hptb, hgt2⟩
          · simp only [balanceAfterInsert, if_true, hu, if_false, plug, Bool.false_eq_true] at h
            obtain ⟨n1, n2, fs', e1, e2⟩ := rotateLeft_shape .red .red pn nx pt xl xr pe xe
              (⟨.left, .black, gn, ge, gt⟩ :: fs)
            rw [e1] at h
            cases fs' with
            | nil => cases e2
            | cons g' fs'' =>
              obtain ⟨gs', gc', gn', ge', gt'⟩ := g'
              obtain ⟨⟨q1, q2, q3, q4⟩, q5⟩ := e2
              simp only at q1 q2 q3 q4
              subst q1 q2 q3 q4
              simp only [Res.ok_bind, goLeft] at h
              obtain ⟨m1, m2, hs, e3, e4⟩ := rotateRight_shape .black .red n1 gn' (.node .red n2 pt pe xl) xr gt' xe ge' fs''
              rw [e3] at h
              simp only [Res.ok_bind] at h
              refine rb_finish (rb_zip.2 ⟨n + 1, ?_, (e4.trans q5).ctxRb hfs, fun _ => rfl⟩) h
              exact ⟨n, rfl, ⟨hpt, hxl, hptb, hxlb⟩, hxr, hgt, hxrb, hgt2⟩
          · simp only [balanceAfterInsert, if_true, hu, if_false, plug, Bool.false_eq_true] at h
            obtain ⟨n1, n2, fs', e1, e2⟩ := rotateRight_shape .red .red nx pn xl xr pt xe pe
              (⟨.right, .black, gn, ge, gt⟩ :: fs)
            rw [e1] at h
            cases fs' with
            | nil => cases e2
            | cons g' fs'' =>
              obtain ⟨gs', gc', gn', ge', gt'⟩ := g'
              obtain ⟨⟨q1, q2, q3, q4⟩, q5⟩ := e2
              simp only at q1 q2 q3 q4
              subst q1 q2 q3 q4
              simp only [Res.ok_bind, goRight] at h
              obtain ⟨m1, m2, hs, e3, e4⟩ := rotateLeft_shape .red .black gn' n1 gt' xl (.node .red n2 xr pe pt) ge' xe fs''
              rw [e3] at h
              simp only [Res.ok_bind] at h
              refine rb_finish (rb_zip.2 ⟨n + 1, ?_, (e4.trans q5).ctxRb hfs, fun _ => rfl⟩) h
              exact ⟨n, rfl, ⟨hgt, hxl, hgt2, hxlb⟩, hxr, hpt, hxrb, hptb⟩
          · simp only [balanceAfterInsert, if_true, hu, reduceCtorEq, if_false, Res.ok_bind, plug, Bool.false_eq_true] at h
            obtain ⟨n1, n2, fs', e1, e2⟩ := rotateLeft_shape .red .black gn pn gt pt (.node .red nx xl xe xr) ge pe fs
            rw [e1] at h
            simp only [Res.ok_bind] at h
            refine rb_finish (rb_zip.2 ⟨n + 1, ?_, e2.ctxRb hfs, fun _ => rfl⟩) h
            exact ⟨n, rfl, ⟨hgt, hpt, hgt2, hptb⟩, hxl, hxr, hxlb, hxrb⟩
  termination_by fs => fs.length

theorem updateCount_shape (c : Color) (n : Nat) (l r : Tree α) (e : Elem α) (fs : List (Frame α)) :
    ∃ n' fs', updateCount (.node c n l e r, fs) = .ok (.node c n' l e r, fs') ∧ SamePath fs' fs := by
  simp only [updateCount]
  by_cases h : l.cnt + r.cnt ≠ n
  · rw [if_pos h]; exact ⟨_, _, rfl, updPath_same _ _⟩
  · rw [if_neg h]; exact ⟨_, _, rfl, SamePath.refl _⟩

theorem linkNode_rb {lt : α → α → Bool} {root t : Tree α} {e : Elem α} {p : Option (Cursor α)}
    (hp : InsertPoint (lt e.val) (fun a => lt a e.val) root p) (hr : ∃ m, Rb root m) (h : linkNode lt e p = .ok t) :
    ∃ m, Rb t m := by
  have hleaf : Rb (.node .red 0 .nil e .nil : Tree α) 0 := ⟨rfl, rfl, rfl, rfl⟩
  cases p with
  | none =>
    simp only [linkNode, Res.bind_eq_ok] at h
    obtain ⟨t', h1, h2⟩ := h
    exact rb_finish (balanceAfterInsert_rb [] _ _ 0 rfl hleaf trivial h1) h2
  | some cur =>
    obtain ⟨x, fs⟩ := cur
    cases x with
    | nil => exact hp.elim
    | node c n l pe r =>
      obtain ⟨hz, hp⟩ := hp
      subst hz
      obtain ⟨m, h1, h2, h3⟩ := rb_zip.1 hr
      rcases hp with ⟨hk, rfl, _, _⟩ | ⟨h0, hk, rfl, _, _⟩
      · simp only [linkNode, hk, if_true] at h
        obtain ⟨n', fs', u1, u2⟩ := updateCount_shape c n (.node .red 0 .nil e .nil) r pe fs
        rw [u1] at h
        simp only [Res.ok_bind, goLeft, Res.bind_eq_ok] at h
        obtain ⟨t', b1, b2⟩ := h
        refine rb_finish (balanceAfterInsert_rb _ _ _ 0 rfl hleaf ?_ b1) b2
        cases c with
        | red =>
          obtain ⟨q1, q2, q3, q4⟩ := h1
          simp only [Rb] at q1
          subst q1
          refine ⟨q2, q4, ?_, u2.ctxRb h2⟩
          rw [u2.headRed]
          cases hh : headRed fs with
          | false => rfl
          | true => have := h3 hh; simp [isRed] at this
        | black =>
          obtain ⟨m', rfl, q1, q2⟩ := h1
          simp only [Rb] at q1
          subst q1
          exact ⟨q2, u2.ctxRb h2⟩
      · simp only [linkNode, h0, Bool.false_eq_true, if_false] at h
        obtain ⟨n', fs', u1, u2⟩ := updateCount_shape c n l (.node .red 0 .nil e .nil) pe fs
        rw [u1] at h
        simp only [Res.ok_bind, goRight, Res.bind_eq_ok] at h
        obtain ⟨t', b1, b2⟩ := h
        refine rb_finish (balanceAfterInsert_rb _ _ _ 0 rfl hleaf ?_ b1) b2
        cases c with
        | red =>
          obtain ⟨q1, q2, q3, q4⟩ := h1
          simp only [Rb] at q2
          subst q2
          refine ⟨q1, q3, ?_, u2.ctxRb h2⟩
          rw [u2.headRed]
          cases hh : headRed fs with
          | false => rfl
          | true => have := h3 hh; simp [isRed] at this
        | black =>
          obtain ⟨m', rfl, q1, q2⟩ := h1
          simp only [Rb] at q2
          subst q2
          exact ⟨q1, u2.ctxRb h2⟩

theorem insert_rb {lt : α → α → Bool} (hlt : StrictWeak lt) {s s' : VSet α} {e : Elem α} {b : Bool} {v : α}
    (hi : Inv lt s) (hr : ∃ m, Rb s.root m) (h : s.insert lt v = .ok (s', e, b)) : ∃ m, Rb s'.root m := by
  rcases findNode_ok (lt v) (fun u => lt u v) s.root [] none (by
      simp only [zip]; exact keyOK_of_sorted hlt hi.sorted v) (by simp [AllP, ctxL]) (by simp [AllP, ctxR]) rfl with
    ⟨c, n, l, e', r, gs, p, q1, q2, q3, q4⟩ | ⟨p, q1, q2, _⟩
  · simp only [VSet.insert, q1, Res.ok.injEq, Prod.mk.injEq] at h
    rw [← h.1]; exact hr
  · simp only [zip] at q2
    simp only [VSet.insert, q1, Res.bind_eq_ok] at h
    obtain ⟨t, h1, L, h2, h3⟩ := h
    simp only [Res.ok.injEq, Prod.mk.injEq] at h3
    obtain ⟨rfl, _, _⟩ := h3
    exact linkNode_rb q2 hr h1

theorem rb_size {t : Tree α} : ∀ {n : Nat}, Rb t n → 2 ^ n ≤ (toL t).length + 1 := by
  induction t with
  | nil => intro n h; simp only [Rb] at h; subst h; simp [toL]
  | node c k l e r ihl ihr =>
    intro n h
    simp only [toL, List.length_append, List.length_cons]
    cases c with
    | red =>
      obtain ⟨h1, h2, _, _⟩ := h
      have := ihl h1; omega
    | black =>
      obtain ⟨m, rfl, h1, h2⟩ := h
      have := ihl h1; have := ihr h2
      rw [Nat.pow_succ]; omega

theorem rb_height {t : Tree α} : ∀ {n : Nat}, Rb t n → t.height ≤ 2 * n + (if isRed t then 1 else 0) := by
  induction t with
  | nil => intro n h; simp [Tree.height]
  | node c k l e r ihl ihr =>
    intro n h
    simp only [Tree.height]
    cases c with
    | red =>
      obtain ⟨h1, h2, h3, h4⟩ := h
      have := ihl h1; have := ihr h2
      simp only [h3, h4, Bool.false_eq_true, if_false] at *
      simp only [isRed, if_true]; omega
    | black =>
      obtain ⟨m, rfl, h1, h2⟩ := h
      have a := ihl h1; have b := ihr h2
      simp only [isRed, Bool.false_eq_true, if_false]
      have : l.height ≤ 2 * m + 1 := by split at a <;> omega
      have : r.height ≤ 2 * m + 1 := by split at b <;> omega
      omega

theorem searchSteps_le (klt elt : α → Bool) (t : Tree α) : searchSteps klt elt t ≤ t.height := by
  induction t with
  | nil => simp [searchSteps, Tree.height]
  | node c k l e r ihl ihr =>
    simp only [searchSteps, Tree.height]
    split
    · omega
    · split <;> omega

theorem indexSteps_le (t : Tree α) : ∀ i, indexSteps t i ≤ t.height := by
  induction t with
  | nil => intro i; simp [indexSteps, Tree.height]
  | node c k l e r ihl ihr =>
    intro i
    simp only [indexSteps, Tree.height]
    split
    · have := ihl i; omega
    · split
      · have := ihr (i - (l.cnt + 1)); omega
      · omega

theorem rb_bound {t : Tree α} {n : Nat} (h : Rb t n) (hb : t = .nil ∨ BlackRoot t) :
    2 ^ t.height ≤ ((toL t).length + 1) ^ 2 := by
  have h1 := rb_size h
  have h2 := rb_height h
  have hr : isRed t = false := by
    rcases hb with rfl | hb
    · rfl
    · cases t with
      | nil => rfl
      | node c _ _ _ _ => cases c with
        | red => exact hb.elim
        | black => rfl
  rw [hr] at h2
  simp only [Bool.false_eq_true, if_false, Nat.add_zero] at h2
  calc 2 ^ t.height ≤ 2 ^ (2 * n) := Nat.pow_le_pow_right (by omega) h2
    _ = (2 ^ n) ^ 2 := by rw [Nat.mul_comm, Nat.pow_mul]
    _ ≤ _ := Nat.pow_le_pow_left h1 2

/-! ## Removing leaves -/

/-- The tree without colours and counters. -/
def skel : Tree α → Tree α
  | .nil => .nil
  | .node _ _ l e r => .node .black 0 (skel l) e (skel r)

theorem searchSteps_skel (klt elt : α → Bool) (t : Tree α) : searchSteps klt elt (skel t) = searchSteps klt elt t := by
  induction t with
  | nil => rfl
  | node c n l e r ihl ihr => simp only [skel, searchSteps, ihl, ihr]

theorem skel_zip {t t' : Tree α} {fs fs' : List (Frame α)} (ht : skel t = skel t') (h : SamePath fs fs') :
    skel (zip t fs) = skel (zip t' fs') := by
  induction fs generalizing t t' fs' with
  | nil => cases fs' with
    | nil => exact ht
    | cons => cases h
  | cons f fs ih => cases fs' with
    | nil => cases h
    | cons g gs =>
      obtain ⟨⟨h1, h2, h3, h4⟩, h5⟩ := h
      simp only [zip]
      refine ih ?_ h5
      unfold plug
      rw [h1, h3, h4]
      cases g.side <;> simp only [skel, ht]

/-- A non-empty tree has a leaf. -/
theorem exists_leaf : ∀ (t : Tree α), t ≠ .nil → ∃ c n e gs, zip (.node c n .nil e .nil) gs = t := by
  intro t
  induction t with
  | nil => intro h; simp at h
  | node c n l e r ihl ihr =>
    intro _
    by_cases hl : l = .nil
    · by_cases hr : r = .nil
      · subst hl hr; exact ⟨c, n, e, [], rfl⟩
      · obtain ⟨c', n', e', gs, h⟩ := ihr hr
        exact ⟨c', n', e', gs ++ [⟨.right, c, n, e, l⟩], by rw [zip_append, h]; rfl⟩
    · obtain ⟨c', n', e', gs, h⟩ := ihl hl
      exact ⟨c', n', e', gs ++ [⟨.left, c, n, e, r⟩], by rw [zip_append, h]; rfl⟩

/-- Unless the search visits every node, there is a leaf whose removal does not shorten the search. -/
theorem exists_spare_leaf (klt elt : α → Bool) : ∀ (t : Tree α), searchSteps klt elt t = (toL t).length ∨
    ∃ c n e gs, zip (.node c n .nil e .nil) gs = t ∧ searchSteps klt elt (zip .nil gs) = searchSteps klt elt t := by
  intro t
  induction t with
  | nil => left; rfl
  | node c n l e r ihl ihr =>
    by_cases h1 : klt e.val = true
    · by_cases hr : r = .nil
      · rcases ihl with h | ⟨c', n', e', gs, h2, h3⟩
        · left; simp only [searchSteps, h1, if_true, h, hr, toL]; simp
        · right
          refine ⟨c', n', e', gs ++ [⟨.left, c, n, e, r⟩], by rw [zip_append, h2]; rfl, ?_⟩
          rw [zip_append]; simp only [zip, plug, searchSteps, h1, if_true, h3]
      · obtain ⟨c', n', e', gs, h⟩ := exists_leaf r hr
        right
        refine ⟨c', n', e', gs ++ [⟨.right, c, n, e, l⟩], by rw [zip_append, h]; rfl, ?_⟩
        rw [zip_append]; simp only [zip, plug, searchSteps, h1, if_true]
    · by_cases h2 : elt e.val = true
      · by_cases hl : l = .nil
        · rcases ihr with h | ⟨c', n', e', gs, h3, h4⟩
          · left; simp [searchSteps, h1, h2, h, hl, toL]
          · right
            refine ⟨c', n', e', gs ++ [⟨.right, c, n, e, l⟩], by rw [zip_append, h3]; rfl, ?_⟩
            rw [zip_append]; simp [zip, plug, searchSteps, h1, h2, h4]
        · obtain ⟨c', n', e', gs, h⟩ := exists_leaf l hl
          right
          refine ⟨c', n', e', gs ++ [⟨.left, c, n, e, r⟩], by rw [zip_append, h]; rfl, ?_⟩
          rw [zip_append]; simp [zip, plug, searchSteps, h1, h2]
      · by_cases hl : l = .nil
        · by_cases hr : r = .nil
          · left; subst hl hr; simp [searchSteps, h1, h2, toL]
          · obtain ⟨c', n', e', gs, h⟩ := exists_leaf r hr
            right
            refine ⟨c', n', e', gs ++ [⟨.right, c, n, e, l⟩], by rw [zip_append, h]; rfl, ?_⟩
            rw [zip_append]; simp [zip, plug, searchSteps, h1, h2]
        · obtain ⟨c', n', e', gs, h⟩ := exists_leaf l hl
          right
          refine ⟨c', n', e', gs ++ [⟨.left, c, n, e, r⟩], by rw [zip_append, h]; rfl, ?_⟩
          rw [zip_append]; simp [zip, plug, searchSteps, h1, h2]

theorem locate_none {p : Nat} : ∀ (x : Tree α) (fs : List (Frame α)), (∀ a ∈ toL x, a.id ≠ p) → locate p x fs = none := by
  intro x
  induction x with
  | nil => intro fs _; rfl
  | node c n l e r ihl ihr =>
    intro fs h
    simp only [toL, List.mem_append, List.mem_cons] at h
    simp only [locate, if_neg (h e (Or.inr (Or.inl rfl))), ihl _ (fun a ha => h a (Or.inl ha)),
      ihr _ (fun a ha => h a (Or.inr (Or.inr ha)))]

/-- With unique addresses a node is found where it is. -/
theorem locate_zip {p : Nat} {tgt : Tree α} : ∀ (gs fs ps : List (Frame α)) (t : Tree α),
    (∀ a ∈ ctxL gs, a.id ≠ p) → (∀ a ∈ ctxR gs, a.id ≠ p) →
    (∀ hs, locate p t hs = some (tgt, ps ++ hs)) →
    locate p (zip t gs) fs = some (tgt, ps ++ gs ++ fs) := by
  intro gs
  induction gs with
  | nil => intro fs ps t _ _ h; simp [zip, h]
  | cons g gs ih =>
    intro fs ps t hL hR h
    obtain ⟨s, c, n, e, sib⟩ := g
    have := ih fs (ps ++ [⟨s, c, n, e, sib⟩]) (plug t ⟨s, c, n, e, sib⟩) (by
      intro a ha; apply hL; cases s <;> simp [ctxL, ha]) (by
      intro a ha; apply hR; cases s <;> simp [ctxR, ha]) (by
      intro hs
      cases s with
      | left =>
        have he : e.id ≠ p := hR e (by simp [ctxR])
        simp only [plug, locate, if_neg he, h]
        simp
      | right =>
        have he : e.id ≠ p := hL e (by simp [ctxL])
        simp only [plug, locate, if_neg he]
        rw [locate_none sib _ (fun a ha => hL a (by simp [ctxL, ha]))]
        simp [h])
    rw [zip, this]
    simp

theorem VSet.run_append (lt : α → α → Bool) : ∀ (ops ops' : List (Spec.Op α)) (s : VSet α),
    s.run lt (ops ++ ops') = (do let (s', o) ← s.run lt ops; let (s'', o') ← s'.run lt ops'; .ok (s'', o ++ o')) := by
  intro ops
  induction ops with
  | nil =>
    intro ops' s
    simp only [List.nil_append, VSet.run, Res.ok_bind]
    cases s.run lt ops' <;> rfl
  | cons op ops ih =>
    intro ops' s
    simp only [List.cons_append, VSet.run]
    cases s.step lt op with
    | ok r =>
      obtain ⟨s1, o⟩ := r
      simp only [Res.ok_bind, ih]
      cases s1.run lt ops with
      | ok r =>
        obtain ⟨s2, o2⟩ := r
        simp only [Res.ok_bind]
        cases s2.run lt ops' <;> rfl
      | throw e => rfl
      | ub => rfl
    | throw e => rfl
    | ub => rfl

theorem Reachable.step {lt : α → α → Bool} {s s' : VSet α} {op : Spec.Op α} {o : Spec.Out α} (h : Reachable lt s)
    (hs : s.step lt op = .ok (s', o)) : Reachable lt s' := by
  obtain ⟨ops, outs, h⟩ := h
  refine ⟨ops ++ [op], outs ++ [o], ?_⟩
  rw [VSet.run_append, h]
  simp only [Res.ok_bind, VSet.run, hs]

/-- Erasing a leaf only unlinks it. -/
theorem erase_leaf {lt : α → α → Bool} {s : VSet α} (hi : Inv lt s) {c : Color} {n : Nat} {e : Elem α}
    {gs : List (Frame α)} (h : zip (.node c n .nil e .nil) gs = s.root) :
    ∃ s', s.eraseNode e.id = .ok s' ∧ skel s'.root = skel (zip .nil gs) := by
  have hL : toL s.root = ctxL gs ++ e :: ctxR gs := by rw [← h, toL_zip]; simp [toL]
  have hu := hi.uniq
  rw [hL, Uniq, List.pairwise_append, List.pairwise_cons] at hu
  have hloc : locate e.id s.root [] = some (.node c n .nil e .nil, gs) := by
    rw [← h]
    have := locate_zip (p := e.id) (tgt := .node c n .nil e .nil) gs [] [] (.node c n .nil e .nil)
      (fun a ha => hu.2.2 a ha e (by simp)) (fun a ha => (hu.2.1.1 a ha).symm) (by intro hs; simp [locate])
    simpa using this
  simp only [VSet.eraseNode, hloc, removeTree, unlink, onlyChild, removeEnd, Res.ok_bind]
  exact ⟨_, rfl, skel_zip rfl (updPath_same _ _)⟩

/-- From any reachable set, removals alone lead to a set in which the search for a given key visits every element. -/
theorem prune {lt : α → α → Bool} (hlt : StrictWeak lt) (klt elt : α → Bool) : ∀ (m : Nat) (s : VSet α),
    (toL s.root).length = m → Reachable lt s →
    ∃ s', Reachable lt s' ∧ searchSteps klt elt s'.root = searchSteps klt elt s.root ∧
      (toL s'.root).length = searchSteps klt elt s.root := by
  intro m
  induction m with
  | zero =>
    intro s hm hr
    refine ⟨s, hr, rfl, ?_⟩
    have : s.root = .nil := by
      cases h : s.root with
      | nil => rfl
      | node => rw [h] at hm; simp [toL] at hm
    rw [this]; rfl
  | succ m ih =>
    intro s hm hr
    have hi := hr.inv hlt
    rcases exists_spare_leaf klt elt s.root with h | ⟨c, n, e, gs, h1, h2⟩
    · exact ⟨s, hr, rfl, h.symm⟩
    · obtain ⟨s', k1, k2⟩ := erase_leaf hi h1
      have hL : toL s.root = ctxL gs ++ e :: ctxR gs := by rw [← h1, toL_zip]; simp [toL]
      obtain ⟨s'', k3, k4, k5, _⟩ := eraseNode_ok hi hL
      rw [k1] at k3
      simp only [Res.ok.injEq] at k3
      subst k3
      have hstep : s.step lt (.eraseAt (ctxL gs).length) = .ok (s', .unit) := by
        have : s.list[(ctxL gs).length]? = some e := by rw [hi.list, hL]; simp
        simp only [VSet.step, this, k1, Res.ok_bind]
      have hst : searchSteps klt elt s'.root = searchSteps klt elt s.root := by
        rw [← searchSteps_skel, k2, searchSteps_skel, h2]
      obtain ⟨t, e1, e2, e3⟩ := ih s' (by
        rw [k4]; rw [hL] at hm; simp at hm ⊢; omega) (hr.step hstep)
      exact ⟨t, e1, by rw [e2, hst], by rw [e3, hst]⟩

theorem size_lt_pow_height (t : Tree α) : (toL t).length < 2 ^ t.height := by
  induction t with
  | nil => simp [toL, Tree.height]
  | node c n l e r ihl ihr =>
    simp only [toL, List.length_append, List.length_cons, Tree.height, Nat.pow_succ]
    have h1 : 2 ^ l.height ≤ 2 ^ max l.height r.height := Nat.pow_le_pow_right (by omega) (by omega)
    have h2 : 2 ^ r.height ≤ 2 ^ max l.height r.height := Nat.pow_le_pow_right (by omega) (by omega)
    omega

/-- Some element is as deep as the tree is high. -/
theorem exists_deep {lt : α → α → Bool} (hlt : StrictWeak lt) : ∀ (t : Tree α), t ≠ .nil → Sorted lt (toL t) →
    ∃ e ∈ toL t, searchSteps (lt e.val) (fun a => lt a e.val) t = t.height := by
  intro t
  induction t with
  | nil => intro h; simp at h
  | node c n l e r ihl ihr =>
    intro _ hs
    simp only [toL, Sorted, List.pairwise_append, List.pairwise_cons] at hs
    obtain ⟨hsl, ⟨hre, hsr⟩, hle⟩ := hs
    simp only [toL, Tree.height, searchSteps]
    by_cases hlr : r.height ≤ l.height
    · by_cases hl : l = .nil
      · refine ⟨e, by simp, ?_⟩
        simp only [hlt.irrefl, Bool.false_eq_true, if_false]
        subst hl
        simp only [Tree.height] at hlr ⊢
        simp; omega
      · obtain ⟨x, hx, hx2⟩ := ihl hl hsl
        refine ⟨x, by simp [hx], ?_⟩
        rw [if_pos (hle x hx e (by simp)), hx2]; omega
    · have hr : r ≠ .nil := by rintro rfl; simp [Tree.height] at hlr
      obtain ⟨x, hx, hx2⟩ := ihr hr hsr
      refine ⟨x, by simp [hx], ?_⟩
      have h1 := hre x hx
      simp only [hlt.asymm h1, h1, Bool.false_eq_true, if_false, if_true, hx2]; omega

end Verif.VectorSet
