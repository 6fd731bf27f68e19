import Verif.VectorSet.Model

/-! # Helper lemmas: in-order sequences, counters and rotations -/

namespace Verif.VectorSet

variable {α : Type}

/-- The in-order sequence of nodes. -/
def toL : Tree α → List (Elem α)
  | .nil => []
  | .node _ _ l e r => toL l ++ e :: toL r

/-- All stored counters are right. -/
def CntOK : Tree α → Prop
  | .nil => True
  | .node _ n l _ r => n = (toL l).length + (toL r).length ∧ CntOK l ∧ CntOK r

/-- The nodes before the focus. -/
def ctxL : List (Frame α) → List (Elem α)
  | [] => []
  | f :: fs => match f.side with
    | .left => ctxL fs
    | .right => ctxL fs ++ toL f.sibling ++ [f.elem]

/-- The nodes after the focus. -/
def ctxR : List (Frame α) → List (Elem α)
  | [] => []
  | f :: fs => match f.side with
    | .left => f.elem :: (toL f.sibling ++ ctxR fs)
    | .right => ctxR fs

/-- The counters on the path are right when the focus has `m` nodes. -/
def FrOK (m : Nat) : List (Frame α) → Prop
  | [] => True
  | f :: fs => f.count = m + (toL f.sibling).length ∧ CntOK f.sibling ∧ FrOK (f.count + 1) fs

theorem cnt_eq {t : Tree α} (h : CntOK t) : t.cnt = (toL t).length := by
  cases t with
  | nil => rfl
  | node c n l e r => obtain ⟨rfl, _, _⟩ := h; simp [Tree.cnt, toL]; omega

theorem toL_plug (t : Tree α) (f : Frame α) :
    toL (plug t f) = (match f.side with
      | .left => toL t ++ f.elem :: toL f.sibling
      | .right => toL f.sibling ++ f.elem :: toL t) := by
  unfold plug; cases f.side <;> rfl

theorem toL_zip (t : Tree α) (fs : List (Frame α)) : toL (zip t fs) = ctxL fs ++ toL t ++ ctxR fs := by
  induction fs generalizing t with
  | nil => simp [zip, ctxL, ctxR]
  | cons f fs ih =>
    rw [zip, ih, toL_plug, ctxL, ctxR]
    cases f.side <;> simp

theorem cntOK_plug {t : Tree α} {f : Frame α} :
    CntOK (plug t f) ↔ f.count = (toL t).length + (toL f.sibling).length ∧ CntOK t ∧ CntOK f.sibling := by
  unfold plug; cases f.side <;> simp only [CntOK]
  constructor <;> (rintro ⟨h, h1, h2⟩; exact ⟨by omega, h2, h1⟩)

theorem cntOK_zip {t : Tree α} {fs : List (Frame α)} :
    CntOK (zip t fs) ↔ CntOK t ∧ FrOK (toL t).length fs := by
  induction fs generalizing t with
  | nil => simp [zip, FrOK]
  | cons f fs ih =>
    rw [zip, ih, cntOK_plug, FrOK]
    have : (toL (plug t f)).length = (toL t).length + (toL f.sibling).length + 1 := by
      rw [toL_plug]; cases f.side <;> simp <;> omega
    rw [this]
    constructor
    · rintro ⟨⟨h1, h2, h3⟩, h4⟩; exact ⟨h2, h1, h3, by rwa [h1]⟩
    · rintro ⟨h2, h1, h3, h4⟩; exact ⟨⟨h1, h2, h3⟩, by rwa [h1] at h4⟩

/-- Everything but the counters of two paths agrees. -/
def SamePath : List (Frame α) → List (Frame α) → Prop
  | [], [] => True
  | f :: fs, g :: gs => (f.side = g.side ∧ f.color = g.color ∧ f.elem = g.elem ∧ f.sibling = g.sibling) ∧ SamePath fs gs
  | _, _ => False

theorem SamePath.refl (fs : List (Frame α)) : SamePath fs fs := by
  induction fs with
  | nil => trivial
  | cons f fs ih => exact ⟨⟨rfl, rfl, rfl, rfl⟩, ih⟩

theorem SamePath.ctx {fs gs : List (Frame α)} (h : SamePath fs gs) : ctxL fs = ctxL gs ∧ ctxR fs = ctxR gs := by
  induction fs generalizing gs with
  | nil => cases gs with
    | nil => exact ⟨rfl, rfl⟩
    | cons => cases h
  | cons f fs ih => cases gs with
    | nil => cases h
    | cons g gs =>
      obtain ⟨⟨h1, h2, h3, h4⟩, h5⟩ := h
      obtain ⟨h6, h7⟩ := ih h5
      simp only [ctxL, ctxR, h1, h3, h4, h6, h7, and_self]

theorem SamePath.length {fs gs : List (Frame α)} (h : SamePath fs gs) : fs.length = gs.length := by
  induction fs generalizing gs with
  | nil => cases gs with
    | nil => rfl
    | cons => cases h
  | cons f fs ih => cases gs with
    | nil => cases h
    | cons g gs => simp [ih h.2]

theorem updPath_same (n : Nat) (fs : List (Frame α)) : SamePath (updPath n fs) fs := by
  induction fs generalizing n with
  | nil => trivial
  | cons f fs ih =>
    simp only [updPath]
    split
    · exact ⟨⟨rfl, rfl, rfl, rfl⟩, ih _⟩
    · exact SamePath.refl _

/-- The early stop of `UpdateCount` is right: on a path that was right for a focus of `m` nodes, updating for `n`
nodes gives a path that is right for `n` nodes. -/
theorem updPath_ok {m n : Nat} {fs : List (Frame α)} (h : FrOK m fs) : FrOK n (updPath n fs) := by
  induction fs generalizing m n with
  | nil => trivial
  | cons f fs ih =>
    obtain ⟨h1, h2, h3⟩ := h
    have hc := cnt_eq h2
    simp only [updPath]
    split
    · exact ⟨by simp only; omega, h2, ih h3⟩
    · rename_i hn
      exact ⟨by omega, h2, h3⟩

theorem updPath_id {n : Nat} {fs : List (Frame α)} (h : FrOK n fs) : updPath n fs = fs := by
  cases fs with
  | nil => rfl
  | cons f fs =>
    obtain ⟨h1, h2, h3⟩ := h
    have hc := cnt_eq h2
    simp only [updPath]
    rw [if_neg (by omega)]

theorem rotateLeft_eq {cx cy : Color} {nx ny : Nat} {a b c : Tree α} {ex ey : Elem α} {fs : List (Frame α)}
    (h : CntOK (.node cx nx a ex (.node cy ny b ey c))) (hf : FrOK (nx + 1) fs) :
    rotateLeft (.node cx nx a ex (.node cy ny b ey c), fs) =
      .ok (.node cy nx (.node cx ((toL a).length + (toL b).length) a ex b) ey c, fs) := by
  obtain ⟨h1, h2, h3, h4, h5⟩ := h
  have ha := cnt_eq h2
  have hb := cnt_eq h4
  have hc := cnt_eq h5
  simp only [toL, List.length_append, List.length_cons] at h1
  have e1 : a.cnt + b.cnt ≠ nx := by omega
  have e2 : a.cnt + b.cnt + 1 + c.cnt ≠ ny := by omega
  have e3 : a.cnt + b.cnt + 1 + c.cnt = nx := by omega
  simp only [rotateLeft, updateCount, ne_eq, e1, not_false_eq_true, if_true, updPath, e2, Res.ok_bind]
  rw [e3, updPath_id hf, ha, hb]
  rfl

theorem rotateRight_eq {cx cy : Color} {nx ny : Nat} {a b c : Tree α} {ex ey : Elem α} {fs : List (Frame α)}
    (h : CntOK (.node cy ny (.node cx nx a ex b) ey c)) (hf : FrOK (ny + 1) fs) :
    rotateRight (.node cy ny (.node cx nx a ex b) ey c, fs) =
      .ok (.node cx ny a ex (.node cy ((toL b).length + (toL c).length) b ey c), fs) := by
  obtain ⟨h1, ⟨h2, h3, h4⟩, h5⟩ := h
  have ha := cnt_eq h3
  have hb := cnt_eq h4
  have hc := cnt_eq h5
  simp only [toL, List.length_append, List.length_cons] at h1
  have e1 : b.cnt + c.cnt ≠ ny := by omega
  have e2 : b.cnt + c.cnt + 1 + a.cnt ≠ nx := by omega
  have e3 : b.cnt + c.cnt + 1 + a.cnt = ny := by omega
  simp only [rotateRight, updateCount, ne_eq, e1, not_false_eq_true, if_true, updPath, e2, Res.ok_bind]
  rw [e3, updPath_id hf, hb, hc]
  rfl

/-- The tree is not empty and its root is black. -/
def BlackRoot : Tree α → Prop
  | .node .black _ _ _ _ => True
  | _ => False

theorem blackenRoot_node (c : Color) (n : Nat) (l : Tree α) (e : Elem α) (r : Tree α) :
    blackenRoot (.node c n l e r) = .ok (.node .black n l e r) := rfl

/-- The topmost frame (the root) is black. -/
def TopBlack : List (Frame α) → Prop
  | [] => True
  | [f] => f.color = .black
  | _ :: g :: fs => TopBlack (g :: fs)

theorem TopBlack.tail {f : Frame α} {fs : List (Frame α)} (h : TopBlack (f :: fs)) : TopBlack fs := by
  cases fs with
  | nil => trivial
  | cons g gs => exact h

/-- The root of the tree under a non-empty path: a node with the colour of the topmost frame. -/
theorem blackRoot_zip {t : Tree α} {fs : List (Frame α)} (h : TopBlack fs) (hne : fs ≠ []) : BlackRoot (zip t fs) := by
  induction fs generalizing t with
  | nil => simp at hne
  | cons f fs ih =>
    rw [zip]
    cases fs with
    | nil =>
      simp only [TopBlack] at h
      simp only [zip, plug]
      cases f.side <;> simp [h, BlackRoot]
    | cons g gs => exact ih h (by simp)

theorem blackenRoot_zip {t : Tree α} {fs : List (Frame α)} (h : t ≠ .nil ∨ fs ≠ []) :
    ∃ c n l e r, zip t fs = .node c n l e r := by
  induction fs generalizing t with
  | nil =>
    cases t with
    | nil => simp at h
    | node c n l e r => exact ⟨c, n, l, e, r, rfl⟩
  | cons f fs ih =>
    rw [zip]
    apply ih
    left
    unfold plug; cases f.side <;> simp

/-- Blackening the root changes neither the sequence nor the counters. -/
theorem blackenRoot_ok {t : Tree α} (h : t ≠ .nil) :
    ∃ t', blackenRoot t = .ok t' ∧ toL t' = toL t ∧ (CntOK t → CntOK t') ∧ BlackRoot t' := by
  cases t with
  | nil => simp at h
  | node c n l e r => exact ⟨.node .black n l e r, rfl, rfl, id, trivial⟩

theorem zip_ne_nil {t : Tree α} {fs : List (Frame α)} (h : t ≠ .nil ∨ fs ≠ []) : zip t fs ≠ .nil := by
  obtain ⟨c, n, l, e, r, h'⟩ := blackenRoot_zip h
  rw [h']; simp

theorem plug_ne_nil (t : Tree α) (f : Frame α) : plug t f ≠ .nil := by
  unfold plug; cases f.side <;> simp

end Verif.VectorSet
