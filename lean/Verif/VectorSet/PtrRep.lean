import Verif.VectorSet.PtrModel
import Verif.VectorSet.Basic
import Mathlib.Data.List.Perm.Subperm

/-! # Heaps that hold a tree: what the fields of the nodes are, and how to run code on them -/

namespace Verif.VectorSet.Heap

open QuickList (upd)

variable {α β γ : Type}

/-! ## Running code -/

@[simp] theorem bind_apply (x : M α β) (f : β → M α γ) (m : Mem α) :
    (x >>= f) m = (match x m with | .ok (b, m') => f b m' | .throw e => .throw e | .ub => .ub) := rfl

@[simp] theorem pure_apply (b : β) (m : Mem α) : (pure b : M α β) m = .ok (b, m) := rfl

@[simp] theorem getRoot_apply (m : Mem α) : getRoot m = .ok (m.root, m) := rfl
@[simp] theorem setRoot_apply (p : Ptr) (m : Mem α) : setRoot p m = .ok ((), { m with root := p }) := rfl
@[simp] theorem fuel_apply (m : Mem α) : fuel m = .ok (2 * m.next + 3, m) := rfl

@[simp] theorem ite_apply' {c : Prop} [Decidable c] (x y : M α β) (m : Mem α) : (if c then x else y) m = if c then x m else y m := by
  split <;> rfl

theorem rd_ok {m : Mem α} {a : Nat} {c : Cell α} (h : m.node a = some c) : rd (some a) m = .ok (c, m) := by simp [rd, h]

theorem wr_ok {m : Mem α} {a : Nat} {c : Cell α} (f : Cell α → Cell α) (h : m.node a = some c) :
    wr (some a) f m = .ok ((), m.set a (f c)) := by simp [wr, h]

@[simp] theorem set_node (m : Mem α) (a b : Nat) (c : Cell α) : (m.set a c).node b = if b = a then some c else m.node b := rfl
@[simp] theorem set_root (m : Mem α) (a : Nat) (c : Cell α) : (m.set a c).root = m.root := rfl
@[simp] theorem set_links (m : Mem α) (a : Nat) (c : Cell α) : (m.set a c).links = m.links := rfl
@[simp] theorem set_next (m : Mem α) (a : Nat) (c : Cell α) : (m.set a c).next = m.next := rfl

/-- Neither the list nor the set of allocated nodes changes. -/
structure Kept (m m' : Mem α) : Prop where
  links : m'.links = m.links
  next : m'.next = m.next
  dom : ∀ i, m'.node i = none ↔ m.node i = none

theorem Kept.refl (m : Mem α) : Kept m m := ⟨rfl, rfl, fun _ => Iff.rfl⟩

theorem Kept.trans {m m' m'' : Mem α} (h : Kept m m') (h' : Kept m' m'') : Kept m m'' :=
  ⟨h'.links.trans h.links, h'.next.trans h.next, fun i => (h'.dom i).trans (h.dom i)⟩

theorem Kept.set {m : Mem α} {a : Nat} {c c' : Cell α} (h : m.node a = some c) : Kept m (m.set a c') :=
  ⟨rfl, rfl, fun i => by simp only [set_node]; split <;> simp_all⟩

theorem Kept.setRoot (m : Mem α) (p : Ptr) : Kept m { m with root := p } := ⟨rfl, rfl, fun _ => Iff.rfl⟩

/-! ## Trees in memory -/

/-- The pointer to a tree. -/
def tptr : Tree α → Ptr
  | .nil => none
  | .node _ _ _ e _ => some e.id

theorem tptr_nil : tptr (.nil : Tree α) = none := rfl
theorem tptr_node (c : Color) (n : Nat) (l : Tree α) (e : Elem α) (r : Tree α) : tptr (.node c n l e r) = some e.id := rfl

/-- The pointer to the nearest ancestor. -/
def pptr : List (Frame α) → Ptr
  | [] => none
  | f :: _ => some f.elem.id

/-- The pointer to the root. -/
def topPtr (p : Ptr) : List (Frame α) → Ptr
  | [] => p
  | f :: fs => topPtr (some f.elem.id) fs

def idsT : Tree α → List Nat
  | .nil => []
  | .node _ _ l e r => e.id :: (idsT l ++ idsT r)

def idsF : List (Frame α) → List Nat
  | [] => []
  | f :: fs => f.elem.id :: (idsT f.sibling ++ idsF fs)

/-- The members of the node of a frame whose child is `p`. -/
def fcell (p : Ptr) (f : Frame α) (par : Ptr) : Cell α :=
  match f.side with
  | .left => ⟨par, p, tptr f.sibling, f.color, f.count, f.elem.val⟩
  | .right => ⟨par, tptr f.sibling, p, f.color, f.count, f.elem.val⟩

/-- The nodes of the tree are in memory, with `par` as the parent of the root. -/
def RepT (h : Nat → Option (Cell α)) (par : Ptr) : Tree α → Prop
  | .nil => True
  | .node c n l e r => h e.id = some ⟨par, tptr l, tptr r, c, n, e.val⟩ ∧ RepT h (some e.id) l ∧ RepT h (some e.id) r

/-- The ancestors and their other subtrees are in memory, with `p` as the child of the nearest. -/
def RepF (h : Nat → Option (Cell α)) (p : Ptr) : List (Frame α) → Prop
  | [] => True
  | f :: fs => h f.elem.id = some (fcell p f (pptr fs)) ∧ RepT h (some f.elem.id) f.sibling ∧ RepF h (some f.elem.id) fs

/-- The memory holds the tree below `fs` with the subtree `t`. -/
structure RepC (m : Mem α) (t : Tree α) (fs : List (Frame α)) : Prop where
  tree : RepT m.node (pptr fs) t
  path : RepF m.node (tptr t) fs
  root : m.root = topPtr (tptr t) fs
  nodup : (idsT t ++ idsF fs).Nodup
  lt : ∀ i ∈ idsT t ++ idsF fs, i < m.next

theorem RepT.congr {h h' : Nat → Option (Cell α)} {par : Ptr} {t : Tree α} (hr : RepT h par t) (he : ∀ i ∈ idsT t, h' i = h i) :
    RepT h' par t := by
  induction t generalizing par with
  | nil => trivial
  | node c n l e r ihl ihr =>
    obtain ⟨h1, h2, h3⟩ := hr
    exact ⟨by rw [he _ (by simp [idsT])]; exact h1, ihl h2 (fun i hi => he i (by simp [idsT, hi])), ihr h3 (fun i hi => he i (by simp [idsT, hi]))⟩

theorem RepF.congr {h h' : Nat → Option (Cell α)} {p : Ptr} {fs : List (Frame α)} (hr : RepF h p fs) (he : ∀ i ∈ idsF fs, h' i = h i) :
    RepF h' p fs := by
  induction fs generalizing p with
  | nil => trivial
  | cons f fs ih =>
    obtain ⟨h1, h2, h3⟩ := hr
    exact ⟨by rw [he _ (by simp [idsF])]; exact h1, h2.congr (fun i hi => he i (by simp [idsF, hi])), ih h3 (fun i hi => he i (by simp [idsF, hi]))⟩

theorem tptr_mem {t : Tree α} {a : Nat} (h : tptr t = some a) : a ∈ idsT t := by
  cases t <;> simp_all [tptr, idsT]

theorem pptr_mem {fs : List (Frame α)} {a : Nat} (h : pptr fs = some a) : a ∈ idsF fs := by
  cases fs <;> simp_all [pptr, idsF]

/-- The same memory, seen from the parent. -/
theorem repC_plug {m : Mem α} {t : Tree α} {f : Frame α} {fs : List (Frame α)} : RepC m t (f :: fs) ↔ RepC m (plug t f) fs := by
  obtain ⟨s, c, n, e, sib⟩ := f
  have hp : (idsT t ++ idsF (⟨s, c, n, e, sib⟩ :: fs)).Perm (idsT (plug t ⟨s, c, n, e, sib⟩) ++ idsF fs) := by
    cases s
    · simp only [plug, idsT, idsF, List.cons_append, List.append_assoc]
      exact List.perm_middle
    · simp only [plug, idsT, idsF, List.cons_append, List.append_assoc]
      refine List.perm_middle.trans (List.Perm.cons _ ?_)
      rw [← List.append_assoc, ← List.append_assoc]
      exact List.Perm.append_right _ List.perm_append_comm
  constructor
  · rintro ⟨h1, ⟨h2, h3, h4⟩, h5, h6, h7⟩
    refine ⟨?_, ?_, ?_, hp.nodup_iff.1 h6, fun i hi => h7 i (hp.mem_iff.2 hi)⟩
    · cases s
      · exact ⟨h2, h1, h3⟩
      · exact ⟨h2, h3, h1⟩
    · cases s <;> exact h4
    · cases s <;> exact h5
  · rintro ⟨h1, h2, h5, h6, h7⟩
    cases s
    · obtain ⟨h3, h4, h8⟩ := h1
      exact ⟨h4, ⟨h3, h8, h2⟩, h5, hp.nodup_iff.2 h6, fun i hi => h7 i (hp.mem_iff.1 hi)⟩
    · obtain ⟨h3, h4, h8⟩ := h1
      exact ⟨h8, ⟨h3, h4, h2⟩, h5, hp.nodup_iff.2 h6, fun i hi => h7 i (hp.mem_iff.1 hi)⟩

theorem repC_zip {m : Mem α} {t : Tree α} {fs : List (Frame α)} : RepC m t fs ↔ RepC m (zip t fs) [] := by
  induction fs generalizing t with
  | nil => rfl
  | cons f fs ih => rw [repC_plug, ih]; rfl

theorem repC_left {m : Mem α} {c : Color} {n : Nat} {l r : Tree α} {e : Elem α} {fs : List (Frame α)} :
    RepC m (.node c n l e r) fs ↔ RepC m l (⟨.left, c, n, e, r⟩ :: fs) := (repC_plug (f := ⟨.left, c, n, e, r⟩)).symm

theorem repC_right {m : Mem α} {c : Color} {n : Nat} {l r : Tree α} {e : Elem α} {fs : List (Frame α)} :
    RepC m (.node c n l e r) fs ↔ RepC m r (⟨.right, c, n, e, l⟩ :: fs) := (repC_plug (f := ⟨.right, c, n, e, l⟩)).symm

theorem RepC.cell {m : Mem α} {c : Color} {n : Nat} {l r : Tree α} {e : Elem α} {fs : List (Frame α)} (h : RepC m (.node c n l e r) fs) :
    m.node e.id = some ⟨pptr fs, tptr l, tptr r, c, n, e.val⟩ := h.tree.1

theorem RepC.frame {m : Mem α} {t : Tree α} {f : Frame α} {fs : List (Frame α)} (h : RepC m t (f :: fs)) :
    m.node f.elem.id = some (fcell (tptr t) f (pptr fs)) := h.path.1

theorem length_le_of_nodup {l : List Nat} {n : Nat} (h : l.Nodup) (hl : ∀ i ∈ l, i < n) : l.length ≤ n := by
  have : l ⊆ List.range n := fun i hi => List.mem_range.2 (hl i hi)
  simpa using (List.Nodup.subperm h this).length_le

theorem length_idsF (fs : List (Frame α)) : fs.length ≤ (idsF fs).length := by
  induction fs with
  | nil => simp
  | cons f fs ih => simp [idsF]; omega

/-- The nodes of a path are fewer than those that have been allocated. -/
theorem RepC.length {m : Mem α} {t : Tree α} {fs : List (Frame α)} (h : RepC m t fs) : (idsT t).length + fs.length ≤ m.next := by
  have := length_le_of_nodup h.nodup h.lt
  have := length_idsF fs
  simp at *
  omega

theorem RepC.next {m m' : Mem α} {t : Tree α} {fs : List (Frame α)} (h : RepC m t fs) (hn : m'.node = m.node) (hr : m'.root = m.root) (hx : m'.next = m.next) :
    RepC m' t fs := ⟨by rw [hn]; exact h.tree, by rw [hn]; exact h.path, by rw [hr]; exact h.root, h.nodup, by rw [hx]; exact h.lt⟩

/-! ## Writing colours and counters -/

/-- Writing the colour and the counter of the focus. -/
theorem RepC.write {m : Mem α} {c : Color} {n : Nat} {l r : Tree α} {e : Elem α} {fs : List (Frame α)} (h : RepC m (.node c n l e r) fs) (c' : Color) (n' : Nat) :
    RepC (m.set e.id ⟨pptr fs, tptr l, tptr r, c', n', e.val⟩) (.node c' n' l e r) fs := by
  obtain ⟨⟨h1, h2, h3⟩, h4, h5, h6, h7⟩ := h
  have h6' := h6
  simp only [idsT, List.cons_append, List.nodup_cons, List.mem_append, not_or] at h6'
  obtain ⟨⟨⟨hl, hr⟩, hf⟩, _⟩ := h6'
  refine ⟨⟨by simp, h2.congr fun i hi => ?_, h3.congr fun i hi => ?_⟩, h4.congr fun i hi => ?_, h5, h6, h7⟩
  all_goals
    simp only [set_node]
    rw [if_neg]
    rintro rfl
    contradiction

theorem setColor_ok {m : Mem α} {c : Color} {n : Nat} {l r : Tree α} {e : Elem α} {fs : List (Frame α)} (h : RepC m (.node c n l e r) fs) (c' : Color) :
    ∃ m', setColor (some e.id) c' m = .ok ((), m') ∧ RepC m' (.node c' n l e r) fs ∧ Kept m m' :=
  ⟨_, wr_ok _ h.cell, h.write c' n, Kept.set h.cell⟩

theorem setColor_frame {m : Mem α} {t : Tree α} {f : Frame α} {fs : List (Frame α)} (h : RepC m t (f :: fs)) (c' : Color) :
    ∃ m', setColor (some f.elem.id) c' m = .ok ((), m') ∧ RepC m' t ({ f with color := c' } :: fs) ∧ Kept m m' := by
  obtain ⟨s, c, n, e, sib⟩ := f
  rw [repC_plug] at h
  cases s
  · obtain ⟨m', h1, h2, h3⟩ := setColor_ok h c'
    exact ⟨m', h1, repC_plug.2 h2, h3⟩
  · obtain ⟨m', h1, h2, h3⟩ := setColor_ok h c'
    exact ⟨m', h1, repC_plug.2 h2, h3⟩

theorem count_of {m : Mem α} {t : Tree α} {par : Ptr} {a : Nat} (h : RepT m.node par t) (ha : tptr t = some a) :
    ∃ c, m.node a = some c ∧ t.cnt = c.count + 1 := by
  cases t with
  | nil => simp [tptr] at ha
  | node c n l e r =>
    simp only [tptr, Option.some.injEq] at ha
    subst ha
    exact ⟨_, h.1, rfl⟩

theorem cnt_nil {t : Tree α} (h : tptr t = none) : t.cnt = 0 := by
  cases t with
  | nil => rfl
  | node => simp [tptr] at h

theorem upd_self {β : Type} (f : Nat → β) (a : Nat) (x y : β) : upd (upd f a x) a y = upd f a y := by
  funext i; simp only [upd]; split <;> rfl

@[simp] theorem set_set (m : Mem α) (a : Nat) (c c' : Cell α) : (m.set a c).set a c' = m.set a c' := by
  simp only [Mem.set, upd_self]

/-- One call of `UpdateCount` up to its recursion. -/
theorem updateCount_step {m : Mem α} {c : Color} {n : Nat} {l r : Tree α} {e : Elem α} {fs : List (Frame α)} (h : RepC m (.node c n l e r) fs) (k : Nat) :
    updateCount (k + 1) (some e.id) m =
      if l.cnt + r.cnt ≠ n ∧ pptr fs ≠ none then
        updateCount k (pptr fs) (m.set e.id ⟨pptr fs, tptr l, tptr r, c, l.cnt + r.cnt, e.val⟩)
      else .ok ((), m.set e.id ⟨pptr fs, tptr l, tptr r, c, l.cnt + r.cnt, e.val⟩) := by
  have hc := h.cell
  have hn := h.nodup
  obtain ⟨_, h2, h3⟩ := h.tree
  simp only [idsT, List.cons_append, List.nodup_cons, List.mem_append, not_or] at hn
  obtain ⟨⟨⟨hl, hr⟩, hf⟩, _⟩ := hn
  have key : ∀ (m' : Mem α) (x : Cell α), (m'.set e.id x).node e.id = some x := fun _ _ => by simp
  cases hlp : tptr l with
  | none =>
    have hl0 := cnt_nil hlp
    cases hrp : tptr r with
    | none =>
      have hr0 := cnt_nil hrp
      simp [updateCount, rd, wr, hc, hlp, hrp, hl0, hr0]
    | some b =>
      obtain ⟨cb, hb1, hb2⟩ := count_of h3 hrp
      have hbe : b ≠ e.id := by rintro rfl; exact hr (tptr_mem hrp)
      simp [updateCount, rd, wr, hc, hlp, hrp, hl0, hb1, hb2, hbe]
  | some a =>
    obtain ⟨ca, ha1, ha2⟩ := count_of h2 hlp
    have hae : a ≠ e.id := by rintro rfl; exact hl (tptr_mem hlp)
    cases hrp : tptr r with
    | none =>
      have hr0 := cnt_nil hrp
      simp [updateCount, rd, wr, hc, hlp, hrp, hr0, ha1, ha2, hae]
    | some b =>
      obtain ⟨cb, hb1, hb2⟩ := count_of h3 hrp
      have hbe : b ≠ e.id := by rintro rfl; exact hr (tptr_mem hrp)
      simp [updateCount, rd, wr, hc, hlp, hrp, ha1, ha2, hae, hb1, hb2, hbe]

/-- `UpdateCount` of the nearest ancestor, when the subtree has `n` elements. -/
theorem updateCount_path {m : Mem α} {t : Tree α} {f : Frame α} {fs : List (Frame α)} (h : RepC m t (f :: fs)) (k : Nat) (hk : fs.length < k) :
    ∃ m', updateCount k (some f.elem.id) m = .ok ((), m') ∧ RepC m' t (updPath t.cnt (f :: fs)) ∧ Kept m m' := by
  induction fs generalizing m t f k with
  | nil =>
    obtain ⟨k, rfl⟩ : ∃ j, k = j + 1 := ⟨k - 1, by simp at hk; omega⟩
    obtain ⟨s, c, n, e, sib⟩ := f
    have hp := repC_plug.1 h
    cases s
    all_goals
      have h1 := updateCount_step hp k
      refine ⟨_, by simpa [pptr] using h1, ?_, Kept.set hp.cell⟩
      simp only [updPath]
      have h2 := hp.write c
    · have := h2 (t.cnt + sib.cnt)
      split
      · exact repC_plug.2 this
      · rename_i hn
        simp only [ne_eq, Decidable.not_not] at hn
        rw [hn] at this ⊢
        exact repC_plug.2 this
    · have := h2 (sib.cnt + t.cnt)
      rw [Nat.add_comm t.cnt]
      split
      · exact repC_plug.2 this
      · rename_i hn
        simp only [ne_eq, Decidable.not_not] at hn
        rw [hn] at this ⊢
        exact repC_plug.2 this
  | cons g fs ih =>
    obtain ⟨k, rfl⟩ : ∃ j, k = j + 1 := ⟨k - 1, by simp at hk; omega⟩
    obtain ⟨s, c, n, e, sib⟩ := f
    have hp := repC_plug.1 h
    have hk' : fs.length < k := by simpa using hk
    cases s
    all_goals
      have h1 := updateCount_step hp k
      simp only [pptr, ne_eq, reduceCtorEq, not_false_eq_true, and_true] at h1
      simp only [updPath]
    · have h2 := hp.write c (t.cnt + sib.cnt)
      obtain ⟨m', u1, u2, u3⟩ := ih h2 k hk'
      by_cases hn : t.cnt + sib.cnt = n
      · refine ⟨_, by rw [h1, if_neg (by simpa using hn)], ?_, Kept.set hp.cell⟩
        rw [if_neg (by simpa using hn)]
        rw [hn] at h2 ⊢
        exact repC_plug.2 h2
      · refine ⟨m', by rw [h1, if_pos hn]; exact u1, ?_, (Kept.set hp.cell).trans u3⟩
        rw [if_pos (by simpa using hn)]
        exact repC_plug.2 u2
    · have h2 := hp.write c (sib.cnt + t.cnt)
      obtain ⟨m', u1, u2, u3⟩ := ih h2 k hk'
      rw [Nat.add_comm t.cnt]
      by_cases hn : sib.cnt + t.cnt = n
      · refine ⟨_, by rw [h1, if_neg (by simpa using hn)], ?_, Kept.set hp.cell⟩
        rw [if_neg (by simpa using hn)]
        rw [hn] at h2 ⊢
        exact repC_plug.2 h2
      · refine ⟨m', by rw [h1, if_pos hn]; exact u1, ?_, (Kept.set hp.cell).trans u3⟩
        rw [if_pos (by simpa using hn)]
        exact repC_plug.2 u2

/-- `UpdateCount` of the focus. -/
theorem updateCount_ok {m : Mem α} {t : Tree α} {fs : List (Frame α)} {cur : Cursor α} (h : RepC m t fs) (hu : VectorSet.updateCount (t, fs) = .ok cur) (k : Nat)
    (hk : fs.length < k) :
    ∃ m', updateCount k (tptr t) m = .ok ((), m') ∧ RepC m' cur.1 cur.2 ∧ Kept m m' := by
  cases t with
  | nil => simp [VectorSet.updateCount] at hu
  | node c n l e r =>
    obtain ⟨k, rfl⟩ : ∃ j, k = j + 1 := ⟨k - 1, by omega⟩
    simp only [VectorSet.updateCount] at hu
    have h1 := updateCount_step h k
    have h2 := h.write c (l.cnt + r.cnt)
    cases fs with
    | nil =>
      refine ⟨_, by simpa [pptr, tptr] using h1, ?_, Kept.set h.cell⟩
      split at hu <;> cases hu
      · exact h2
      · rename_i hn
        simp only [ne_eq, Decidable.not_not] at hn
        rw [hn] at h2 ⊢
        exact h2
    | cons f fs =>
      simp only [pptr, ne_eq, reduceCtorEq, not_false_eq_true, and_true] at h1
      split at hu
      · rename_i hn
        cases hu
        obtain ⟨m', u1, u2, u3⟩ := updateCount_path h2 k (by simpa using hk)
        exact ⟨m', by rw [show tptr (.node c n l e r) = some e.id from rfl, h1, if_pos hn]; exact u1, u2, (Kept.set h.cell).trans u3⟩
      · rename_i hn
        cases hu
        simp only [ne_eq, Decidable.not_not] at hn
        refine ⟨_, by rw [show tptr (.node c n l e r) = some e.id from rfl, h1, if_neg (by simpa using hn)], ?_, Kept.set h.cell⟩
        rw [hn] at h2 ⊢
        exact h2

end Verif.VectorSet.Heap
