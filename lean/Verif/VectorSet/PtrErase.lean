import Verif.VectorSet.PtrRemove
import Verif.VectorSet.RemoveLemmas

/-! # Removing a node in memory -/

namespace Verif.VectorSet.Heap

variable {α : Type}

/-- The subtree at `p` has `n` elements, told by its counter. -/
def CntAt (m : Mem α) (p : Ptr) (n : Nat) : Prop :=
  match p with
  | none => n = 0
  | some a => ∃ c, m.node a = some c ∧ n = c.count + 1

theorem cntAt_of {m : Mem α} {par : Ptr} {t : Tree α} (h : RepT m.node par t) : CntAt m (tptr t) t.cnt := by
  cases t with
  | nil => rfl
  | node c n l e r => exact ⟨_, h.1, rfl⟩

theorem CntAt.congr {m m' : Mem α} {p : Ptr} {n : Nat} (h : CntAt m p n) (he : ∀ a, p = some a → m'.node a = m.node a) : CntAt m' p n := by
  cases p with
  | none => exact h
  | some a => obtain ⟨c, h1, h2⟩ := h; exact ⟨c, by rw [he a rfl]; exact h1, h2⟩

theorem CntAt.set {m : Mem α} {p : Ptr} {n a : Nat} {c : Cell α} (h : CntAt m p n) (ha : p ≠ some a) : CntAt (m.set a c) p n :=
  h.congr fun b hb => by simp only [set_node]; rw [if_neg]; rintro rfl; exact ha hb

/-- One call of `UpdateCount` up to its recursion, for any node. -/
theorem updateCount_at {m : Mem α} {a : Nat} {par l r : Ptr} {c : Color} {n nl nr : Nat} {v : α} (h : m.node a = some ⟨par, l, r, c, n, v⟩)
    (hl : CntAt m l nl) (hr : CntAt m r nr) (hla : l ≠ some a) (hra : r ≠ some a) (k : Nat) :
    updateCount (k + 1) (some a) m =
      if nl + nr ≠ n ∧ par ≠ none then updateCount k par (m.set a ⟨par, l, r, c, nl + nr, v⟩) else .ok ((), m.set a ⟨par, l, r, c, nl + nr, v⟩) := by
  cases l with
  | none =>
    cases hl
    cases r with
    | none => cases hr; simp [updateCount, rd, wr, h]
    | some b =>
      obtain ⟨cb, hb1, rfl⟩ := hr
      have hbe : b ≠ a := fun he => hra (by rw [he])
      simp [updateCount, rd, wr, h, hb1, hbe]
  | some d =>
    obtain ⟨cd, hd1, rfl⟩ := hl
    have hde : d ≠ a := fun he => hla (by rw [he])
    cases r with
    | none => cases hr; simp [updateCount, rd, wr, h, hd1, hde]
    | some b =>
      obtain ⟨cb, hb1, rfl⟩ := hr
      have hbe : b ≠ a := fun he => hra (by rw [he])
      simp [updateCount, rd, wr, h, hd1, hde, hb1, hbe]

theorem idsF_same {fs gs : List (Frame α)} (h : SamePath fs gs) : idsF fs = idsF gs := by
  induction gs generalizing fs with
  | nil => cases fs with
    | nil => rfl
    | cons => exact h.elim
  | cons g gs ih =>
    obtain ⟨n, fs', rfl, h'⟩ := samePath_cons h
    simp only [idsF, ih h']

theorem pptr_same {fs gs : List (Frame α)} (h : SamePath fs gs) : pptr fs = pptr gs := by
  cases gs with
  | nil => cases fs with
    | nil => rfl
    | cons => exact h.elim
  | cons g gs => obtain ⟨n, fs', rfl, _⟩ := samePath_cons h; rfl

theorem topPtr_same {fs gs : List (Frame α)} (p : Ptr) (h : SamePath fs gs) : topPtr p fs = topPtr p gs := by
  induction gs generalizing fs p with
  | nil => cases fs with
    | nil => rfl
    | cons => exact h.elim
  | cons g gs ih =>
    obtain ⟨n, fs', rfl, h'⟩ := samePath_cons h
    simp only [topPtr, ih _ h']

/-- `UpdateCount` of the nearest ancestor; only the ancestors change. -/
theorem updateCount_frames {fs : List (Frame α)} : ∀ {m : Mem α} {p : Ptr} {n : Nat} {f : Frame α}, RepF m.node p (f :: fs) → (idsF (f :: fs)).Nodup →
    (∀ a, p = some a → a ∉ idsF (f :: fs)) → CntAt m p n → ∀ (k : Nat), fs.length < k →
    ∃ m', updateCount k (some f.elem.id) m = .ok ((), m') ∧ RepF m'.node p (updPath n (f :: fs)) ∧
      (∀ i, i ∉ idsF (f :: fs) → m'.node i = m.node i) ∧ m'.root = m.root ∧ Kept m m' := by
  induction fs with
  | nil =>
    intro m p n f h hn hp hc k hk
    obtain ⟨k, rfl⟩ : ∃ j, k = j + 1 := ⟨k - 1, by simp at hk; omega⟩
    obtain ⟨s, c, nf, e, sib⟩ := f
    obtain ⟨h1, h2, h3⟩ := h
    simp only [idsF, List.append_nil, List.nodup_cons] at hn
    have hpe : p ≠ some e.id := fun he => hp _ he (by simp [idsF])
    have hse : tptr sib ≠ some e.id := fun he => hn.1 (tptr_mem he)
    have hcs := cntAt_of h2
    cases s
    · simp only [fcell, pptr] at h1
      have hu := updateCount_at h1 hc hcs hpe hse k
      simp only [ne_eq, not_true_eq_false, and_false, if_false] at hu
      refine ⟨_, hu, ?_, ?_, rfl, Kept.set h1⟩
      · simp only [updPath]
        split
        · exact ⟨by simp [fcell, pptr], repT_set h2 hn.1, trivial⟩
        · rename_i he
          simp only [ne_eq, Decidable.not_not] at he
          exact ⟨by simp [fcell, pptr, he], repT_set h2 hn.1, trivial⟩
      · intro i hi
        simp only [idsF, List.mem_cons, not_or] at hi
        simp [hi.1]
    · simp only [fcell, pptr] at h1
      have hu := updateCount_at h1 hcs hc hse hpe k
      simp only [ne_eq, not_true_eq_false, and_false, if_false] at hu
      refine ⟨_, hu, ?_, ?_, rfl, Kept.set h1⟩
      · simp only [updPath, Nat.add_comm n]
        split
        · exact ⟨by simp [fcell, pptr], repT_set h2 hn.1, trivial⟩
        · rename_i he
          simp only [ne_eq, Decidable.not_not] at he
          exact ⟨by simp [fcell, pptr, he], repT_set h2 hn.1, trivial⟩
      · intro i hi
        simp only [idsF, List.mem_cons, not_or] at hi
        simp [hi.1]
  | cons g fs ih =>
    intro m p n f h hn hp hc k hk
    obtain ⟨k, rfl⟩ : ∃ j, k = j + 1 := ⟨k - 1, by simp at hk; omega⟩
    have hk' : fs.length < k := by simpa using hk
    obtain ⟨s, c, nf, e, sib⟩ := f
    obtain ⟨h1, h2, h3⟩ := h
    rw [idsF] at hn
    simp only [List.nodup_cons, List.mem_append, not_or] at hn
    obtain ⟨⟨hes, hef⟩, hns⟩ := hn
    rw [List.nodup_append] at hns
    obtain ⟨_, hnf, hdis⟩ := hns
    have hpe : p ≠ some e.id := fun he => hp _ he (by rw [idsF]; simp)
    have hse : tptr sib ≠ some e.id := fun he => hes (tptr_mem he)
    have hcs := cntAt_of h2
    -- the memory after the first node, and what the recursion does with it
    have key : ∀ (cell : Cell α), cell.count = n + sib.cnt →
        ∃ m', updateCount k (some g.elem.id) (m.set e.id cell) = .ok ((), m') ∧ RepF m'.node (some e.id) (updPath (n + sib.cnt + 1) (g :: fs)) ∧
          (∀ i, i ∉ idsF (g :: fs) → m'.node i = (m.set e.id cell).node i) ∧ m'.root = m.root ∧ Kept (m.set e.id cell) m' := by
      intro cell hcell
      exact ih (repF_set h3 hef) hnf (fun a ha => by cases ha; exact hef) ⟨cell, by simp, by rw [hcell]⟩ k hk'
    have fin : ∀ (cell : Cell α) (m' : Mem α), m.node e.id = some cell → (∀ cell', cell' = { cell with count := n + sib.cnt } →
        (∀ i, i ∉ idsF (g :: fs) → m'.node i = (m.set e.id cell').node i) → ∀ i, i ∉ idsF (⟨s, c, nf, e, sib⟩ :: g :: fs) → m'.node i = m.node i) := by
      intro cell m' _ cell' _ h5 i hi
      rw [idsF] at hi
      simp only [List.mem_cons, List.mem_append, not_or] at hi
      rw [h5 i hi.2.2]
      simp [hi.1]
    cases s
    · simp only [fcell, pptr_cons] at h1
      have hu := updateCount_at h1 hc hcs hpe hse k
      simp only [ne_eq, reduceCtorEq, not_false_eq_true, and_true] at hu
      simp only [updPath]
      by_cases he : n + sib.cnt = nf
      · rw [if_neg (by simpa using he)] at hu ⊢
        refine ⟨_, hu, ⟨by simp [fcell, pptr_cons, he], repT_set h2 hes, repF_set h3 hef⟩, ?_, rfl, Kept.set h1⟩
        intro i hi
        rw [idsF] at hi
        simp only [List.mem_cons, not_or] at hi
        simp [hi.1]
      · rw [if_pos (by simpa using he)] at hu ⊢
        obtain ⟨m', u1, u2, u3, u4, u5⟩ := key ⟨some g.elem.id, p, tptr sib, c, n + sib.cnt, e.val⟩ rfl
        refine ⟨m', hu.trans u1, ⟨?_, ?_, u2⟩, fin _ _ h1 _ rfl u3, u4, (Kept.set h1).trans u5⟩
        · rw [u3 _ hef]
          simp [fcell]
          split <;> rfl
        · exact (repT_set h2 hes).congr fun i hi => u3 i fun hi' => hdis i hi i hi' rfl
    · simp only [fcell, pptr_cons] at h1
      have hu := updateCount_at h1 hcs hc hse hpe k
      simp only [ne_eq, reduceCtorEq, not_false_eq_true, and_true] at hu
      rw [Nat.add_comm sib.cnt n] at hu
      simp only [updPath]
      by_cases he : n + sib.cnt = nf
      · rw [if_neg (by simpa using he)] at hu ⊢
        refine ⟨_, hu, ⟨by simp [fcell, pptr_cons, he], repT_set h2 hes, repF_set h3 hef⟩, ?_, rfl, Kept.set h1⟩
        intro i hi
        rw [idsF] at hi
        simp only [List.mem_cons, not_or] at hi
        simp [hi.1]
      · rw [if_pos (by simpa using he)] at hu ⊢
        obtain ⟨m', u1, u2, u3, u4, u5⟩ := key ⟨some g.elem.id, tptr sib, p, c, n + sib.cnt, e.val⟩ rfl
        refine ⟨m', hu.trans u1, ⟨?_, ?_, u2⟩, fin _ _ h1 _ rfl u3, u4, (Kept.set h1).trans u5⟩
        · rw [u3 _ hef]
          simp [fcell]
          split <;> rfl
        · exact (repT_set h2 hes).congr fun i hi => u3 i fun hi' => hdis i hi i hi' rfl

/-- `SetParent` of a node that is not among the ancestors. -/
theorem setParent_ok {m : Mem α} {x : Nat} {cx : Cell α} {p : Ptr} {n : Nat} {fs : List (Frame α)} (hx : m.node x = some cx) (hf : RepF m.node p fs)
    (hn : (idsF fs).Nodup) (hxf : x ∉ idsF fs) (hp : ∀ a, p = some a → a ∉ idsF fs) (hc : CntAt m p n) (hl : fs.length ≤ m.next) :
    ∃ m', setParent (some x) (pptr fs) m = .ok ((), m') ∧ RepF m'.node p (updPath n fs) ∧ m'.node x = some { cx with parent := pptr fs } ∧
      (∀ i, i ∉ idsF fs → i ≠ x → m'.node i = m.node i) ∧ m'.root = m.root ∧ Kept m m' := by
  have hw := wr_ok (fun c => { c with parent := pptr fs }) hx
  cases fs with
  | nil =>
    refine ⟨m.set x { cx with parent := none }, ?_, trivial, by simp [pptr], fun i _ hi => by simp [hi], rfl, Kept.set hx⟩
    have hrx : (m.set x { cx with parent := pptr ([] : List (Frame α)) }).node x = some { cx with parent := pptr ([] : List (Frame α)) } := by simp
    rw [setParent, bind_apply, hw]
    simp only []
    rw [bind_apply, rd_ok hrx]
    simp only [pptr, ne_eq, not_true_eq_false]
    rfl
  | cons f fs =>
    have hc' : CntAt (m.set x { cx with parent := pptr (f :: fs) }) p n := by
      cases p with
      | none => exact hc
      | some a =>
        obtain ⟨ca, h1, h2⟩ := hc
        by_cases ha : a = x
        · subst ha
          rw [hx] at h1
          cases h1
          exact ⟨{ cx with parent := pptr (f :: fs) }, by simp, h2⟩
        · exact ⟨ca, by simpa [ha] using h1, h2⟩
    obtain ⟨m', u1, u2, u3, u4, u5⟩ := updateCount_frames (repF_set (c := { cx with parent := pptr (f :: fs) }) hf hxf) hn hp hc' (2 * m.next + 3)
      (by simp at hl; omega)
    refine ⟨m', ?_, u2, ?_, ?_, u4, (Kept.set hx).trans u5⟩
    · have hrx : (m.set x { cx with parent := pptr (f :: fs) }).node x = some { cx with parent := pptr (f :: fs) } := by simp
      rw [pptr_cons] at hw hrx u1 ⊢
      rw [setParent, bind_apply, hw]
      simp only []
      rw [bind_apply, rd_ok hrx]
      simp only [ne_eq, reduceCtorEq, not_false_eq_true, if_true]
      rw [bind_apply, fuel_apply]
      simp only []
      rw [bind_apply, rd_ok hrx]
      exact u1
    · rw [u3 x hxf]; simp
    · intro i h1 h2
      rw [u3 i h1]; simp [h2]

/-- `SetLeft` or `SetRight` of the nearest ancestor. -/
theorem setChild_ok {m : Mem α} {p q : Ptr} {n : Nat} {f : Frame α} {fs : List (Frame α)} (hf : RepF m.node p (f :: fs))
    (hn : (idsF (f :: fs)).Nodup) (hq : ∀ a, q = some a → a ∉ idsF (f :: fs)) (hc : CntAt m q n) (hl : fs.length < m.next) :
    ∃ m', (match f.side with | .left => setLeft (some f.elem.id) q | .right => setRight (some f.elem.id) q : M α Unit) m = .ok ((), m') ∧
      RepF m'.node q (updPath n (f :: fs)) ∧ (∀ i, i ∉ idsF (f :: fs) → m'.node i = m.node i) ∧ m'.root = m.root ∧ Kept m m' := by
  obtain ⟨s, c, nf, e, sib⟩ := f
  obtain ⟨h1, h2, h3⟩ := hf
  have hn' := hn
  rw [idsF] at hn'
  simp only [List.nodup_cons, List.mem_append, not_or] at hn'
  have hqe : q ≠ some e.id := fun he => hq _ he (by rw [idsF]; simp)
  have hcell : (fcell q ⟨s, c, nf, e, sib⟩ (pptr fs)) = (fcell q ⟨s, c, nf, e, sib⟩ (pptr fs)) := rfl
  have hf' : RepF (m.set e.id (fcell q ⟨s, c, nf, e, sib⟩ (pptr fs))).node q (⟨s, c, nf, e, sib⟩ :: fs) :=
    ⟨by simp, repT_set h2 hn'.1.1, repF_set h3 hn'.1.2⟩
  obtain ⟨m', u1, u2, u3, u4, u5⟩ := updateCount_frames hf' hn hq (hc.set hqe) (2 * m.next + 3) (by omega)
  refine ⟨m', ?_, u2, ?_, u4, (Kept.set h1).trans u5⟩
  · cases s
    · simp only [fcell] at h1 u1 ⊢
      rw [setLeft, bind_apply, wr_ok _ h1]
      simp only []
      rw [bind_apply, fuel_apply]
      exact u1
    · simp only [fcell] at h1 u1 ⊢
      rw [setRight, bind_apply, wr_ok _ h1]
      simp only []
      rw [bind_apply, fuel_apply]
      exact u1
  · intro i hi
    rw [u3 i hi]
    rw [idsF] at hi
    simp only [List.mem_cons, not_or] at hi
    simp [hi.1]

/-! ## `y` leaves its place -/

theorem childOf_ok {m : Mem α} {par : Ptr} {c : Color} {n : Nat} {l r : Tree α} {e : Elem α} (h : RepT m.node par (.node c n l e r)) :
    childOf (some e.id) m = .ok (tptr (onlyChild l r), m) := by
  have hc := h.1
  cases l with
  | nil => simp [childOf, rd_ok hc, tptr_nil, onlyChild]
  | node => simp [childOf, rd_ok hc, tptr_node, onlyChild]

theorem unlink_ok {m : Mem α} {c : Color} {n : Nat} {l r : Tree α} {e : Elem α} {fs : List (Frame α)} (h : RepC m (.node c n l e r) fs)
    (hlr : l = .nil ∨ r = .nil) :
    ∃ m1 m2, liftChild (tptr (onlyChild l r)) (some e.id) m = .ok ((), m1) ∧ detach (tptr (onlyChild l r)) (some e.id) m1 = .ok ((), m2) ∧
      RepC m2 (onlyChild l r) (unlink (n + 1) (onlyChild l r) fs).2 ∧ m2.node e.id = m.node e.id ∧
      e.id ∉ idsT (onlyChild l r) ++ idsF (unlink (n + 1) (onlyChild l r) fs).2 ∧ SamePath (unlink (n + 1) (onlyChild l r) fs).2 fs ∧ Kept m m2 := by
  have hids : idsT (.node c n l e r) = e.id :: idsT (onlyChild l r) := by
    rcases hlr with rfl | rfl
    · simp [idsT, onlyChild]
    · cases l <;> simp [idsT, onlyChild]
  have hx : RepT m.node (some e.id) (onlyChild l r) := by
    cases l with
    | nil => exact h.tree.2.2
    | node => exact h.tree.2.1
  have hlen := h.length
  have hcell := h.cell
  have hnd := h.nodup
  have hlt := h.lt
  have hroot := h.root
  have hpath := h.path
  rw [hids] at hnd hlt hlen
  rw [tptr_node] at hpath hroot
  generalize onlyChild l r = x at *
  simp only [List.cons_append, List.nodup_cons, List.mem_append, not_or] at hnd
  obtain ⟨⟨hex, hef⟩, hnd⟩ := hnd
  have hnd' := hnd
  rw [List.nodup_append] at hnd'
  obtain ⟨hnx, hnf, hdis⟩ := hnd'
  simp only [List.length_cons] at hlen
  -- the first step
  obtain ⟨m1, gs, hun, hsame, e1, f1, t1, g1, r1, k1⟩ : ∃ m1 gs, (unlink (n + 1) x fs).2 = updPath x.cnt gs ∧ SamePath gs fs ∧
      liftChild (tptr x) (some e.id) m = .ok ((), m1) ∧ RepF m1.node (some e.id) gs ∧ RepT m1.node (pptr fs) x ∧ m1.node e.id = m.node e.id ∧
      m1.root = m.root ∧ Kept m m1 := by
    cases x with
    | nil => exact ⟨m, fs, rfl, SamePath.refl _, by simp [liftChild, tptr_nil], hpath, trivial, rfl, rfl, Kept.refl m⟩
    | node cx nx lx ex rx =>
      have hxf : ex.id ∉ idsF fs := fun hi => hdis ex.id (by simp [idsT]) ex.id hi rfl
      have hxe : e.id ≠ ex.id := fun he => hex (by simp [idsT, he])
      obtain ⟨m1, u1, u2, u3, u4, u5, u6⟩ := setParent_ok hx.1 hpath hnf hxf (fun a ha => by cases ha; exact hef) (n := n + 1) ⟨_, hcell, rfl⟩ (by omega)
      simp only [idsT, List.nodup_cons, List.mem_append, not_or] at hnx
      refine ⟨m1, _, rfl, updPath_same _ _, ?_, u2, ⟨by rw [u3], hx.2.1.congr fun i hi => ?_, hx.2.2.congr fun i hi => ?_⟩, u4 _ hef hxe, u5, u6⟩
      · rw [liftChild]
        rw [ite_apply', if_pos (by simp [tptr_node]), bind_apply, rd_ok hcell]
        exact u1
      · exact u4 i (fun hi' => hdis i (by simp [idsT, hi]) i hi' rfl) (fun he => hnx.1.1 (he ▸ hi))
      · exact u4 i (fun hi' => hdis i (by simp [idsT, hi]) i hi' rfl) (fun he => hnx.1.2 (he ▸ hi))
  rw [hun]
  have hidF := idsF_same hsame
  have hsame2 := (updPath_same x.cnt gs).trans hsame
  have hidF2 := idsF_same hsame2
  rw [← g1] at hcell
  refine ⟨m1, ?_⟩
  cases gs with
  | nil =>
    obtain rfl : fs = [] := by cases fs with | nil => rfl | cons => exact hsame.elim
    simp only [pptr] at hcell
    refine ⟨{ m1 with root := tptr x }, e1, ?_, ⟨t1, trivial, rfl, by simpa [idsF, updPath] using hnd, ?_⟩, g1, ?_, hsame2, k1.trans (Kept.setRoot _ _)⟩
    · simp [detach, rd_ok hcell]
    · intro i hi
      simp only [updPath] at hi
      rw [show ({ m1 with root := tptr x } : Mem α).next = m.next from k1.next]
      exact hlt i (by simp only [List.cons_append, List.mem_cons]; exact Or.inr hi)
    · simpa [updPath, idsF] using hex
  | cons f gs =>
    cases fs with
    | nil => exact hsame.elim
    | cons f0 fs =>
    have hp0 : pptr (f0 :: fs) = some f.elem.id := by rw [← pptr_same hsame]; rfl
    rw [hp0] at hcell
    have hlg : gs.length < m1.next := by
      have := length_le_of_nodup (n := m.next) hnf (fun i hi => hlt i (by simp [hi]))
      rw [← hidF] at this
      rw [k1.next]
      have h2 := length_idsF gs
      simp only [idsF, List.length_cons, List.length_append] at this
      omega
    have hqx : ∀ a, tptr x = some a → a ∉ idsF (f :: gs) := by
      intro a ha hi
      rw [hidF] at hi
      exact hdis a (tptr_mem ha) a hi rfl
    obtain ⟨m2, u1, u2, u3, u4, u5⟩ := setChild_ok f1 (by rw [hidF]; exact hnf) hqx (cntAt_of t1) hlg
    refine ⟨m2, e1, ?_, ⟨?_, u2, ?_, ?_, ?_⟩, ?_, ?_, hsame2, k1.trans u5⟩
    · obtain ⟨s, cf, nf, ef, sib⟩ := f
      have hfc := f1.1
      have hse : ¬ (some e.id = tptr sib) := by
        intro he
        apply hef
        rw [← hidF]
        simp [idsF, tptr_mem he.symm]
      rw [detach, bind_apply, rd_ok hcell]
      simp only [reduceCtorEq, if_false]
      rw [bind_apply, rd_ok hcell]
      simp only []
      rw [bind_apply, rd_ok hfc]
      simp only []
      cases s
      · rw [ite_apply', if_pos (by simp [fcell]), bind_apply, rd_ok hcell]
        exact u1
      · rw [ite_apply', if_neg (by simpa [fcell] using hse), bind_apply, rd_ok hcell]
        exact u1
    · rw [pptr_same hsame2]
      exact t1.congr fun i hi => u3 i fun hi' => hdis i hi i (hidF ▸ hi') rfl
    · rw [u4, r1, hroot, topPtr_same _ hsame2]
      rfl
    · rw [hidF2]; exact hnd
    · intro i hi
      rw [hidF2] at hi
      rw [u5.next, k1.next]
      exact hlt i (by simp only [List.cons_append, List.mem_cons]; exact Or.inr hi)
    · rw [u3 e.id (by rw [hidF]; exact hef), g1]
    · rw [hidF2]
      simp [hex, hef]

end Verif.VectorSet.Heap
