import Verif.VectorSet.FindLemmas
import Verif.VectorSet.Spec

/-! # The invariant of `vector_set` and what each operation does to the sequence of nodes -/

namespace Verif.VectorSet

variable {α : Type}

/-- Strictly increasing. -/
def Sorted (lt : α → α → Bool) (L : List (Elem α)) : Prop := L.Pairwise (fun a b => lt a.val b.val = true)

structure Inv (lt : α → α → Bool) (s : VSet α) : Prop where
  cnt : CntOK s.root
  black : s.root = .nil ∨ BlackRoot s.root
  list : s.list = toL s.root
  uniq : Uniq (toL s.root)
  fresh : ∀ a ∈ toL s.root, a.id < s.nextId
  sorted : Sorted lt (toL s.root)

theorem keyOK_of_sorted {lt : α → α → Bool} (hlt : StrictWeak lt) {L : List (Elem α)} (h : Sorted lt L) (v : α) :
    KeyOK (lt v) (fun a => lt a v) L := by
  refine ⟨h.imp ?_, ?_⟩
  · intro a b hab
    exact ⟨fun h1 => hlt.trans _ _ _ h1 hab, fun h1 => hlt.trans _ _ _ hab h1⟩
  · rintro a _ ⟨h1, h2⟩
    simp only [hlt.asymm h1] at h2; cases h2

theorem Inv.empty (lt : α → α → Bool) : Inv lt (VSet.empty : VSet α) :=
  ⟨trivial, Or.inl rfl, rfl, List.Pairwise.nil, by simp [VSet.empty, toL], List.Pairwise.nil⟩

theorem updateCount_ok {c : Color} {n m : Nat} {l r : Tree α} {e : Elem α} {fs : List (Frame α)} (hl : CntOK l)
    (hr : CntOK r) (hf : FrOK m fs) (hm : m = n + 1) :
    ∃ fs', updateCount (.node c n l e r, fs) = .ok (.node c ((toL l).length + (toL r).length) l e r, fs') ∧
      SamePath fs' fs ∧ FrOK ((toL l).length + (toL r).length + 1) fs' := by
  simp only [updateCount, cnt_eq hl, cnt_eq hr]
  by_cases h : (toL l).length + (toL r).length ≠ n
  · rw [if_pos h]
    exact ⟨_, rfl, updPath_same _ _, updPath_ok hf⟩
  · rw [if_neg h]
    have h : (toL l).length + (toL r).length = n := by omega
    exact ⟨fs, by rw [h], SamePath.refl _, by rw [h, ← hm]; exact hf⟩

theorem linkNode_ok {lt : α → α → Bool} {root : Tree α} {e : Elem α} {p : Option (Cursor α)} (hc : CntOK root)
    (hb : root = .nil ∨ BlackRoot root) (hp : InsertPoint (lt e.val) (fun a => lt a e.val) root p) :
    ∃ t A B, linkNode lt e p = .ok t ∧ toL root = A ++ B ∧ AllP (fun a => lt a e.val) A ∧ AllP (lt e.val) B ∧
      toL t = A ++ e :: B ∧ CntOK t ∧ BlackRoot t := by
  cases p with
  | none =>
    simp only [InsertPoint] at hp
    subst hp
    exact ⟨.node .black 0 .nil e .nil, [], [], rfl, rfl, by simp [AllP], by simp [AllP], rfl, ⟨rfl, trivial, trivial⟩, trivial⟩
  | some cur =>
    obtain ⟨t, fs⟩ := cur
    cases t with
    | nil => exact hp.elim
    | node c n l pe r =>
      obtain ⟨hz, hp⟩ := hp
      subst hz
      have hbr : BlackRoot (zip (.node c n l pe r) fs) := by
        rcases hb with h | h
        · exact (zip_ne_nil (Or.inl (by simp)) h).elim
        · exact h
      obtain ⟨⟨hn, hl, hr⟩, hf⟩ := cntOK_zip.1 hc
      have hlen : (toL (.node c n l pe r)).length = n + 1 := by simp [toL]; omega
      have htb : TopBlack fs := topBlack_of_blackRoot hbr
      have hroot : fs = [] → c = .black := by
        rintro rfl
        simp only [zip] at hbr
        cases c with
        | red => exact hbr.elim
        | black => rfl
      have hleaf : CntOK (.node .red 0 .nil e .nil : Tree α) := ⟨rfl, trivial, trivial⟩
      have htop : ∀ (s : Side) (k : Nat) (sib : Tree α) (fs' : List (Frame α)), SamePath fs' fs →
          TopBlack (⟨s, c, k, pe, sib⟩ :: fs') := by
        intro s k sib fs' hs
        cases fs' with
        | nil =>
          have := hs.length
          exact hroot (List.eq_nil_of_length_eq_zero this.symm)
        | cons f fs' => exact hs.topBlack htb
      rcases hp with ⟨h1, rfl, hA, hB⟩ | ⟨h0, h1, rfl, hA, hB⟩
      · simp only [linkNode, h1, if_true]
        obtain ⟨fs', u1, u2, u3⟩ := updateCount_ok (c := c) (e := pe) hleaf hr hf hlen
        rw [u1]
        simp only [Res.ok_bind, goLeft]
        obtain ⟨t, b1, b2, b3, b4⟩ := balanceAfterInsert_ok
          (⟨.left, c, (toL (.node .red 0 .nil e .nil)).length + (toL r).length, pe, r⟩ :: fs') (.node .red 0 .nil e .nil) (by simp)
          (cntOK_zip.2 ⟨hleaf, by
            refine ⟨rfl, hr, ?_⟩
            exact u3⟩) (htop _ _ _ _ u2)
        obtain ⟨t', k1, k2, k3, k4⟩ := blackenRoot_ok (t := t) (by intro h; subst h; exact b4)
        refine ⟨t', ctxL fs, pe :: toL r ++ ctxR fs, by rw [b1]; exact k1, ?_, hA, hB, ?_, k3 b3, k4⟩
        · rw [toL_zip]; simp [toL]
        · rw [k2, b2, toL_zip]; simp [toL, ctxL, ctxR, u2.ctx.1, u2.ctx.2]
      · simp only [linkNode, h0, Bool.false_eq_true, if_false]
        obtain ⟨fs', u1, u2, u3⟩ := updateCount_ok (c := c) (e := pe) hl hleaf hf hlen
        rw [u1]
        simp only [Res.ok_bind, goRight]
        obtain ⟨t, b1, b2, b3, b4⟩ := balanceAfterInsert_ok
          (⟨.right, c, (toL l).length + (toL (.node .red 0 .nil e .nil)).length, pe, l⟩ :: fs') (.node .red 0 .nil e .nil) (by simp)
          (cntOK_zip.2 ⟨hleaf, by
            refine ⟨Nat.add_comm _ _, hl, ?_⟩
            exact u3⟩) (htop _ _ _ _ u2)
        obtain ⟨t', k1, k2, k3, k4⟩ := blackenRoot_ok (t := t) (by intro h; subst h; exact b4)
        refine ⟨t', ctxL fs ++ toL l ++ [pe], ctxR fs, by rw [b1]; exact k1, ?_, hA, hB, ?_, k3 b3, k4⟩
        · rw [toL_zip]; simp [toL]
        · rw [k2, b2, toL_zip]; simp [toL, ctxL, ctxR, u2.ctx.1, u2.ctx.2]

theorem linkList_ok {root : Tree α} {A B : List (Elem α)} {e : Elem α} (hr : toL root = A ++ e :: B)
    (hu : Uniq (A ++ e :: B)) : linkList e root (A ++ B) = .ok (A ++ e :: B) := by
  rcases locate_ok e.id root [] with ⟨c, n, l, e', r, gs, q1, q2, q3⟩ | ⟨_, q2⟩
  · simp only [zip] at q2
    have h : (ctxL gs ++ toL l) ++ e' :: (toL r ++ ctxR gs) = A ++ e :: B := by
      rw [← hr, ← q2, toL_zip]; simp [toL]
    obtain ⟨h1, h2, h3⟩ := uniq_split (by rw [h]; exact hu) h q3
    simp only [linkList, q1, getPredecessor_ok, Res.ok_bind, h1]
    rcases List.eq_nil_or_concat A with rfl | ⟨A', p, rfl⟩
    · simp
    · have : (A'.concat p).getLast? = some p := by simp
      rw [this]
      simp only [List.concat_eq_append, List.append_assoc, List.cons_append, List.nil_append] at hu ⊢
      refine insertAfterId_ok ?_
      refine List.Pairwise.sublist ?_ hu
      exact List.Sublist.append_left (List.Sublist.cons_cons _ (List.Sublist.cons _ (List.Sublist.refl _))) _
  · exact (q2 e (by rw [hr]; simp) rfl).elim

theorem insert_ok {lt : α → α → Bool} (hlt : StrictWeak lt) {s : VSet α} (hi : Inv lt s) (v : α) :
    (∃ e X Y, s.insert lt v = .ok (s, e, false) ∧ toL s.root = X ++ e :: Y ∧ lt v e.val = false ∧ lt e.val v = false) ∨
    (∃ s' A B, s.insert lt v = .ok (s', ⟨s.nextId, v⟩, true) ∧ toL s.root = A ++ B ∧ AllP (fun a => lt a v) A ∧
      AllP (lt v) B ∧ toL s'.root = A ++ ⟨s.nextId, v⟩ :: B ∧ Inv lt s' ∧ s'.nextId = s.nextId + 1) := by
  rcases findNode_ok (lt v) (fun u => lt u v) s.root [] none (by
      simp only [zip]; exact keyOK_of_sorted hlt hi.sorted v) (by simp [AllP, ctxL]) (by simp [AllP, ctxR]) rfl with
    ⟨c, n, l, e, r, gs, p, q1, q2, q3, q4⟩ | ⟨p, q1, q2, _⟩
  · left
    simp only [zip] at q2
    refine ⟨e, ctxL gs ++ toL l, toL r ++ ctxR gs, by simp only [VSet.insert, q1], ?_, q3, q4⟩
    rw [← q2, toL_zip]; simp [toL]
  · right
    simp only [zip] at q2
    obtain ⟨t, A, B, k1, k2, k3, k4, k5, k6, k7⟩ := linkNode_ok (e := ⟨s.nextId, v⟩) hi.cnt hi.black q2
    have hu : Uniq (A ++ ⟨s.nextId, v⟩ :: B) := by
      have h0 := hi.uniq
      rw [k2] at h0
      have hf := hi.fresh
      rw [k2] at hf
      rw [Uniq, List.pairwise_append] at h0 ⊢
      refine ⟨h0.1, List.pairwise_cons.2 ⟨?_, h0.2.1⟩, ?_⟩
      · intro a ha; have := hf a (by simp [ha]); simp only; omega
      · intro a ha b hb
        rcases List.mem_cons.1 hb with rfl | hb
        · have := hf a (by simp [ha]); simp only; omega
        · exact h0.2.2 a ha b hb
    have hs : Sorted lt (A ++ ⟨s.nextId, v⟩ :: B) := by
      have h0 := hi.sorted
      rw [k2] at h0
      rw [Sorted, List.pairwise_append] at h0 ⊢
      refine ⟨h0.1, List.pairwise_cons.2 ⟨k4, h0.2.1⟩, ?_⟩
      intro a ha b hb
      rcases List.mem_cons.1 hb with rfl | hb
      · exact k3 a ha
      · exact h0.2.2 a ha b hb
    have hll := linkList_ok (root := t) k5 hu
    rw [← k2, ← hi.list] at hll
    refine ⟨⟨t, A ++ ⟨s.nextId, v⟩ :: B, s.nextId + 1⟩, A, B, ?_, k2, k3, k4, k5, ?_, rfl⟩
    · simp only [VSet.insert, q1, k1, Res.ok_bind, hll]
    · refine ⟨k6, Or.inr k7, k5.symm, by simp only [k5]; exact hu, ?_, by simp only [k5]; exact hs⟩
      intro a ha
      have hf := hi.fresh
      rw [k2] at hf
      simp only [k5] at ha ⊢
      rcases List.mem_append.1 ha with ha | ha
      · have := hf a (by simp [ha]); omega
      · rcases List.mem_cons.1 ha with rfl | ha
        · simp
        · have := hf a (by simp [ha]); omega

theorem eraseNode_ok {lt : α → α → Bool} {s : VSet α} (hi : Inv lt s) {X Y : List (Elem α)} {e : Elem α}
    (h : toL s.root = X ++ e :: Y) :
    ∃ s', s.eraseNode e.id = .ok s' ∧ toL s'.root = X ++ Y ∧ Inv lt s' ∧ s'.nextId = s.nextId := by
  have hu := hi.uniq
  rcases locate_ok e.id s.root [] with ⟨c, n, l, e', r, gs, q1, q2, q3⟩ | ⟨_, q2⟩
  · simp only [zip] at q2
    have heq : (ctxL gs ++ toL l) ++ e' :: (toL r ++ ctxR gs) = X ++ e :: Y := by
      rw [← h, ← q2, toL_zip]; simp [toL]
    obtain ⟨h1, h2, h3⟩ := uniq_split (by rw [heq, ← h]; exact hu) heq q3
    have hbr : BlackRoot (zip (.node c n l e' r) gs) := by
      rcases hi.black with hb | hb
      · rw [← q2] at hb; exact (zip_ne_nil (Or.inl (by simp)) hb).elim
      · rw [q2]; exact hb
    obtain ⟨t, k1, k2, k3, k4⟩ := removeTree_ok (by rw [q2]; exact hi.cnt) hbr
    have k2' : toL t = X ++ Y := by rw [k2, ← h1, ← h3]; simp
    have hsub : (X ++ Y).Sublist (toL s.root) := by
      rw [h]; exact List.Sublist.append_left (List.Sublist.cons _ (List.Sublist.refl _)) _
    have hl : removeId e.id s.list = X ++ Y := by
      rw [hi.list, h]
      exact removeId_ok (by rw [← h]; exact hu)
    refine ⟨⟨t, X ++ Y, s.nextId⟩, ?_, k2', ⟨k3, k4, k2'.symm, ?_, ?_, ?_⟩, rfl⟩
    · simp only [VSet.eraseNode, q1, k1, Res.ok_bind, hl]
    · simp only [k2']; exact hu.sublist hsub
    · intro a ha
      simp only [k2'] at ha
      exact hi.fresh a (hsub.subset ha)
    · simp only [k2']; exact hi.sorted.sublist hsub
  · exact (q2 e (by rw [h]; simp) rfl).elim

theorem clear_ok {lt : α → α → Bool} (s : VSet α) : Inv lt s.clear ∧ toL s.clear.root = [] :=
  ⟨⟨trivial, Or.inl rfl, rfl, List.Pairwise.nil, by simp [VSet.clear, toL], List.Pairwise.nil⟩, rfl⟩

theorem findNode_root {klt elt : α → Bool} {s : VSet α} (hk : KeyOK klt elt (toL s.root)) :
    (∃ c n l e r gs p X Y, findNode klt elt s.root [] none = (some (.node c n l e r, gs), p) ∧
      toL s.root = X ++ e :: Y ∧ klt e.val = false ∧ elt e.val = false) ∨
    (∃ p, findNode klt elt s.root [] none = (none, p) ∧ ∀ a ∈ toL s.root, klt a.val = true ∨ elt a.val = true) := by
  rcases findNode_ok klt elt s.root [] none (by simpa [zip] using hk) (by simp [AllP, ctxL]) (by simp [AllP, ctxR]) rfl with
    ⟨c, n, l, e, r, gs, p, q1, q2, q3, q4⟩ | ⟨p, q1, q2, A, B, h1, h2, h3⟩
  · left
    simp only [zip] at q2
    refine ⟨c, n, l, e, r, gs, p, ctxL gs ++ toL l, toL r ++ ctxR gs, q1, ?_, q3, q4⟩
    rw [← q2, toL_zip]; simp [toL]
  · right
    refine ⟨p, q1, ?_⟩
    simp only [zip] at h1
    rw [h1]
    intro a ha
    rcases List.mem_append.1 ha with ha | ha
    · exact Or.inr (h2 a ha)
    · exact Or.inl (h3 a ha)

end Verif.VectorSet
