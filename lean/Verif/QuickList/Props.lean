import Verif.QuickList.StepLemmas

/-! # Properties C12 – C15, C66, C67 -/

namespace Verif.QuickList

/-- A user that walks list `s` forwards and backwards sees exactly `L`: the loops end (they need no more than
`L.length + 1` tests of the end condition), forwards yields `L`, backwards its reverse, `size()` and `empty()`
agree. -/
def Shows (h : Heap) (s : Nat) (L : List Nat) : Prop :=
  (∀ fuel, L.length < fuel → forward h s fuel = .ok (some L) ∧ backward h s fuel = .ok (some L.reverse) ∧
    size h s fuel = .ok (some L.length)) ∧
  isEmpty h s = .ok L.isEmpty

theorem RingOf.shows {h : Heap} {s : Nat} {L : List Nat} (hr : RingOf h s L) : Shows h s L := by
  refine ⟨fun fuel hf => ⟨hr.forward hf, hr.backward hf, ?_⟩, hr.isEmpty⟩
  simp [size, hr.forward hf]

/-- The history of the examples: two lists at 0 and 10, elements 1, 2, 3, 4, 5; list 0 becomes 1, 2, 3 and list 10
becomes 4, element 5 is in no list. -/
def exampleOps : List Op :=
  [.newList 0, .newList 10, .newElem 1, .newElem 2, .newElem 3, .newElem 4, .newElem 5, .pushBack 0 2, .pushFront 0 1,
    .insertIter 2 3, .pushBack 10 5, .insertReverseIter 5 4, .popBack 10]

def exampleOuts : List Out :=
  [.unit, .unit, .unit, .unit, .unit, .unit, .unit, .unit, .unit, .unit, .unit, .unit, .elem 5]

theorem exampleRun : ∃ σ, SpecRun Abs.empty exampleOps σ exampleOuts ∧ σ.lists 0 = some [1, 2, 3] ∧
    σ.lists 10 = some [4] ∧ σ.st 5 = .free ∧ σ.Unused 6 ∧ (∀ t M, σ.lists t = some M → t = 0 ∨ t = 10) := by
  refine ⟨_, .cons (.newList ⟨rfl, rfl⟩) (.cons (.newList ⟨rfl, rfl⟩) (.cons (.newElem ⟨rfl, rfl⟩)
    (.cons (.newElem ⟨rfl, rfl⟩) (.cons (.newElem ⟨rfl, rfl⟩) (.cons (.newElem ⟨rfl, rfl⟩) (.cons (.newElem ⟨rfl, rfl⟩)
    (.cons (.pushBack (L := []) rfl (.inl rfl)) (.cons (.pushFront (L := [2]) rfl (.inl rfl))
    (.cons (.insertIter (s := 0) (X := [1]) (Y := []) rfl (.inl rfl)) (.cons (.pushBack (L := []) rfl (.inl rfl))
    (.cons (.insertReverseIter (s := 10) (X := []) (Y := []) rfl (.inl rfl))
    (.cons (.popBack (L := [4]) (a := 5) rfl) .nil)))))))))))), rfl, rfl, rfl, ⟨rfl, rfl⟩, ?_⟩
  intro t M h
  by_cases h0 : t = 0
  · exact Or.inl h0
  by_cases h1 : t = 10
  · exact Or.inr h1
  simp [Abs.setList, Abs.setSt, Abs.empty, upd, h0, h1] at h

/-! ## C12 -/

/-- **C12.** Every history that a program may perform on a family of lists runs without undefined behaviour, returns
what the mathematical lists return, and afterwards every list shows its mathematical contents in both directions. -/
theorem c12_lists_are_sequences {ops : List Op} {σ : Abs} {os : List Out} (hrun : SpecRun Abs.empty ops σ os) :
    ∃ h, run emptyHeap ops = .ok (h, os) ∧ ∀ s L, σ.lists s = some L → Shows h s L := by
  obtain ⟨h, e1, e2⟩ := run_refines rep_empty hrun
  exact ⟨h, e1, fun s L hs => (e2.ring s L hs).shows⟩

example : ∃ h, run emptyHeap exampleOps = .ok (h, exampleOuts) ∧ Shows h 0 [1, 2, 3] ∧ Shows h 10 [4] := by
  obtain ⟨σ, hrun, h0, h10, -⟩ := exampleRun
  obtain ⟨h, e1, e2⟩ := c12_lists_are_sequences hrun
  exact ⟨h, e1, e2 0 _ h0, e2 10 _ h10⟩

/-- The lists and elements an operation names. -/
def Op.names : Op → List Nat
  | .newElem a | .destroyElem a | .erase a | .safeExclude a | .included a => [a]
  | .newList s | .destroyList s | .popFront s | .popBack s | .clear s | .empty s => [s]
  | .pushFront s a | .pushBack s a => [s, a]
  | .insertIter p a | .insertReverseIter p a => [p, a]
  | .spliceFront s t | .spliceBack s t | .moveConstructList s t | .moveAssignList s t => [s, t]
  | .moveConstruct b a | .moveAssign b a => [b, a]

/-- **C12** (frame). An operation leaves alone every list that it does not name and none of whose elements it
names. -/
theorem c12_other_lists_undisturbed {ops : List Op} {σ σ' : Abs} {os : List Out} {op : Op} {o : Out} {u : Nat}
    {N : List Nat} (hrun : SpecRun Abs.empty ops σ os) (hst : SpecStep σ op σ' o) (hu : σ.lists u = some N)
    (hn : ∀ x ∈ op.names, x ∉ u :: N) :
    ∃ h h', run emptyHeap ops = .ok (h, os) ∧ step h op = .ok (h', o) ∧ Shows h u N ∧ Shows h' u N := by
  obtain ⟨h, e1, e2⟩ := run_refines rep_empty hrun
  obtain ⟨h', e3, e4⟩ := step_refines e2 hst
  refine ⟨h, h', e1, e3, (e2.ring u N hu).shows, (e4.ring u N ?_).shows⟩
  have key : ∀ s X a Y, σ.lists s = some (X ++ a :: Y) → a ∈ op.names → u ≠ s := by
    intro s X a Y hs hm e
    subst e
    rw [hu] at hs; cases hs
    exact hn a hm (by simp)
  have key2 : ∀ s, s ∈ op.names → u ≠ s := by
    intro s hs e
    exact hn s hs (by simp [e])
  cases hst <;>
    simp only [Abs.setSt, Abs.setList, Abs.setStale, Abs.dropList, Op.names] at key key2 ⊢
  case newElem => exact hu
  case destroyFree => exact hu
  case safeExcludeFree => exact hu
  case includedYes => exact hu
  case includedNo => exact hu
  case moveConstructFree => exact hu
  case moveAssignFreeFree => exact hu
  case moveAssignListSelf => exact hu
  case empty => exact hu
  case newList => rw [upd_other _ _ (key2 _ (by simp))]; exact hu
  case destroyList => rw [upd_other _ _ (key2 _ (by simp))]; exact hu
  case pushFront => rw [upd_other _ _ (key2 _ (by simp))]; exact hu
  case pushBack => rw [upd_other _ _ (key2 _ (by simp))]; exact hu
  case popFront => rw [upd_other _ _ (key2 _ (by simp))]; exact hu
  case popBack => rw [upd_other _ _ (key2 _ (by simp))]; exact hu
  case clear => rw [upd_other _ _ (key2 _ (by simp))]; exact hu
  case spliceFront s t _ _ _ _ _ => rw [upd_other _ _ (key2 t (by simp)), upd_other _ _ (key2 s (by simp))]; exact hu
  case spliceBack s t _ _ _ _ _ => rw [upd_other _ _ (key2 t (by simp)), upd_other _ _ (key2 s (by simp))]; exact hu
  case moveConstructList s t _ _ _ => rw [upd_other _ _ (key2 t (by simp)), upd_other _ _ (key2 s (by simp))]; exact hu
  case moveAssignList s t _ _ _ _ => rw [upd_other _ _ (key2 t (by simp)), upd_other _ _ (key2 s (by simp))]; exact hu
  case destroyLinked hs => rw [upd_other _ _ (key _ _ _ _ hs (by simp))]; exact hu
  case erase hs => rw [upd_other _ _ (key _ _ _ _ hs (by simp))]; exact hu
  case safeExcludeLinked hs => rw [upd_other _ _ (key _ _ _ _ hs (by simp))]; exact hu
  case moveAssignBefore hs => rw [upd_other _ _ (key _ _ _ _ hs (by simp))]; exact hu
  case moveAssignAfter hs => rw [upd_other _ _ (key _ _ _ _ hs (by simp))]; exact hu
  case insertIter hs _ => rw [upd_other _ _ (key _ _ _ _ hs (by simp))]; exact hu
  case insertReverseIter hs _ => rw [upd_other _ _ (key _ _ _ _ hs (by simp))]; exact hu
  case moveAssignLinkedFree hs _ => rw [upd_other _ _ (key _ _ _ _ hs (by simp))]; exact hu
  case moveConstructLinked _ hs => rw [upd_other _ _ (key _ _ _ _ hs (by simp))]; exact hu
  case moveAssignFreeLinked _ hs => rw [upd_other _ _ (key _ _ _ _ hs (by simp))]; exact hu
  case moveAssignTwoLists hs ht =>
    rw [upd_other _ _ (key _ _ _ _ hs (by simp)), upd_other _ _ (key _ _ _ _ ht (by simp))]; exact hu

/-- Removing element 2 of list 0 leaves list 10 alone. -/
example : ∃ h h', run emptyHeap exampleOps = .ok (h, exampleOuts) ∧ step h (.erase 2) = .ok (h', .unit) ∧
    Shows h 10 [4] ∧ Shows h' 10 [4] := by
  obtain ⟨σ, hrun, h0, h10, -⟩ := exampleRun
  exact c12_other_lists_undisturbed hrun (.erase (X := [1]) (Y := [3]) h0) h10 (by simp [Op.names])

/-! ## C13 -/

/-- **C13.** `exclude` on an element that is in some list removes exactly that element from exactly that list and
leaves it not included; `safe_exclude` does the same, and calling it again does nothing. -/
theorem c13_exclude {ops : List Op} {σ : Abs} {os : List Out} (hrun : SpecRun Abs.empty ops σ os) {s a : Nat}
    {X Y : List Nat} (hs : σ.lists s = some (X ++ a :: Y)) :
    ∃ h h', run emptyHeap ops = .ok (h, os) ∧ included h a = .ok true ∧ exclude h a = .ok h' ∧
      Shows h' s (X ++ Y) ∧ (∀ t M, t ≠ s → σ.lists t = some M → Shows h' t M) ∧ included h' a = .ok false ∧
      (∀ b, b ≠ a → included h' b = included h b) ∧ safeExclude h a = .ok h' ∧ safeExclude h' a = .ok h' := by
  obtain ⟨h, e1, e2⟩ := run_refines rep_empty hrun
  obtain ⟨h', e3, e4⟩ := e2.exclude hs
  have hfree : ((σ.setList s (X ++ Y)).setSt a .free).st a = .free := by simp [Abs.setSt]
  refine ⟨h, h', e1, e2.included_linked hs, e3, (e4.ring s _ (by simp [Abs.setList, Abs.setSt])).shows, ?_,
    e4.included_free hfree, ?_, ?_, e4.safeExclude_free hfree⟩
  · intro t M hts ht
    exact (e4.ring t M (by simp [Abs.setList, Abs.setSt, upd, hts, ht])).shows
  · intro b hba
    have hR := e2.ring s _ hs
    obtain ⟨P, p, n, Z, hP, hZ, h1, h2, h3, h4, -, -⟩ := hR.around
    have hpm : h.alive p = true := hR.alive p (by
      have : p ∈ s :: X := by rw [hP]; simp
      simp at this ⊢; rcases this with h | h
      · exact Or.inl h
      · exact Or.inr (Or.inl h))
    have hnm : h.alive n = true := hR.alive n (by
      have : n ∈ Y ++ [s] := by rw [hZ]; simp
      simp at this ⊢; rcases this with h | h
      · exact Or.inr (Or.inr (Or.inr h))
      · exact Or.inl h)
    rw [exclude_eq hpm (hR.alive a (by simp)) hnm h1 h2 h3 h4] at e3
    cases e3
    simp only [included, rd]
    by_cases hb : h.alive b = true
    · simp only [hb, if_true, Res.ok_bind, Res.pure_eq, upd_other _ _ hba]
      by_cases hbp : b = p
      · subst hbp; simp [h1]
      · rw [upd_other _ _ hbp]
    · simp [hb]
  · simp [safeExclude, e2.included_linked hs, e3]

/-- **C13.** `safe_exclude` of an element in no list does nothing at all. -/
theorem c13_safe_exclude_noop {ops : List Op} {σ : Abs} {os : List Out} (hrun : SpecRun Abs.empty ops σ os) {a : Nat}
    (ha : σ.st a = .free) : ∃ h, run emptyHeap ops = .ok (h, os) ∧ included h a = .ok false ∧ safeExclude h a = .ok h := by
  obtain ⟨h, e1, e2⟩ := run_refines rep_empty hrun
  exact ⟨h, e1, e2.included_free ha, e2.safeExclude_free ha⟩

example : ∃ h h', run emptyHeap exampleOps = .ok (h, exampleOuts) ∧ exclude h 2 = .ok h' ∧ Shows h' 0 [1, 3] ∧
    Shows h' 10 [4] ∧ included h' 2 = .ok false := by
  obtain ⟨σ, hrun, h0, h10, -⟩ := exampleRun
  obtain ⟨h, h', e1, -, e2, e3, e4, e5, -⟩ := c13_exclude (X := [1]) (Y := [3]) hrun h0
  exact ⟨h, h', e1, e2, e3, e4 10 [4] (by decide) h10, e5⟩

example : ∃ h, run emptyHeap exampleOps = .ok (h, exampleOuts) ∧ safeExclude h 5 = .ok h := by
  obtain ⟨σ, hrun, -, -, h5, -⟩ := exampleRun
  obtain ⟨h, e1, -, e2⟩ := c13_safe_exclude_noop hrun h5
  exact ⟨h, e1, e2⟩

/-! ## C14 -/

/-- What the contents of any list must become when `a` is moved to `b`: `b` leaves the list it was in and takes the
place of `a`. -/
def moved (b a : Nat) (M : List Nat) : List Nat := (M.filter (· ≠ b)).map (fun x => if x = a then b else x)

theorem moved_append (b a : Nat) (X Y : List Nat) : moved b a (X ++ Y) = moved b a X ++ moved b a Y := by
  simp [moved]

theorem moved_id {b a : Nat} {X : List Nat} (hb : b ∉ X) (ha : a ∉ X) : moved b a X = X := by
  induction X with
  | nil => rfl
  | cons x X ih =>
    simp at ha hb
    have h1 : x ≠ b := fun e => hb.1 e.symm
    have h2 : x ≠ a := fun e => ha.1 e.symm
    have := ih hb.2 ha.2
    simp only [moved] at this ⊢
    rw [List.filter_cons_of_pos (by simpa using h1), List.map_cons, this, if_neg h2]

theorem moved_src {b a : Nat} (h : a ≠ b) (X : List Nat) : moved b a (a :: X) = b :: moved b a X := by
  simp [moved, h]

theorem moved_tgt {b a : Nat} (X : List Nat) : moved b a (b :: X) = moved b a X := by
  simp [moved]

/-- Elements of two different places in a list without repetition. -/
theorem not_mem_of_nodup {X Y : List Nat} {a : Nat} (h : (X ++ a :: Y).Nodup) : a ∉ X ∧ a ∉ Y := by
  simp only [List.nodup_append, List.nodup_cons] at h
  exact ⟨fun hx => h.2.2 a hx a (by simp) rfl, h.2.1.1⟩

/-- **C14** for move assignment of the linked element `a` to a *different* element `b` in any state (in no list, in
another list, in the same list before or after `a`).  What is missing from the full statement is self-assignment, see
`c14_self_move_violated`. -/
theorem c14_move_assign_partial {ops : List Op} {σ : Abs} {os : List Out} (hrun : SpecRun Abs.empty ops σ os)
    {s a b : Nat} {L : List Nat} (hs : σ.lists s = some L) (ha : a ∈ L) (hab : a ≠ b)
    (hb : σ.st b = .free ∨ σ.st b = .linked) :
    ∃ h h', run emptyHeap ops = .ok (h, os) ∧ moveAssign h b a = .ok h' ∧
      (∀ t M, σ.lists t = some M → Shows h' t (moved b a M)) ∧ included h' a = .ok false ∧
      included h' b = .ok true := by
  obtain ⟨h, e1, e2⟩ := run_refines rep_empty hrun
  obtain ⟨X, Y, rfl⟩ := List.append_of_mem ha
  have hndL := (List.nodup_cons.1 (e2.ring s _ hs).nodup).2
  have haXY := not_mem_of_nodup hndL
  have hanot : ∀ t M, t ≠ s → σ.lists t = some M → a ∉ M := by
    intro t M hts ht hm
    exact e2.disj t s M _ ht hs hts a (by simp [hm]) (by simp)
  rcases hb with hb | hb
  · have hbnot : ∀ t M, σ.lists t = some M → b ∉ M := by
      intro t M ht hm
      rw [e2.linked t M b ht hm] at hb; cases hb
    obtain ⟨h', e3, e4⟩ := step_refines e2 (.moveAssignFreeLinked hb hs)
    simp only [step, Res.bind_eq_ok] at e3
    obtain ⟨h'', e5, e6⟩ := e3
    cases e6
    refine ⟨h, h', e1, e5, ?_, ?_, ?_⟩
    · intro t M ht
      refine (e4.ring t _ ?_).shows
      by_cases hts : t = s
      · subst hts
        rw [hs] at ht; cases ht
        have hb' := hbnot t _ hs
        simp at hb'
        simp [Abs.setList, Abs.setSt, moved_append, moved_src hab, moved_id hb'.1 haXY.1, moved_id hb'.2.2 haXY.2]
      · simp [Abs.setList, Abs.setSt, upd, hts, ht, moved_id (hbnot t M ht) (hanot t M hts ht)]
    · exact e4.included_free (a := a) (by simp [Abs.setSt, Abs.setList, upd, hab])
    · exact e4.included_linked (a := b) (s := s) (X := X) (Y := Y) (by simp [Abs.setSt, Abs.setList])
  · obtain ⟨t, M, ht, hm⟩ := e2.linked' b hb
    by_cases hts : t = s
    · subst hts
      rw [hs] at ht; cases ht
      have hbnot : ∀ u M, u ≠ t → σ.lists u = some M → b ∉ M := by
        intro u M hu hlu hm'
        exact e2.disj u t M _ hlu hs hu b (by simp [hm']) (by simp only [List.mem_cons]; right; exact hm)
      simp only [List.mem_append, List.mem_cons] at hm
      rcases hm with hm | hm | hm
      · -- the target comes first
        obtain ⟨X1, X2, rfl⟩ := List.append_of_mem hm
        have hs' : σ.lists t = some (X1 ++ b :: (X2 ++ a :: Y)) := by rw [hs]; simp
        obtain ⟨h', e3, e4⟩ := step_refines e2 (.moveAssignBefore hs')
        simp only [step, Res.bind_eq_ok] at e3
        obtain ⟨h'', e5, e6⟩ := e3
        cases e6
        have hbn : b ∉ X1 ∧ b ∉ (X2 ++ a :: Y) := not_mem_of_nodup (by simpa using hndL)
        simp at haXY hbn
        refine ⟨h, h', e1, e5, ?_, ?_, ?_⟩
        · intro u M hu
          refine (e4.ring u _ ?_).shows
          by_cases hut : u = t
          · subst hut
            rw [hs] at hu; cases hu
            simp [Abs.setList, Abs.setSt, moved_append, moved_src hab, moved_tgt, moved_id hbn.1 haXY.1.1,
              moved_id hbn.2.1 haXY.1.2.2, moved_id hbn.2.2.2 haXY.2]
          · simp [Abs.setList, Abs.setSt, upd, hut, hu, moved_id (hbnot u M hut hu) (hanot u M hut hu)]
        · exact e4.included_free (a := a) (by simp [Abs.setSt, Abs.setList, upd, hab])
        · exact e4.included_linked (a := b) (s := t) (X := X1 ++ X2) (Y := Y) (by simp [Abs.setSt, Abs.setList])
      · exact absurd hm.symm hab
      · obtain ⟨Y1, Y2, rfl⟩ := List.append_of_mem hm
        obtain ⟨h', e3, e4⟩ := step_refines e2 (.moveAssignAfter hs)
        simp only [step, Res.bind_eq_ok] at e3
        obtain ⟨h'', e5, e6⟩ := e3
        cases e6
        have hbn : b ∉ (X ++ a :: Y1) ∧ b ∉ Y2 := not_mem_of_nodup (by simpa using hndL)
        simp at haXY hbn
        refine ⟨h, h', e1, e5, ?_, ?_, ?_⟩
        · intro u M hu
          refine (e4.ring u _ ?_).shows
          by_cases hut : u = t
          · subst hut
            rw [hs] at hu; cases hu
            simp [Abs.setList, Abs.setSt, moved_append, moved_src hab, moved_tgt, moved_id hbn.1.1 haXY.1,
              moved_id hbn.1.2.2 haXY.2.1, moved_id hbn.2 haXY.2.2.2]
          · simp [Abs.setList, Abs.setSt, upd, hut, hu, moved_id (hbnot u M hut hu) (hanot u M hut hu)]
        · exact e4.included_free (a := a) (by simp [Abs.setSt, Abs.setList, upd, hab])
        · exact e4.included_linked (a := b) (s := t) (X := X) (Y := Y1 ++ Y2) (by simp [Abs.setSt, Abs.setList])
    · obtain ⟨Z, W, rfl⟩ := List.append_of_mem hm
      have hndM := (List.nodup_cons.1 (e2.ring t _ ht).nodup).2
      have hbZW := not_mem_of_nodup hndM
      have hbnot : ∀ u M, u ≠ t → σ.lists u = some M → b ∉ M := by
        intro u M hu hlu hm'
        exact e2.disj u t M _ hlu ht hu b (by simp [hm']) (by simp)
      obtain ⟨h', e3, e4⟩ := step_refines e2 (.moveAssignTwoLists (Ne.symm hts) hs ht)
      simp only [step, Res.bind_eq_ok] at e3
      obtain ⟨h'', e5, e6⟩ := e3
      cases e6
      have hb' := hbnot s _ (Ne.symm hts) hs
      have ha' := hanot t _ hts ht
      simp at hb' ha'
      refine ⟨h, h', e1, e5, ?_, ?_, ?_⟩
      · intro u M hu
        refine (e4.ring u _ ?_).shows
        by_cases hus : u = s
        · subst hus
          rw [hs] at hu; cases hu
          simp [Abs.setList, Abs.setSt, moved_append, moved_src hab, moved_id hb'.1 haXY.1, moved_id hb'.2.2 haXY.2]
        · by_cases hut : u = t
          · subst hut
            rw [ht] at hu; cases hu
            simp [Abs.setList, Abs.setSt, upd, hus, moved_append, moved_tgt, moved_id hbZW.1 ha'.1,
              moved_id hbZW.2 ha'.2.2]
          · simp [Abs.setList, Abs.setSt, upd, hus, hut, hu, moved_id (hbnot u M hut hu) (hanot u M hus hu)]
      · exact e4.included_free (a := a) (by simp [Abs.setSt, Abs.setList, upd, hab])
      · exact e4.included_linked (a := b) (s := s) (X := X) (Y := Y) (by simp [Abs.setSt, Abs.setList])

/-- **C14** for move assignment of an element that is in no list: the target leaves its list. -/
theorem c14_move_assign_unlinked {ops : List Op} {σ : Abs} {os : List Out} (hrun : SpecRun Abs.empty ops σ os)
    {a b : Nat} (ha : σ.st a = .free) (hb : σ.st b = .free ∨ σ.st b = .linked) :
    ∃ h h', run emptyHeap ops = .ok (h, os) ∧ moveAssign h b a = .ok h' ∧
      (∀ t M, σ.lists t = some M → Shows h' t (M.filter (· ≠ b))) ∧ included h' a = .ok false ∧
      included h' b = .ok false := by
  obtain ⟨h, e1, e2⟩ := run_refines rep_empty hrun
  rcases hb with hb | hb
  · obtain ⟨h', e3, e4⟩ := step_refines e2 (.moveAssignFreeFree hb ha)
    simp only [step, Res.bind_eq_ok] at e3
    obtain ⟨h'', e5, e6⟩ := e3
    cases e6
    refine ⟨h, h', e1, e5, ?_, e4.included_free ha, e4.included_free hb⟩
    intro t M ht
    have : M.filter (· ≠ b) = M := by
      rw [List.filter_eq_self]
      intro x hx
      have := e2.linked t M x ht hx
      simp
      rintro rfl
      rw [hb] at this; cases this
    rw [this]
    exact (e4.ring t M ht).shows
  · obtain ⟨t, M, ht, hm⟩ := e2.linked' b hb
    obtain ⟨Z, W, rfl⟩ := List.append_of_mem hm
    have hndM := (List.nodup_cons.1 (e2.ring t _ ht).nodup).2
    have hbZW := not_mem_of_nodup hndM
    have hab : a ≠ b := by rintro rfl; rw [ha] at hb; cases hb
    obtain ⟨h', e3, e4⟩ := step_refines e2 (.moveAssignLinkedFree ht ha)
    simp only [step, Res.bind_eq_ok] at e3
    obtain ⟨h'', e5, e6⟩ := e3
    cases e6
    have hfilt : ∀ N : List Nat, b ∉ N → N.filter (· ≠ b) = N := by
      intro N hN
      rw [List.filter_eq_self]
      intro x hx
      simp
      rintro rfl; exact hN hx
    refine ⟨h, h', e1, e5, ?_, e4.included_free (by simp [Abs.setSt, Abs.setList, upd, hab, ha]),
      e4.included_free (by simp [Abs.setSt])⟩
    intro u N hu
    refine (e4.ring u _ ?_).shows
    by_cases hut : u = t
    · subst hut
      rw [ht] at hu; cases hu
      have g1 := hfilt Z hbZW.1
      have g2 := hfilt W hbZW.2
      simp only [Abs.setList, Abs.setSt, upd_same, List.filter_append, Option.some.injEq]
      rw [g1, List.filter_cons_of_neg (by simp), g2]
    · have hbN : b ∉ N := fun hm' => e2.disj u t N _ hu ht hut b (by simp [hm']) (by simp)
      rw [hfilt N hbN]
      simp [Abs.setList, Abs.setSt, upd, hut, hu]

/-- **C14** for move construction: the new object takes the place of the old one. -/
theorem c14_move_construct {ops : List Op} {σ : Abs} {os : List Out} (hrun : SpecRun Abs.empty ops σ os)
    {a b : Nat} (hb : σ.Unused b) (ha : σ.st a = .free ∨ σ.st a = .linked) :
    ∃ h h', run emptyHeap ops = .ok (h, os) ∧ moveConstruct h b a = .ok h' ∧
      (∀ t M, σ.lists t = some M → Shows h' t (M.map (fun x => if x = a then b else x))) ∧
      included h' a = .ok false ∧ included h' b = included h a := by
  obtain ⟨h, e1, e2⟩ := run_refines rep_empty hrun
  have hid : ∀ N : List Nat, a ∉ N → N.map (fun x => if x = a then b else x) = N := by
    intro N hN
    have : ∀ x ∈ N, (fun x => if x = a then b else x) x = id x := by
      intro x hx
      have : x ≠ a := fun e => hN (e ▸ hx)
      simp [this]
    rw [List.map_congr_left this]; simp
  have hab : a ≠ b := by
    rintro rfl
    rcases ha with ha | ha <;> rw [hb.1] at ha <;> cases ha
  rcases ha with ha | ha
  · obtain ⟨h', e3, e4⟩ := step_refines e2 (.moveConstructFree hb ha)
    simp only [step, Res.bind_eq_ok] at e3
    obtain ⟨h'', e5, e6⟩ := e3
    cases e6
    refine ⟨h, h', e1, e5, ?_, e4.included_free (by simp [Abs.setSt, upd, hab, ha]), ?_⟩
    · intro t M ht
      have haM : a ∉ M := by
        intro hm
        have := e2.linked t M a ht hm
        rw [ha] at this; cases this
      rw [hid M haM]
      exact (e4.ring t M ht).shows
    · rw [e2.included_free ha, e4.included_free (by simp [Abs.setSt])]
  · obtain ⟨s, L, hs, hm⟩ := e2.linked' a ha
    obtain ⟨X, Y, rfl⟩ := List.append_of_mem hm
    have hndL := (List.nodup_cons.1 (e2.ring s _ hs).nodup).2
    have haXY := not_mem_of_nodup hndL
    obtain ⟨h', e3, e4⟩ := step_refines e2 (.moveConstructLinked hb hs)
    simp only [step, Res.bind_eq_ok] at e3
    obtain ⟨h'', e5, e6⟩ := e3
    cases e6
    refine ⟨h, h', e1, e5, ?_, e4.included_free (by simp [Abs.setSt, upd, hab]), ?_⟩
    · intro t M ht
      refine (e4.ring t _ ?_).shows
      by_cases hts : t = s
      · subst hts
        rw [hs] at ht; cases ht
        simp only [Abs.setList, Abs.setSt, upd_same, List.map_append, List.map_cons, if_true]
        rw [hid X haXY.1, hid Y haXY.2]
      · have : a ∉ M := fun hm' => e2.disj t s M _ ht hs hts a (by simp [hm']) (by simp)
        rw [hid M this]
        simp [Abs.setList, Abs.setSt, upd, hts, ht]
    · rw [e2.included_linked hs]
      exact e4.included_linked (a := b) (s := s) (X := X) (Y := Y) (by simp [Abs.setSt, Abs.setList])

/-- Element 4 of list 10 receives element 2 of list 0; element 1 receives its right neighbour 2. -/
example : ∃ h h' h'', run emptyHeap exampleOps = .ok (h, exampleOuts) ∧ moveAssign h 4 2 = .ok h' ∧
    Shows h' 0 [1, 4, 3] ∧ Shows h' 10 [] ∧ moveAssign h 1 2 = .ok h'' ∧ Shows h'' 0 [1, 3] := by
  obtain ⟨σ, hrun, h0, h10, -⟩ := exampleRun
  obtain ⟨g, r1, r2⟩ := run_refines rep_empty hrun
  obtain ⟨h, h', e1, e2, e3, -⟩ := c14_move_assign_partial (a := 2) (b := 4) hrun h0 (by decide) (by decide)
    (.inr (r2.linked 10 _ 4 h10 (by decide)))
  obtain ⟨k, k', e1', e2', e3', -⟩ := c14_move_assign_partial (a := 2) (b := 1) hrun h0 (by decide) (by decide)
    (.inr (r2.linked 0 _ 1 h0 (by decide)))
  rw [e1] at e1'; cases e1'
  exact ⟨h, h', k', e1, e2, e3 0 _ h0, e3 10 _ h10, e2', e3' 0 _ h0⟩

example : ∃ h h', run emptyHeap exampleOps = .ok (h, exampleOuts) ∧ moveConstruct h 6 2 = .ok h' ∧
    Shows h' 0 [1, 6, 3] := by
  obtain ⟨σ, hrun, h0, h10, h5, h6, -⟩ := exampleRun
  obtain ⟨g, r1, r2⟩ := run_refines rep_empty hrun
  obtain ⟨h, h', e1, e2, e3, -⟩ := c14_move_construct (a := 2) (b := 6) hrun h6 (.inr (r2.linked 0 _ 2 h0 (by decide)))
  exact ⟨h, h', e1, e2, e3 0 _ h0⟩

example : ∃ h h', run emptyHeap exampleOps = .ok (h, exampleOuts) ∧ moveAssign h 2 5 = .ok h' ∧
    Shows h' 0 [1, 3] := by
  obtain ⟨σ, hrun, h0, h10, h5, h6, -⟩ := exampleRun
  obtain ⟨g, r1, r2⟩ := run_refines rep_empty hrun
  obtain ⟨h, h', e1, e2, e3, -⟩ := c14_move_assign_unlinked (a := 5) (b := 2) hrun h5
    (.inr (r2.linked 0 _ 2 h0 (by decide)))
  exact ⟨h, h', e1, e2, e3 0 _ h0⟩

/-- **C14 is false for self-assignment**: in every state, an element that is in a list drops out of it when it is
move-assigned to itself, though its place should have been kept. -/
theorem c14_self_move_violated {ops : List Op} {σ : Abs} {os : List Out} (hrun : SpecRun Abs.empty ops σ os)
    {s a : Nat} {X Y : List Nat} (hs : σ.lists s = some (X ++ a :: Y)) :
    ∃ h h', run emptyHeap ops = .ok (h, os) ∧ Shows h s (X ++ a :: Y) ∧ moveAssign h a a = .ok h' ∧
      Shows h' s (X ++ Y) ∧ included h' a = .ok false := by
  obtain ⟨h, e1, e2⟩ := run_refines rep_empty hrun
  obtain ⟨h', e3, e4⟩ := e2.safeExclude_linked hs
  have hfree : ((σ.setList s (X ++ Y)).setSt a .free).st a = .free := by simp [Abs.setSt]
  refine ⟨h, h', e1, (e2.ring s _ hs).shows, ?_, (e4.ring s _ (by simp [Abs.setList, Abs.setSt])).shows,
    e4.included_free hfree⟩
  simp [moveAssign, e3, e4.reinsert_free hfree]

example : ∃ h h', run emptyHeap exampleOps = .ok (h, exampleOuts) ∧ moveAssign h 2 2 = .ok h' ∧ Shows h' 0 [1, 3] := by
  obtain ⟨σ, hrun, h0, -⟩ := exampleRun
  obtain ⟨h, h', e1, -, e2, e3, -⟩ := c14_self_move_violated (X := [1]) (Y := [3]) hrun h0
  exact ⟨h, h', e1, e2, e3⟩

/-! ## C15 -/

/-- **C15.** Splicing a whole list `t` at the back or at the front of another list `s` concatenates in that order,
empties the source and leaves the other lists alone. -/
theorem c15_splice {ops : List Op} {σ : Abs} {os : List Out} (hrun : SpecRun Abs.empty ops σ os) {s t : Nat}
    {L M : List Nat} (hst : s ≠ t) (hs : σ.lists s = some L) (ht : σ.lists t = some M) :
    ∃ h h1 h2, run emptyHeap ops = .ok (h, os) ∧
      spliceBack h s t = .ok h1 ∧ Shows h1 s (L ++ M) ∧ Shows h1 t [] ∧
      spliceFront h s t = .ok h2 ∧ Shows h2 s (M ++ L) ∧ Shows h2 t [] ∧
      (∀ u N, u ≠ s → u ≠ t → σ.lists u = some N → Shows h1 u N ∧ Shows h2 u N) := by
  obtain ⟨h, e1, e2⟩ := run_refines rep_empty hrun
  obtain ⟨h1, a1, a2⟩ := e2.spliceBack hst hs ht
  obtain ⟨h2, b1, b2⟩ := e2.spliceFront hst hs ht
  refine ⟨h, h1, h2, e1, a1, (a2.ring s _ (by simp [Abs.setList, upd, hst])).shows,
    (a2.ring t _ (by simp [Abs.setList])).shows, b1, (b2.ring s _ (by simp [Abs.setList, upd, hst])).shows,
    (b2.ring t _ (by simp [Abs.setList])).shows, ?_⟩
  intro u N h1' h2' hu
  exact ⟨(a2.ring u _ (by simp [Abs.setList, upd, h1', h2', hu])).shows,
    (b2.ring u _ (by simp [Abs.setList, upd, h1', h2', hu])).shows⟩

/-- **C15.** Move construction and move assignment to an empty list hand over all the elements in order. -/
theorem c15_move_list {ops : List Op} {σ : Abs} {os : List Out} (hrun : SpecRun Abs.empty ops σ os) {s t u : Nat}
    {M : List Nat} (hst : s ≠ t) (hs : σ.lists s = some []) (ht : σ.lists t = some M) (hu : σ.Unused u) :
    ∃ h h1 h2, run emptyHeap ops = .ok (h, os) ∧
      moveAssignList h s t = .ok h1 ∧ Shows h1 s M ∧ Shows h1 t [] ∧
      moveConstructList h u t = .ok h2 ∧ Shows h2 u M ∧ Shows h2 t [] ∧
      (∀ v N, v ≠ s → v ≠ t → σ.lists v = some N → Shows h1 v N ∧ Shows h2 v N) := by
  obtain ⟨h, e1, e2⟩ := run_refines rep_empty hrun
  obtain ⟨h1, a1, a2⟩ := e2.attach hst hs ht
  obtain ⟨h2, b1, b2⟩ := e2.moveConstructList hu ht
  have hut : u ≠ t := by rintro rfl; rw [hu.2] at ht; cases ht
  refine ⟨h, h1, h2, e1, by simp [moveAssignList, hst, a1], (a2.ring s _ (by simp [Abs.setList, upd, hst])).shows,
    (a2.ring t _ (by simp [Abs.setList])).shows, b1, (b2.ring u _ (by simp [Abs.setList, upd, hut])).shows,
    (b2.ring t _ (by simp [Abs.setList])).shows, ?_⟩
  intro v N h1' h2' hv
  have hvu : v ≠ u := by rintro rfl; rw [hu.2] at hv; cases hv
  exact ⟨(a2.ring v _ (by simp [Abs.setList, upd, h1', h2', hv])).shows,
    (b2.ring v _ (by simp [Abs.setList, upd, hvu, h2', hv])).shows⟩

example : ∃ h h1, run emptyHeap exampleOps = .ok (h, exampleOuts) ∧ spliceBack h 10 0 = .ok h1 ∧
    Shows h1 10 [4, 1, 2, 3] ∧ Shows h1 0 [] := by
  obtain ⟨σ, hrun, h0, h10, -⟩ := exampleRun
  obtain ⟨h, h1, h2, e1, e2, e3, e4, -⟩ := c15_splice (s := 10) (t := 0) hrun (by decide) h10 h0
  exact ⟨h, h1, e1, e2, e3, e4⟩

/-- List 0 is spliced away, then list 10 is moved back into it. -/
example : ∃ σ : Abs, (∃ os, SpecRun Abs.empty [.newList 0, .newList 10, .newElem 1, .newElem 2, .pushBack 10 1, .pushBack 10 2] σ os) ∧
    (0 : Nat) ≠ 10 ∧ σ.lists 0 = some [] ∧ σ.lists 10 = some [1, 2] ∧ σ.Unused 20 :=
  ⟨_, ⟨_, .cons (.newList ⟨rfl, rfl⟩) (.cons (.newList ⟨rfl, rfl⟩) (.cons (.newElem ⟨rfl, rfl⟩)
    (.cons (.newElem ⟨rfl, rfl⟩) (.cons (.pushBack (L := []) rfl (.inl rfl))
    (.cons (.pushBack (L := [1]) rfl (.inl rfl)) .nil)))))⟩, by decide, rfl, rfl, ⟨rfl, rfl⟩⟩

/-! ## C66: elements of a cleared list -/

/-- The history: list 0 holds 1; `clear()`; then 2 is pushed. -/
def staleOps : List Op := [.newList 0, .newElem 1, .newElem 2, .pushBack 0 1, .clear 0, .pushBack 0 2]

/-- **C66 is false**: an element that was in a list when `clear()` was called still reports to be included, and
excluding it (which is what the destructor of an observer does) removes another element from the list. -/
theorem c66_cleared_elements_violated :
    ∃ h, run emptyHeap staleOps = .ok (h, [.unit, .unit, .unit, .unit, .unit, .unit]) ∧ Shows h 0 [2] ∧
      included h 1 = .ok true ∧ ∃ h', safeExclude h 1 = .ok h' ∧ Shows h' 0 [] ∧ included h' 2 = .ok false := by
  have hrun : ∃ σ, SpecRun Abs.empty staleOps σ [.unit, .unit, .unit, .unit, .unit, .unit] ∧ σ.lists 0 = some [2] :=
    ⟨_, .cons (.newList ⟨rfl, rfl⟩) (.cons (.newElem ⟨rfl, rfl⟩) (.cons (.newElem ⟨rfl, rfl⟩)
      (.cons (.pushBack (L := []) rfl (.inl rfl)) (.cons (.clear (L := [1]) rfl)
      (.cons (.pushBack (L := []) rfl (.inl rfl)) .nil))))), rfl⟩
  obtain ⟨σ, hrun, h0⟩ := hrun
  obtain ⟨h, e1, e2⟩ := c12_lists_are_sequences hrun
  refine ⟨h, e1, e2 0 _ h0, ?_⟩
  have e3 : run emptyHeap staleOps = .ok (h, _) := e1
  cases e3
  refine ⟨rfl, _, rfl, ?_, rfl⟩
  refine RingOf.shows (h := _) (s := 0) (L := []) ⟨⟨rfl, rfl, trivial⟩, by simp, ?_⟩
  intro x hx
  simp at hx; subst hx; rfl

/-- **C66, what does hold.** Elements that were dropped by `clear()` can be inserted again into any list, as often as
one likes: this is the case `Avail` by `stale` of the histories of C12.  Missing: everything else a user may do with
such an element (`included`, `exclude`, `safe_exclude`, destruction of an observer). -/
theorem c66_reinsert_partial {ops : List Op} {σ : Abs} {os : List Out} (hrun : SpecRun Abs.empty ops σ os) {s t a : Nat}
    {L M : List Nat} (hs : σ.lists s = some L) (ha : a ∈ L) (ht : σ.lists t = some M) (hst : t ≠ s) :
    ∃ h h1 h2, run emptyHeap ops = .ok (h, os) ∧ clear h s = .ok h1 ∧ Shows h1 s [] ∧
      pushBack h1 t a = .ok h2 ∧ Shows h2 t (M ++ [a]) ∧ included h2 a = .ok true := by
  obtain ⟨h, e1, e2⟩ := run_refines rep_empty hrun
  obtain ⟨h1, e3, e4⟩ := e2.clear hs
  have ht' : ((σ.setList s []).setStale L).lists t = some M := by
    simp [Abs.setList, Abs.setStale, upd, hst, ht]
  have ha' : ((σ.setList s []).setStale L).Avail a := by
    right; simp [Abs.setStale, ha]
  obtain ⟨h2, e5, e6⟩ := step_refines e4 (.pushBack ht' ha')
  simp only [step, Res.bind_eq_ok] at e5
  obtain ⟨h3, e7, e8⟩ := e5
  cases e8
  refine ⟨h, h1, h2, e1, e3, (e4.ring s _ (by simp [Abs.setList, Abs.setStale])).shows, e7, ?_, ?_⟩
  · exact (e6.ring t _ (by simp [Abs.setList, Abs.setSt])).shows
  · exact e6.included_linked (a := a) (s := t) (X := M) (Y := []) (by simp [Abs.setList, Abs.setSt])

example : ∃ h h1 h2, run emptyHeap exampleOps = .ok (h, exampleOuts) ∧ clear h 0 = .ok h1 ∧
    pushBack h1 10 2 = .ok h2 ∧ Shows h2 10 [4, 2] := by
  obtain ⟨σ, hrun, h0, h10, -⟩ := exampleRun
  obtain ⟨h, h1, h2, e1, e2, -, e3, e4, -⟩ := c66_reinsert_partial (a := 2) hrun h0 (by decide) h10 (by decide)
  exact ⟨h, h1, h2, e1, e2, e3, e4⟩

/-- **C66 is false** after every history, for every element: each one that was in the list when `clear()` was called still reports to be included although the list is empty. -/
theorem c66_every_element_violated {ops : List Op} {σ : Abs} {os : List Out} (hrun : SpecRun Abs.empty ops σ os) {s : Nat} {L : List Nat} (hs : σ.lists s = some L) :
    ∃ h h1, run emptyHeap ops = .ok (h, os) ∧ clear h s = .ok h1 ∧ Shows h1 s [] ∧ ∀ a ∈ L, included h1 a = .ok true := by
  obtain ⟨h, e1, e2⟩ := run_refines rep_empty hrun
  obtain ⟨h1, e3, e4⟩ := e2.clear hs
  refine ⟨h, h1, e1, e3, (e4.ring s _ (by simp [Abs.setList, Abs.setStale])).shows, fun a ha => ?_⟩
  obtain ⟨X, Y, rfl⟩ := List.append_of_mem ha
  have h2 := e2.included_linked hs
  have hR := e2.ring s _ hs
  have hal := hR.alive s (by simp)
  have hne : a ≠ s := fun e => by
    have := hR.nodup
    rw [← e] at this
    simp at this
  have : h1 = { h with fwd := upd h.fwd s (some s), bwd := upd h.bwd s (some s) } := by
    have : clear h s = .ok { h with fwd := upd h.fwd s (some s), bwd := upd h.bwd s (some s) } := by simp [clear, Single.clear, wr, hal]
    rw [e3] at this; simpa using this
  subst this
  simpa [included, rd, upd_other _ _ hne] using h2

example : ∃ h h1, run emptyHeap exampleOps = .ok (h, exampleOuts) ∧ clear h 0 = .ok h1 ∧ Shows h1 0 [] ∧ included h1 2 = .ok true := by
  obtain ⟨σ, hrun, h0, -⟩ := exampleRun
  obtain ⟨h, h1, e1, e2, e3, e4⟩ := c66_every_element_violated hrun h0
  exact ⟨h, h1, e1, e2, e3, e4 2 (by decide)⟩

/-! ## C67: splicing a list into itself -/

theorem splice_self {h : Heap} {s : Nat} {L : List Nat} (hR : RingOf h s L) (hL : L ≠ []) (h' : Heap)
    (he : spliceBack h s s = .ok h' ∨ spliceFront h s s = .ok h') : h'.fwd s = some s ∧ h'.bwd s = some s ∧ h'.alive = h.alive ∧ ∀ a, (h.fwd a).isSome → (h'.fwd a).isSome := by
  obtain ⟨b, B, B', l, hb, hl, h1, h2⟩ := hR.ends hL
  have hbm : b ∈ L := by rw [hb]; simp
  have hlm : l ∈ L := by rw [hl]; simp
  have hMe : L.isEmpty = false := by cases L with
    | nil => exact absurd rfl hL
    | cons => rfl
  have a1 := hR.alive s (by simp)
  have a3 := hR.alive b (by simp [hbm])
  have a4 := hR.alive l (by simp [hlm])
  rcases he with he | he
  · simp [QuickList.spliceBack, hR.isEmpty, hMe, rd, wr, a1, a3, a4, h1, h2, Single.pushBackRange, Single.pushFrontRange, QuickList.clear, Single.clear] at he
    subst he
    refine ⟨by simp [upd], by simp [upd], rfl, fun a ha => ?_⟩
    simp only [upd]
    repeat' split
    all_goals first | rfl | exact ha
  · simp [QuickList.spliceFront, hR.isEmpty, hMe, rd, wr, a1, a3, a4, h1, h2, Single.pushBackRange, Single.pushFrontRange, QuickList.clear, Single.clear] at he
    subst he
    refine ⟨by simp [upd], by simp [upd], rfl, fun a ha => ?_⟩
    simp only [upd]
    repeat' split
    all_goals first | rfl | exact ha

theorem splice_self_ok {h : Heap} {s : Nat} {L : List Nat} (hR : RingOf h s L) (hL : L ≠ []) :
    (∃ h', spliceBack h s s = .ok h') ∧ ∃ h', spliceFront h s s = .ok h' := by
  obtain ⟨b, B, B', l, hb, hl, h1, h2⟩ := hR.ends hL
  have hbm : b ∈ L := by rw [hb]; simp
  have hlm : l ∈ L := by rw [hl]; simp
  have hMe : L.isEmpty = false := by cases L with
    | nil => exact absurd rfl hL
    | cons => rfl
  have a1 := hR.alive s (by simp)
  have a3 := hR.alive b (by simp [hbm])
  have a4 := hR.alive l (by simp [hlm])
  constructor
  · simp [QuickList.spliceBack, hR.isEmpty, hMe, rd, wr, a1, a3, a4, h1, h2, Single.pushBackRange, Single.pushFrontRange, QuickList.clear, Single.clear]
  · simp [QuickList.spliceFront, hR.isEmpty, hMe, rd, wr, a1, a3, a4, h1, h2, Single.pushBackRange, Single.pushFrontRange, QuickList.clear, Single.clear]

/-- **C67 is false for every non-empty list**: splicing it into itself, at the front or at the back, loses all its
elements, while they still report to be included. -/
theorem c67_self_splice_violated {ops : List Op} {σ : Abs} {os : List Out} (hrun : SpecRun Abs.empty ops σ os) {s : Nat}
    {L : List Nat} (hs : σ.lists s = some L) (hL : L ≠ []) :
    ∃ h, run emptyHeap ops = .ok (h, os) ∧ Shows h s L ∧
      (∃ h', spliceBack h s s = .ok h' ∧ Shows h' s [] ∧ ∀ a ∈ L, included h' a = .ok true) ∧
      (∃ h', spliceFront h s s = .ok h' ∧ Shows h' s [] ∧ ∀ a ∈ L, included h' a = .ok true) := by
  obtain ⟨h, e1, e2⟩ := run_refines rep_empty hrun
  have hR := e2.ring s L hs
  have key : ∀ h', (spliceBack h s s = .ok h' ∨ spliceFront h s s = .ok h') → Shows h' s [] ∧ ∀ a ∈ L, included h' a = .ok true := by
    intro h' he
    obtain ⟨k1, k2, k3, k4⟩ := splice_self hR hL h' he
    have ha : ∀ x ∈ s :: L, h'.alive x = true := by rw [k3]; exact hR.alive
    refine ⟨RingOf.shows (h := h') (s := s) (L := []) ⟨⟨k1, k2, trivial⟩, by simp, ?_⟩, fun a hm => ?_⟩
    · intro x hx
      simp at hx
      exact ha x (by simp [hx])
    · obtain ⟨X, Y, rfl⟩ := List.append_of_mem hm
      obtain ⟨P, p, n, Z, _, _, _, _, h5, _⟩ := hR.around
      have := k4 a (by rw [h5]; rfl)
      simp [included, rd, ha a (by simp), this]
  obtain ⟨⟨b, hb⟩, f, hf⟩ := splice_self_ok hR hL
  exact ⟨h, e1, hR.shows, ⟨b, hb, key b (.inl hb)⟩, f, hf, key f (.inr hf)⟩

example : ∃ h h', run emptyHeap [.newList 0, .newElem 1, .newElem 2, .pushBack 0 1, .pushBack 0 2] =
        .ok (h, [.unit, .unit, .unit, .unit, .unit]) ∧ Shows h 0 [1, 2] ∧ spliceBack h 0 0 = .ok h' ∧ Shows h' 0 [] ∧
      included h' 1 = .ok true ∧ included h' 2 = .ok true := by
  refine ⟨_, _, rfl, ?_, rfl, ?_, rfl, rfl⟩
  · refine RingOf.shows (h := _) (s := 0) (L := [1, 2]) ⟨⟨rfl, rfl, rfl, rfl, rfl, rfl, trivial⟩, by simp, ?_⟩
    intro x hx
    simp at hx; rcases hx with rfl | rfl | rfl <;> rfl
  · refine RingOf.shows (h := _) (s := 0) (L := []) ⟨⟨rfl, rfl, trivial⟩, by simp, ?_⟩
    intro x hx
    simp at hx; subst hx; rfl

/-- **C67, what does hold**: an empty list can be spliced into itself. -/
theorem c67_self_splice_partial {ops : List Op} {σ : Abs} {os : List Out} (hrun : SpecRun Abs.empty ops σ os) {s : Nat}
    (hs : σ.lists s = some []) :
    ∃ h, run emptyHeap ops = .ok (h, os) ∧ spliceBack h s s = .ok h ∧ spliceFront h s s = .ok h := by
  obtain ⟨h, e1, e2⟩ := run_refines rep_empty hrun
  exact ⟨h, e1, by simp [spliceBack, (e2.ring s _ hs).isEmpty], by simp [spliceFront, (e2.ring s _ hs).isEmpty]⟩

example : ∃ σ, SpecRun Abs.empty [.newList 0] σ [.unit] ∧ σ.lists 0 = some [] :=
  ⟨_, .cons (.newList ⟨rfl, rfl⟩) .nil, rfl⟩

end Verif.QuickList
