import Verif.QuickList.Splice

/-! # Every operation refines its specification -/

namespace Verif.QuickList

theorem Abs.ext' {σ τ : Abs} (h1 : ∀ x, σ.lists x = τ.lists x) (h2 : ∀ x, σ.st x = τ.st x) : σ = τ := by
  cases σ; cases τ
  simp only [Abs.mk.injEq]
  exact ⟨funext h1, funext h2⟩

/-- Moving the linked element `a` to the free element `b`. -/
theorem Rep.reinsert_linked {h : Heap} {σ : Abs} (hr : Rep h σ) {s a b : Nat} {X Y : List Nat}
    (hs : σ.lists s = some (X ++ a :: Y)) (hb : σ.st b = .free) :
    ∃ h', reinsert h b a = .ok h' ∧ Rep h' (((σ.setList s (X ++ b :: Y)).setSt a .free).setSt b .linked) := by
  have hR := hr.ring s _ hs
  obtain ⟨P, p, n, Z, hP, hZ, h1, h2, h3, h4, -, -⟩ := hR.around
  obtain ⟨h', e1, e2⟩ := hr.exclude hs
  have hba : b ≠ a := by
    rintro rfl
    have := hr.linked s _ b hs (by simp)
    rw [this] at hb; cases hb
  have hs' : ((σ.setList s (X ++ Y)).setSt a .free).lists s = some (X ++ Y) := by simp [Abs.setList, Abs.setSt]
  have hb' : ((σ.setList s (X ++ Y)).setSt a .free).Avail b := by
    left; simp [Abs.setList, Abs.setSt, upd, hba, hb]
  have g1 : s :: (X ++ Y) = P ++ p :: Y := by rw [← List.cons_append, hP]; simp
  have g2 : s :: (X ++ b :: Y) = P ++ p :: b :: Y := by rw [← List.cons_append, hP]; simp
  obtain ⟨h'', e3, e4⟩ := e2.insertAfter hs' hb' g1 g2
  refine ⟨h'', ?_, ?_⟩
  · simp [reinsert, hr.included_linked hs, predecessor, rd, hR.alive a (by simp), h2, e1, e3]
  · have : ((((σ.setList s (X ++ Y)).setSt a .free).setList s (X ++ b :: Y)).setSt b .linked) =
        (((σ.setList s (X ++ b :: Y)).setSt a .free).setSt b .linked) := by
      refine Abs.ext' ?_ ?_
      · intro x; by_cases hx : x = s <;> simp [Abs.setList, Abs.setSt, upd, hx]
      · intro x; rfl
    rwa [this] at e4

theorem Rep.reinsert_free {h : Heap} {σ : Abs} (hr : Rep h σ) {a b : Nat} (ha : σ.st a = .free) :
    reinsert h b a = .ok h := by
  simp [reinsert, hr.included_free ha]

theorem Rep.st_of_mem {h : Heap} {σ : Abs} (hr : Rep h σ) {s a : Nat} {X Y : List Nat}
    (hs : σ.lists s = some (X ++ a :: Y)) : σ.st a = .linked := hr.linked s _ a hs (by simp)

theorem bind_ok {α β : Type} {r : Res α} {a : α} (f : α → Res β) (h : r = .ok a) : (r >>= f) = f a := by
  rw [h]; rfl

/-- Every step the specification allows is what the code does. -/
theorem step_refines {h : Heap} {σ σ' : Abs} {op : Op} {o : Out} (hr : Rep h σ) (hst : SpecStep σ op σ' o) :
    ∃ h', step h op = .ok (h', o) ∧ Rep h' σ' := by
  cases hst with
  | newElem ha =>
    obtain ⟨h', e1, e2⟩ := hr.newElem ha
    exact ⟨h', by simp [step, e1], e2⟩
  | newList ha =>
    obtain ⟨h', e1, e2⟩ := hr.newList ha
    exact ⟨h', by simp [step, e1], e2⟩
  | destroyList hs =>
    obtain ⟨h', e1, e2⟩ := hr.destroyList hs
    exact ⟨h', by simp [step, e1], e2⟩
  | destroyFree ha =>
    obtain ⟨h', e1, e2⟩ := hr.kill_free (Or.inl ha)
    exact ⟨h', by simp [step, hr.safeExclude_free ha, e1], e2⟩
  | @destroyLinked s X a Y hs =>
    obtain ⟨h1, e1, e2⟩ := hr.safeExclude_linked hs
    obtain ⟨h2, e3, e4⟩ := e2.kill_free (a := a) (Or.inl (by simp [Abs.setSt]))
    refine ⟨h2, by simp [step, e1, e3], ?_⟩
    have : ((σ.setList s (X ++ Y)).setSt a .free).setSt a .none = (σ.setList s (X ++ Y)).setSt a .none := by
      refine Abs.ext' (fun _ => rfl) ?_
      intro x; by_cases hx : x = a <;> simp [Abs.setSt, upd, hx]
    rwa [this] at e4
  | @pushFront s L a hs ha =>
    obtain ⟨h', e1, e2⟩ := hr.insertAfter hs ha (X := []) (p := s) (Y := L) rfl rfl
    exact ⟨h', by simp [step, pushFront, e1], e2⟩
  | @pushBack s L a hs ha =>
    obtain ⟨h', e1, e2⟩ := hr.insertBefore hs ha (X := L) (p := s) (Y := []) (L' := L ++ [a]) rfl (by simp)
    exact ⟨h', by simp [step, pushBack, e1], e2⟩
  | @popFront s a L hs =>
    have hR := hr.ring s _ hs
    obtain ⟨h', e1, e2⟩ := hr.exclude (X := []) hs
    have hc := hR.chain
    refine ⟨h', ?_, e2⟩
    simp [step, popFront, front, rd, hR.alive s (by simp), hc.1, removeRet, e1]
  | @popBack s L a hs =>
    have hR := hr.ring s _ hs
    obtain ⟨h', e1, e2⟩ := hr.exclude (X := L) (Y := []) hs
    obtain ⟨X, q, hq, -, hb⟩ := hR.last
    have hqa : q = a := by
      rw [← List.cons_append] at hq
      have := (List.append_inj' hq rfl).2
      simp at this; exact this.symm
    subst hqa
    refine ⟨h', ?_, by simpa using e2⟩
    simp [step, popBack, back, rd, hR.alive s (by simp), hb, removeRet, e1]
  | @insertIter s X p Y a hs ha =>
    obtain ⟨h', e1, e2⟩ := hr.insertAfter hs ha (X := s :: X) (p := p) (Y := Y) rfl rfl
    exact ⟨h', by simp [step, e1], e2⟩
  | @insertReverseIter s X p Y a hs ha =>
    obtain ⟨h', e1, e2⟩ := hr.insertBefore hs ha (X := X) (p := p) (Y := Y ++ [s]) (L' := X ++ a :: p :: Y)
      (by simp) (by simp)
    exact ⟨h', by simp [step, e1], e2⟩
  | erase hs =>
    obtain ⟨h', e1, e2⟩ := hr.exclude hs
    exact ⟨h', by simp [step, e1], e2⟩
  | safeExcludeLinked hs =>
    obtain ⟨h', e1, e2⟩ := hr.safeExclude_linked hs
    exact ⟨h', by simp [step, e1], e2⟩
  | safeExcludeFree ha => exact ⟨h, by simp [step, hr.safeExclude_free ha], hr⟩
  | @includedYes a ha =>
    obtain ⟨s, L, hs, hm⟩ := hr.linked' _ ha
    obtain ⟨X, Y, rfl⟩ := List.append_of_mem hm
    exact ⟨h, by simp [step, hr.included_linked hs], hr⟩
  | includedNo ha => exact ⟨h, by simp [step, hr.included_free ha], hr⟩
  | clear hs =>
    obtain ⟨h', e1, e2⟩ := hr.clear hs
    exact ⟨h', by simp [step, e1], e2⟩
  | spliceFront hst hs ht =>
    obtain ⟨h', e1, e2⟩ := hr.spliceFront hst hs ht
    exact ⟨h', by simp [step, e1], e2⟩
  | spliceBack hst hs ht =>
    obtain ⟨h', e1, e2⟩ := hr.spliceBack hst hs ht
    exact ⟨h', by simp [step, e1], e2⟩
  | @moveConstructLinked b s X a Y hb hs =>
    obtain ⟨h1, e1, e2⟩ := hr.newElem hb
    obtain ⟨h2, e3, e4⟩ := e2.reinsert_linked (a := a) (b := b) hs (by simp [Abs.setSt])
    refine ⟨h2, by simp [step, moveConstruct, e1, e3], ?_⟩
    have : ((((σ.setSt b .free).setList s (X ++ b :: Y)).setSt a .free).setSt b .linked) =
        (((σ.setList s (X ++ b :: Y)).setSt a .free).setSt b .linked) := by
      refine Abs.ext' (fun _ => rfl) ?_
      intro x
      by_cases hx : x = b
      · simp [Abs.setSt, upd, hx]
      · simp [Abs.setSt, Abs.setList, upd, hx]
    rwa [this] at e4
  | @moveConstructFree b a hb ha =>
    obtain ⟨h1, e1, e2⟩ := hr.newElem hb
    have hba : a ≠ b := by rintro rfl; rw [hb.1] at ha; cases ha
    have hf : (σ.setSt b .free).st a = .free := by simp [Abs.setSt, upd, hba, ha]
    exact ⟨h1, by simp [step, moveConstruct, e1, e2.reinsert_free hf], e2⟩
  | @moveAssignFreeLinked b s X a Y hb hs =>
    obtain ⟨h2, e3, e4⟩ := hr.reinsert_linked hs hb
    exact ⟨h2, by simp [step, moveAssign, hr.safeExclude_free hb, e3], e4⟩
  | @moveAssignTwoLists s t X a Y Z b W hst hs ht =>
    obtain ⟨h1, e1, e2⟩ := hr.safeExclude_linked ht
    have hs' : ((σ.setList t (Z ++ W)).setSt b .free).lists s = some (X ++ a :: Y) := by
      simp [Abs.setList, Abs.setSt, upd, hst, hs]
    obtain ⟨h2, e3, e4⟩ := e2.reinsert_linked (b := b) hs' (by simp [Abs.setSt])
    refine ⟨h2, by simp [step, moveAssign, e1, e3], ?_⟩
    have : ((((σ.setList t (Z ++ W)).setSt b .free).setList s (X ++ b :: Y)).setSt a .free).setSt b .linked =
        ((((σ.setList t (Z ++ W)).setList s (X ++ b :: Y)).setSt a .free).setSt b .linked) := by
      refine Abs.ext' (fun _ => rfl) ?_
      intro x
      by_cases hx : x = b
      · simp [Abs.setSt, upd, hx]
      · simp [Abs.setSt, Abs.setList, upd, hx]
    rwa [this] at e4
  | @moveAssignBefore s X b Y a Z hs =>
    obtain ⟨h1, e1, e2⟩ := hr.safeExclude_linked hs
    have hs' : ((σ.setList s (X ++ (Y ++ a :: Z))).setSt b .free).lists s = some ((X ++ Y) ++ a :: Z) := by
      simp [Abs.setList, Abs.setSt]
    obtain ⟨h2, e3, e4⟩ := e2.reinsert_linked (b := b) hs' (by simp [Abs.setSt])
    refine ⟨h2, by simp [step, moveAssign, e1, e3], ?_⟩
    have : ((((σ.setList s (X ++ (Y ++ a :: Z))).setSt b .free).setList s ((X ++ Y) ++ b :: Z)).setSt a .free).setSt b .linked
        = (((σ.setList s (X ++ (Y ++ b :: Z))).setSt a .free).setSt b .linked) := by
      refine Abs.ext' ?_ ?_
      · intro x; by_cases hx : x = s <;> simp [Abs.setList, Abs.setSt, upd, hx]
      · intro x
        by_cases hx : x = b
        · simp [Abs.setSt, upd, hx]
        · simp [Abs.setSt, Abs.setList, upd, hx]
    rwa [this] at e4
  | @moveAssignAfter s X a Y b Z hs =>
    have hs0 : σ.lists s = some ((X ++ a :: Y) ++ b :: Z) := by rw [hs]; simp
    obtain ⟨h1, e1, e2⟩ := hr.safeExclude_linked hs0
    have hs' : ((σ.setList s ((X ++ a :: Y) ++ Z)).setSt b .free).lists s = some (X ++ a :: (Y ++ Z)) := by
      simp [Abs.setList, Abs.setSt]
    obtain ⟨h2, e3, e4⟩ := e2.reinsert_linked (b := b) hs' (by simp [Abs.setSt])
    refine ⟨h2, by simp [step, moveAssign, e1, e3], ?_⟩
    have : ((((σ.setList s ((X ++ a :: Y) ++ Z)).setSt b .free).setList s (X ++ b :: (Y ++ Z))).setSt a .free).setSt b .linked
        = (((σ.setList s (X ++ b :: (Y ++ Z))).setSt a .free).setSt b .linked) := by
      refine Abs.ext' ?_ ?_
      · intro x; by_cases hx : x = s <;> simp [Abs.setList, Abs.setSt, upd, hx]
      · intro x
        by_cases hx : x = b
        · simp [Abs.setSt, upd, hx]
        · simp [Abs.setSt, Abs.setList, upd, hx]
    rwa [this] at e4
  | @moveAssignLinkedFree s X b Y a hs ha =>
    obtain ⟨h1, e1, e2⟩ := hr.safeExclude_linked hs
    have hab : a ≠ b := by
      rintro rfl
      rw [hr.st_of_mem hs] at ha; cases ha
    have hf : ((σ.setList s (X ++ Y)).setSt b .free).st a = .free := by
      simp [Abs.setSt, Abs.setList, upd, hab, ha]
    exact ⟨h1, by simp [step, moveAssign, e1, e2.reinsert_free hf], e2⟩
  | moveAssignFreeFree hb ha =>
    exact ⟨h, by simp [step, moveAssign, hr.safeExclude_free hb, hr.reinsert_free ha], hr⟩
  | moveConstructList hs ht =>
    obtain ⟨h', e1, e2⟩ := hr.moveConstructList hs ht
    exact ⟨h', by simp [step, e1], e2⟩
  | moveAssignList hst hs ht =>
    obtain ⟨h', e1, e2⟩ := hr.attach hst hs ht
    exact ⟨h', by simp [step, moveAssignList, hst, e1], e2⟩
  | moveAssignListSelf hs => exact ⟨h, by simp [step, moveAssignList], hr⟩
  | empty hs => exact ⟨h, by simp [step, (hr.ring _ _ hs).isEmpty], hr⟩

theorem run_refines {h : Heap} {σ σ' : Abs} {ops : List Op} {os : List Out} (hr : Rep h σ)
    (hrun : SpecRun σ ops σ' os) : ∃ h', run h ops = .ok (h', os) ∧ Rep h' σ' := by
  induction hrun generalizing h with
  | nil => exact ⟨h, rfl, hr⟩
  | cons hst _ ih =>
    obtain ⟨h1, e1, e2⟩ := step_refines hr hst
    obtain ⟨h2, e3, e4⟩ := ih e2
    exact ⟨h2, by simp [run, e1, e3], e4⟩

end Verif.QuickList
