import Verif.Observable.Spec
import Verif.QuickList.StepLemmas

/-! # Observers: helper lemmas -/

namespace Verif.Observable

open Verif.QuickList

theorem setFree_nil (σ : Abs) : setFree σ [] = σ := by
  cases σ; simp [setFree]

theorem step_ok {h' : Heap} {o : Out} {r : Res Heap} (h1 : (r >>= fun x => Res.ok (x, o)) = .ok (h', o)) :
    r = .ok h' := by
  cases r <;> simp at h1 ⊢
  exact h1

theorem clearObservers_rep {L : List Nat} {h : Heap} {σ : Abs} (hr : Rep h σ) {s : Nat} (hs : σ.lists s = some L)
    {fuel : Nat} (hf : L.length < fuel) :
    ∃ h', clearObservers fuel h s = .ok (some h') ∧ Rep h' (setFree (σ.setList s []) L) := by
  induction L generalizing h σ fuel with
  | nil =>
    cases fuel with
    | zero => simp at hf
    | succ f =>
      refine ⟨h, by simp [clearObservers, (hr.ring s _ hs).isEmpty], ?_⟩
      rw [setFree_nil, setList_same hs]; exact hr
  | cons a L ih =>
    cases fuel with
    | zero => simp at hf
    | succ f =>
      obtain ⟨h1, e1, e2⟩ := step_refines hr (.popFront hs)
      have hpop : popFront h s = .ok (h1, a) := by
        simp only [step] at e1
        cases hp : popFront h s with
        | ok v =>
          obtain ⟨v1, v2⟩ := v
          rw [hp] at e1
          simp at e1
          rw [e1.1, e1.2]
        | throw e => rw [hp] at e1; simp at e1
        | ub => rw [hp] at e1; simp at e1
      have hs1 : ((σ.setList s L).setSt a .free).lists s = some L := by simp [Abs.setList, Abs.setSt]
      obtain ⟨h2, e3, e4⟩ := ih e2 hs1 (fuel := f) (by simpa using hf)
      refine ⟨h2, by simp [clearObservers, (hr.ring s _ hs).isEmpty, hpop, e3], ?_⟩
      have : setFree (((σ.setList s L).setSt a .free).setList s []) L = setFree (σ.setList s []) (a :: L) := by
        refine Abs.ext' ?_ ?_
        · intro x; by_cases hx : x = s <;> simp [setFree, Abs.setList, Abs.setSt, upd, hx]
        · intro x
          by_cases hx : x ∈ L
          · simp [setFree, hx]
          · by_cases hxa : x = a <;> simp [setFree, Abs.setSt, Abs.setList, upd, hx, hxa]
      rwa [this] at e4

/-- The loop with more fuel gives the same heap. -/
theorem clearObservers_mono {s n m : Nat} {h r : Heap} (hh : clearObservers n h s = .ok (some r)) (hm : n ≤ m) :
    clearObservers m h s = .ok (some r) := by
  induction n generalizing h m with
  | zero => simp [clearObservers] at hh
  | succ n ih =>
    cases m with
    | zero => omega
    | succ m =>
      simp only [clearObservers, Res.bind_eq_ok] at hh ⊢
      obtain ⟨e, g1, g2⟩ := hh
      refine ⟨e, g1, ?_⟩
      cases e with
      | true => simpa using g2
      | false =>
        simp only [Bool.false_eq_true, if_false, Res.bind_eq_ok] at g2 ⊢
        obtain ⟨v, g3, g4⟩ := g2
        exact ⟨v, g3, ih g4 (by omega)⟩

/-- How much fuel the loop of one operation needs. -/
def opNeeds (σ : Abs) : OOp → Nat
  | .destroyObservable s | .moveAssignObservable s _ => (σ.lists s).elim 0 List.length + 1
  | _ => 0

theorem ostep_refines {h : Heap} {σ σ' : Abs} {op : OOp} {o : Out} (hr : Rep h σ) (hst : OSpecStep σ op σ' o) :
    ∃ h', (∀ fuel, opNeeds σ op ≤ fuel → ostep fuel h op = .ok (some (h', o))) ∧ Rep h' σ' := by
  cases hst with
  | newObserver ha =>
    obtain ⟨h', e1, e2⟩ := hr.newElem ha
    exact ⟨h', fun _ _ => by simp [ostep, e1], e2⟩
  | newObservable ha =>
    obtain ⟨h', e1, e2⟩ := hr.newList ha
    exact ⟨h', fun _ _ => by simp [ostep, e1], e2⟩
  | subscribe hs ha =>
    obtain ⟨h', e1, e2⟩ := step_refines hr (.pushBack hs (.inl ha))
    simp only [step] at e1
    replace e1 := step_ok e1
    exact ⟨h', fun _ _ => by simp [ostep, subscribe, e1], e2⟩
  | unsubscribe hs =>
    obtain ⟨h', e1, e2⟩ := hr.exclude hs
    exact ⟨h', fun _ _ => by simp [ostep, unsubscribeSelf, e1], e2⟩
  | unsubscribeSafeYes hs =>
    obtain ⟨h', e1, e2⟩ := hr.exclude hs
    exact ⟨h', fun _ _ => by
      simp [ostep, unsubscribeSafe, isSubscribed, hr.included_linked hs, unsubscribeSelf, e1], e2⟩
  | unsubscribeSafeNo ha =>
    exact ⟨h, fun _ _ => by simp [ostep, unsubscribeSafe, isSubscribed, hr.included_free ha], hr⟩
  | isSubscribedYes ha =>
    obtain ⟨s, L, hs, hm⟩ := hr.linked' _ ha
    obtain ⟨X, Y, rfl⟩ := List.append_of_mem hm
    exact ⟨h, fun _ _ => by simp [ostep, isSubscribed, hr.included_linked hs], hr⟩
  | isSubscribedNo ha => exact ⟨h, fun _ _ => by simp [ostep, isSubscribed, hr.included_free ha], hr⟩
  | destroyObserverYes hs =>
    obtain ⟨h', e1, e2⟩ := step_refines hr (.destroyLinked hs)
    refine ⟨h', fun _ _ => ?_, e2⟩
    simp only [step, Res.bind_eq_ok] at e1
    obtain ⟨h1, g1, h2, g2, g3⟩ := e1
    cases g3
    simp [ostep, destroyObserver, g1, g2]
  | destroyObserverNo ha =>
    obtain ⟨h', e1, e2⟩ := hr.kill_free (Or.inl ha)
    exact ⟨h', fun _ _ => by simp [ostep, destroyObserver, hr.safeExclude_free ha, e1], e2⟩
  | @destroyObservable s L hs =>
    obtain ⟨h1, e1, e2⟩ := clearObservers_rep hr hs (Nat.lt_succ_self L.length)
    have hs1 : (setFree (σ.setList s []) L).lists s = some [] := by simp [setFree, Abs.setList]
    obtain ⟨h2, e3, e4⟩ := e2.destroyList hs1
    refine ⟨h2, ?_, ?_⟩
    · intro fuel hf
      have hcl : clearObservers fuel h s = .ok (some h1) := by
        have hlt : L.length < fuel := by simp [opNeeds, hs] at hf; omega
        exact clearObservers_mono e1 hlt
      simp [ostep, Observable.destroyObservable, hcl, e3]
    · have : (((setFree (σ.setList s []) L).dropList s).setStale []) = setFree (σ.dropList s) L := by
        refine Abs.ext' ?_ ?_
        · intro x; by_cases hx : x = s <;> simp [setFree, Abs.setList, Abs.dropList, Abs.setStale, upd, hx]
        · intro x; simp [setFree, Abs.setList, Abs.dropList, Abs.setStale]
      rwa [this] at e4
  | moveConstructYes hb hs =>
    obtain ⟨h', e1, e2⟩ := step_refines hr (.moveConstructLinked hb hs)
    simp only [step] at e1
    replace e1 := step_ok e1
    exact ⟨h', fun _ _ => by simp [ostep, e1], e2⟩
  | moveConstructNo hb ha =>
    obtain ⟨h', e1, e2⟩ := step_refines hr (.moveConstructFree hb ha)
    simp only [step] at e1
    replace e1 := step_ok e1
    exact ⟨h', fun _ _ => by simp [ostep, e1], e2⟩
  | moveAssignYes hb hs =>
    obtain ⟨h', e1, e2⟩ := step_refines hr (.moveAssignFreeLinked hb hs)
    simp only [step] at e1
    replace e1 := step_ok e1
    exact ⟨h', fun _ _ => by simp [ostep, e1], e2⟩
  | moveAssignTwo hst hs ht =>
    obtain ⟨h', e1, e2⟩ := step_refines hr (.moveAssignTwoLists hst hs ht)
    simp only [step] at e1
    replace e1 := step_ok e1
    exact ⟨h', fun _ _ => by simp [ostep, e1], e2⟩
  | moveAssignNo hb ha =>
    obtain ⟨h', e1, e2⟩ := step_refines hr (.moveAssignFreeFree hb ha)
    simp only [step] at e1
    replace e1 := step_ok e1
    exact ⟨h', fun _ _ => by simp [ostep, e1], e2⟩
  | moveAssignDrop hs ha =>
    obtain ⟨h', e1, e2⟩ := step_refines hr (.moveAssignLinkedFree hs ha)
    simp only [step] at e1
    replace e1 := step_ok e1
    exact ⟨h', fun _ _ => by simp [ostep, e1], e2⟩
  | moveConstructObservable hs ht =>
    obtain ⟨h', e1, e2⟩ := step_refines hr (.moveConstructList hs ht)
    simp only [step] at e1
    replace e1 := step_ok e1
    exact ⟨h', fun _ _ => by simp [ostep, e1], e2⟩
  | @moveAssignObservable s t L M hst hs ht =>
    obtain ⟨h1, e1, e2⟩ := clearObservers_rep hr hs (Nat.lt_succ_self L.length)
    have hs1 : (setFree (σ.setList s []) L).lists s = some [] := by simp [setFree, Abs.setList]
    have ht1 : (setFree (σ.setList s []) L).lists t = some M := by
      simp [setFree, Abs.setList, upd, Ne.symm hst, ht]
    obtain ⟨h2, e3, e4⟩ := e2.attach hst hs1 ht1
    refine ⟨h2, ?_, ?_⟩
    · intro fuel hf
      have hcl : clearObservers fuel h s = .ok (some h1) := by
        have hlt : L.length < fuel := by simp [opNeeds, hs] at hf; omega
        exact clearObservers_mono e1 hlt
      simp [ostep, Observable.moveAssignObservable, hcl, moveAssignList, hst, e3]
    · have : (((setFree (σ.setList s []) L).setList s M).setList t []) = ((setFree (σ.setList s M) L).setList t []) := by
        refine Abs.ext' ?_ ?_
        · intro x; by_cases hx : x = s <;> simp [setFree, Abs.setList, upd, hx]
        · intro x; rfl
      rwa [this] at e4

theorem orun_refines {h : Heap} {σ σ' : Abs} {ops : List OOp} {os : List Out} (hr : Rep h σ)
    (hrun : OSpecRun σ ops σ' os) :
    ∃ h', Rep h' σ' ∧ ∃ N, ∀ fuel, N ≤ fuel → orun fuel h ops = .ok (some (h', os)) := by
  induction hrun generalizing h with
  | nil => exact ⟨h, hr, 0, fun _ _ => rfl⟩
  | @cons σ _ _ op _ _ _ hst _ ih =>
    obtain ⟨h1, e1, e2⟩ := ostep_refines hr hst
    obtain ⟨h2, e4, N, e3⟩ := ih e2
    refine ⟨h2, e4, max (opNeeds σ op) N, fun fuel hf => ?_⟩
    simp [orun, e1 fuel (by omega), e3 fuel (by omega)]

/-- No observer is ever in the stale state. -/
theorem ostep_noStale {σ σ' : Abs} {op : OOp} {o : Out} (hst : OSpecStep σ op σ' o)
    (hn : ∀ a, σ.st a ≠ .stale) : ∀ a, σ'.st a ≠ .stale := by
  intro x
  cases hst <;> (try simp only [Abs.setSt, Abs.setList, Abs.dropList, setFree, upd]) <;>
    (repeat' split) <;> (first | exact hn x | simp)

theorem orun_noStale {σ σ' : Abs} {ops : List OOp} {os : List Out} (hrun : OSpecRun σ ops σ' os)
    (hn : ∀ a, σ.st a ≠ .stale) : ∀ a, σ'.st a ≠ .stale := by
  induction hrun with
  | nil => exact hn
  | cons hst _ ih => exact ih (ostep_noStale hst hn)

/-- In a heap that represents a state without stale observers, links lead to living objects only. -/
theorem links_alive {h : Heap} {σ : Abs} (hr : Rep h σ) (hn : ∀ a, σ.st a ≠ .stale) {x y : Nat}
    (hx : h.alive x = true) (hl : h.fwd x = some y ∨ h.bwd x = some y) : h.alive y = true := by
  have hring : ∀ s L, σ.lists s = some L → x ∈ s :: L → h.alive y = true := by
    intro s L hs hm
    have hR := hr.ring s L hs
    obtain ⟨X, Y, he⟩ := List.append_of_mem hm
    rcases hl with hl | hl
    · obtain ⟨n, Z, -, hf, -, hnm, -, -⟩ := hR.next he
      rw [hl] at hf; cases hf
      exact hR.alive _ hnm
    · -- the predecessor
      rcases List.mem_cons.1 hm with rfl | hmL
      · obtain ⟨X', q, hq, -, hb⟩ := hR.last
        rw [hl] at hb; cases hb
        exact hR.alive _ (by rw [hq]; simp)
      · obtain ⟨A, B, rfl⟩ := List.append_of_mem hmL
        obtain ⟨P, p, n, Z, hP, -, -, h2, -⟩ := hR.around
        rw [hl] at h2; cases h2
        refine hR.alive _ ?_
        have : y ∈ s :: A := by rw [hP]; simp
        simp at this ⊢
        rcases this with h | h
        · exact Or.inl h
        · exact Or.inr (Or.inl h)
  cases hst : σ.st x with
  | linked =>
    obtain ⟨s, L, hs, hm⟩ := hr.linked' x hst
    exact hring s L hs (by simp [hm])
  | free =>
    have := hr.free x hst
    rcases hl with hl | hl <;> simp [this] at hl
  | stale => exact absurd hst (hn x)
  | none =>
    cases hlx : σ.lists x with
    | none => simp [hr.dead x ⟨hst, hlx⟩] at hx
    | some L => exact hring x L hlx (by simp)

end Verif.Observable
