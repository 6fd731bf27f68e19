import Verif.QueueMem.Props

/-!
# C176: every assignment that throws loses a block
-/

namespace Verif.QueueMem

open Verif.QuickList

/-- The destructor of a queue whose lists are `P`, `F` and `R`, whatever else is alive. -/
theorem destroy_rest {q : Queue} {σ : Abs} {P F R : List Nat} (hr : Rep q.h σ) (l0 : σ.lists 0 = some P) (l1 : σ.lists 1 = some F) (l2 : σ.lists 2 = some R)
    (hh : Held q.func q.next q.gone) {fuel : Nat} (hf : P.length < fuel ∧ F.length < fuel ∧ R.length < fuel) :
    ∃ q', destroy fuel q = .ok (some q') ∧ (∀ a, q'.h.alive a = if a ∈ 0 :: P ∨ a ∈ 1 :: F ∨ a ∈ 2 :: R then false else q.h.alive a) ∧
      (∀ a, q'.func a = if a ∈ P ∨ a ∈ F ∨ a ∈ R then none else q.func a) ∧ Held q'.func q'.next q'.gone ∧ q'.next = q.next := by
  have rP := hr.ring 0 P l0
  have rF := hr.ring 1 F l1
  have rR := hr.ring 2 R l2
  have nP := rP.nodup
  have nF := rF.nodup
  have nR := rR.nodup
  have dP : ∀ x ∈ 0 :: P, x ∉ 1 :: F ∧ x ∉ 2 :: R := fun x hx => ⟨hr.disj 0 1 P F l0 l1 (by decide) x hx, hr.disj 0 2 P R l0 l2 (by decide) x hx⟩
  have dF : ∀ x ∈ 1 :: F, x ∉ 2 :: R := fun x hx => hr.disj 1 2 F R l1 l2 (by decide) x hx
  obtain ⟨q1, e1, f1, a1, g1, hh1, n1⟩ := endList_ok hf.2.2 rR.first (seg_of_ring rR) nR hh
  have segF : Seg q1.h 1 F := by
    intro A x B hF
    obtain ⟨h1, h2⟩ := seg_of_ring rF A x B hF
    have : x ∉ 2 :: R := dF x (by simp [hF])
    exact ⟨by rw [a1 x, if_neg this]; exact h1, by rw [f1]; exact h2⟩
  have headF : q1.h.alive 1 = true ∧ q1.h.fwd 1 = some (F.head?.getD 1) := by
    refine ⟨?_, by rw [f1]; exact rF.first.2⟩
    rw [a1 1, if_neg (dF 1 (by simp))]; exact rF.first.1
  obtain ⟨q2, e2, f2, a2, g2, hh2, n2⟩ := endList_ok hf.2.1 headF segF nF hh1
  have segP : Seg q2.h 0 P := by
    intro A x B hP
    obtain ⟨h1, h2⟩ := seg_of_ring rP A x B hP
    have hx := dP x (by simp [hP])
    exact ⟨by rw [a2 x, if_neg hx.1, a1 x, if_neg hx.2]; exact h1, by rw [f2, f1]; exact h2⟩
  have headP : q2.h.alive 0 = true ∧ q2.h.fwd 0 = some (P.head?.getD 0) := by
    have hx := dP 0 (by simp)
    refine ⟨?_, by rw [f2, f1]; exact rP.first.2⟩
    rw [a2 0, if_neg hx.1, a1 0, if_neg hx.2]; exact rP.first.1
  obtain ⟨q3, e3, f3, a3, g3, hh3, n3⟩ := endList_ok hf.1 headP segP nP hh2
  refine ⟨q3, by simp [destroy, e1, e2, e3], ?_, ?_, hh3, by rw [n3, n2, n1]⟩
  · intro a
    rw [a3 a, a2 a, a1 a]
    by_cases h0 : a ∈ 0 :: P
    · simp only [h0, true_or, if_true]
    · by_cases h1 : a ∈ 1 :: F
      · simp only [h0, h1, if_true, if_false, or_true, true_or]
      · simp only [h0, h1, if_false, false_or]
  · intro a
    rw [g3 a, g2 a, g1 a]
    by_cases h0 : a ∈ P
    · simp only [h0, true_or, if_true]
    · by_cases h1 : a ∈ F
      · simp only [h0, h1, if_true, if_false, or_true, true_or]
      · simp only [h0, h1, if_false, false_or]

/-- **C176 is violated** by every queue, after every history: a `Push` whose assignment (line 79) throws takes one block, the new one or the first free one, that is in no list afterwards.  When the
queue is destroyed exactly this block is left, with the function it has; that function is never destroyed. -/
theorem c176_every_copy_violated {q : Queue} (h : Exec q) {a : Nat} (ha : q.h.alive a = false) :
    ∃ q' m, step q (.push a false true) = .ok q' ∧ (m = a ∧ q'.func m = some q.next ∨ q.h.alive m = true ∧ q'.func m = q.func m) ∧
      ∃ n, ∀ fuel, n ≤ fuel → ∃ q'', destroy fuel q' = .ok (some q'') ∧ (∀ b, q''.h.alive b = true ↔ b = m) ∧ q''.func m = q'.func m ∧ ∀ i, q'.func m = some i → i ∉ q''.gone := by
  obtain ⟨P, F, R, hi⟩ := exec_inv h
  have he := (hi.rep.ring 1 F (absOf_lists1 ..)).isEmpty
  obtain ⟨nP, nF, nR, dP, dF⟩ := Rep.apart hi.rep
  cases F with
  | nil =>
    have hal : ∀ x, x ∈ 0 :: P ∨ x ∈ 1 :: ([] : List Nat) ∨ x ∈ 2 :: R → x ≠ a := by
      rintro x hx rfl
      have : q.h.alive x = true := by
        rcases hx with h | h | h
        · exact (hi.rep.ring 0 P (absOf_lists0 ..)).alive x h
        · exact (hi.rep.ring 1 [] (absOf_lists1 ..)).alive x h
        · exact (hi.rep.ring 2 R (absOf_lists2 ..)).alive x h
      rw [this] at ha; cases ha
    have h0 : a ≠ 0 := fun h => hal 0 (by simp) h.symm
    have h1 : a ≠ 1 := fun h => hal 1 (by simp) h.symm
    have h2 : a ≠ 2 := fun h => hal 2 (by simp) h.symm
    have hP : a ∉ P := fun h => hal a (by simp [h]) rfl
    have hR : a ∉ R := fun h => hal a (by simp [h]) rfl
    have hun : (absOf P [] R).Unused a := ⟨by simp [absOf, hP, hR], by simp [absOf, h0, h1, h2]⟩
    obtain ⟨g, e1, r1⟩ := hi.rep.newElem hun
    have hfa : q.func a = none := by
      refine Classical.byContradiction fun hc => ?_
      rcases hi.dom a hc with h | h | h
      · exact hP h
      · simp at h
      · exact hR h
    refine ⟨Queue.copy { q with h := g } a, a, by simp [step, push, he, e1], .inl ⟨rfl, by simp [Queue.copy, upd]⟩, P.length + R.length + 1, fun fuel hf => ?_⟩
    obtain ⟨q'', k1, k2, k3, k4, _⟩ := destroy_rest (q := Queue.copy { q with h := g } a) (P := P) (F := []) (R := R) (fuel := fuel) r1
      (by simp [Abs.setSt, absOf]) (by simp [Abs.setSt, absOf]) (by simp [Abs.setSt, absOf]) (held_copy hi.held hfa) ⟨by omega, by simp; omega, by omega⟩
    have hm : q''.func a = (Queue.copy { q with h := g } a).func a := by rw [k3 a, if_neg (by simp [hP, hR])]
    refine ⟨q'', k1, fun b => ?_, hm, fun i hb => k4.apart a i (hm.trans hb)⟩
    rw [k2 b]
    by_cases hb : b = a
    · subst hb
      simpa [h0, h1, h2, hP, hR, Queue.copy] using (r1.free b (by simp [Abs.setSt])).1
    · by_cases hin : b ∈ 0 :: P ∨ b ∈ 1 :: ([] : List Nat) ∨ b ∈ 2 :: R
      · rw [if_pos hin]; simp [hb]
      · rw [if_neg hin]
        have : g.alive b = false := r1.dead b (by
          simp only [List.mem_cons, List.not_mem_nil, or_false, not_or] at hin
          exact ⟨by simp [Abs.setSt, absOf, upd, hb, hin], by simp [Abs.setSt, absOf, hin]⟩)
        simp [Queue.copy, this, hb]
  | cons m F =>
    obtain ⟨g, e1, r1⟩ := step_ok hi.rep (SpecStep.popFront (s := 1) (a := m) (L := F) (absOf_lists1 ..))
    have e1' : QuickList.popFront q.h 1 = .ok (g, m) := by
      simp only [QuickList.step] at e1
      obtain ⟨x, hx, hy⟩ := Res.bind_eq_ok.1 e1
      obtain ⟨x1, x2⟩ := x
      simp at hy; rw [hx, hy.1, hy.2]
    have hmF : m ∉ F := by simp at nF; exact nF.2.1
    have hmR : m ∉ 2 :: R := dF m (by simp)
    have hmP : m ∉ 0 :: P := fun h => (dP m h).1 (by simp)
    have hm1 : m ≠ 1 := by simp at nF; exact fun h => nF.1.1 h.symm
    refine ⟨{ q with h := g }, m, by simp [step, push, he, e1'], .inr ⟨(hi.rep.ring 1 (m :: F) (absOf_lists1 ..)).alive m (by simp), rfl⟩, P.length + F.length + R.length + 1, fun fuel hf => ?_⟩
    obtain ⟨q'', k1, k2, k3, k4, _⟩ := destroy_rest (q := { q with h := g }) (P := P) (F := F) (R := R) (fuel := fuel) r1
      (by simp [Abs.setSt, Abs.setList, absOf, upd]) (by simp [Abs.setSt, Abs.setList, absOf, upd]) (by simp [Abs.setSt, Abs.setList, absOf, upd]) hi.held ⟨by omega, by omega, by omega⟩
    have hm : q''.func m = q.func m := by
      rw [k3 m, if_neg]
      simp only [List.mem_cons, not_or] at hmP hmR
      simp [hmP, hmR, hmF]
    refine ⟨q'', k1, fun b => ?_, hm, fun i hb => k4.apart m i (hm.trans hb)⟩
    rw [k2 b]
    by_cases hb : b = m
    · subst hb
      rw [if_neg (by simp only [not_or]; exact ⟨hmP, by simp [hm1, hmF], hmR⟩)]
      simpa using (r1.free b (by simp [Abs.setSt])).1
    · by_cases hin : b ∈ 0 :: P ∨ b ∈ 1 :: F ∨ b ∈ 2 :: R
      · rw [if_pos hin]; simp [hb]
      · rw [if_neg hin]
        have : g.alive b = false := r1.dead b (by
          simp only [List.mem_cons, not_or] at hin
          exact ⟨by simp [Abs.setSt, Abs.setList, absOf, upd, hb, hin], by simp [Abs.setSt, Abs.setList, absOf, upd, hin]⟩)
        simp [this, hb]

/-- The queue of the example history has the free block 4 then, whose function is gone; a queue that applied nothing makes a new block. -/
example : ∃ q0 q q' q'', start = .ok q0 ∧ run q0 exampleOps = .ok q ∧ q.h.alive 11 = false ∧ step q (.push 11 false true) = .ok q' ∧ destroy 9 q' = .ok (some q'') ∧
    q''.h.alive 4 = true ∧ q''.h.alive 3 = false ∧ q''.h.alive 11 = false :=
  ⟨_, _, _, _, rfl, rfl, rfl, rfl, rfl, rfl, rfl, rfl⟩

end Verif.QueueMem
