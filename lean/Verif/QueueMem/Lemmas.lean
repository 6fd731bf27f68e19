import Verif.QueueMem.Model
import Verif.QuickList.IterLemmas

/-! # The invariant of the memory of an update queue -/

namespace Verif.QueueMem

open Verif.QuickList

/-- The three lists, as sequences. -/
def absOf (P F R : List Nat) : Abs where
  lists := fun s => if s = 0 then some P else if s = 1 then some F else if s = 2 then some R else none
  st := fun a => if a ∈ P ∨ a ∈ F ∨ a ∈ R then .linked else .none

/-- Which instances exist and where. -/
structure Held (func : Nat → Option Nat) (next : Nat) (gone : List Nat) : Prop where
  inj : ∀ a b i, func a = some i → func b = some i → a = b
  all : ∀ i, i < next ↔ (i ∈ gone ∨ ∃ a, func a = some i)
  nodup : gone.Nodup
  apart : ∀ a i, func a = some i → i ∉ gone

/-- Where the running call is. -/
def PhaseOk (R : List Nat) (func : Nat → Option Nat) : List Phase → Prop
  | [] => R = []
  | [.at_ i] => ∃ X Y, R = X ++ Y ∧ i = ⟨some (Y.head?.getD 2), false⟩ ∧ ∀ a ∈ R, func a ≠ none
  | [.in_ x i] => ∃ X Y, R = X ++ x :: Y ∧ i = ⟨some x, false⟩ ∧ ∀ a ∈ R, func a ≠ none
  | [.free i] => ∃ X Y, R = X ++ Y ∧ i = ⟨some (Y.head?.getD 2), false⟩
  | _ => False

structure Inv (q : Queue) (P F R : List Nat) : Prop where
  rep : Rep q.h (absOf P F R)
  held : Held q.func q.next q.gone
  dom : ∀ a, q.func a ≠ none → a ∈ P ∨ a ∈ F ∨ a ∈ R
  pend : ∀ a ∈ P, q.func a ≠ none
  phase : PhaseOk R q.func q.calls

theorem held_drop {func : Nat → Option Nat} {next : Nat} {gone : List Nat} (hh : Held func next gone) (a : Nat) :
    Held (upd func a none) next (gone ++ (func a).toList) := by
  constructor
  · intro x y i hx hy
    simp only [upd] at hx hy
    split at hx
    · cases hx
    · split at hy
      · cases hy
      · exact hh.inj x y i hx hy
  · intro i
    rw [hh.all i]
    constructor
    · rintro (h | ⟨x, hx⟩)
      · exact Or.inl (by simp [h])
      · by_cases hxa : x = a
        · exact Or.inl (by subst hxa; simp [hx])
        · exact Or.inr ⟨x, by simp [upd, hxa, hx]⟩
    · rintro (h | ⟨x, hx⟩)
      · rcases List.mem_append.1 h with h | h
        · exact Or.inl h
        · exact Or.inr ⟨a, by simpa using h⟩
      · simp only [upd] at hx
        split at hx
        · cases hx
        · exact Or.inr ⟨x, hx⟩
  · rw [List.nodup_append]
    refine ⟨hh.nodup, by cases func a <;> simp, ?_⟩
    intro i hi j hj hij
    subst hij
    exact hh.apart a i (by simpa using hj) hi
  · intro x i hx hm
    simp only [upd] at hx
    split at hx
    · cases hx
    · rename_i hxa
      rcases List.mem_append.1 hm with h | h
      · exact hh.apart x i hx h
      · exact hxa (hh.inj x a i hx (by simpa using h))

theorem held_copy {func : Nat → Option Nat} {next : Nat} {gone : List Nat} (hh : Held func next gone) {a : Nat} (ha : func a = none) :
    Held (upd func a (some next)) (next + 1) gone := by
  have hlt : ∀ x i, func x = some i → i < next := fun x i hx => (hh.all i).2 (Or.inr ⟨x, hx⟩)
  constructor
  · intro x y i hx hy
    simp only [upd] at hx hy
    split at hx <;> split at hy
    · simp_all
    · have := hlt _ _ hy; simp at hx; omega
    · have := hlt _ _ hx; simp at hy; omega
    · exact hh.inj x y i hx hy
  · intro i
    constructor
    · intro hi
      by_cases hn : i = next
      · exact Or.inr ⟨a, by simp [upd, hn]⟩
      · rcases (hh.all i).1 (by omega) with h | ⟨x, hx⟩
        · exact Or.inl h
        · refine Or.inr ⟨x, ?_⟩
          have : x ≠ a := by rintro rfl; rw [ha] at hx; cases hx
          simp [upd, this, hx]
    · rintro (h | ⟨x, hx⟩)
      · have := (hh.all i).2 (Or.inl h); omega
      · simp only [upd] at hx
        split at hx
        · simp at hx; omega
        · have := hlt _ _ hx; omega
  · exact hh.nodup
  · intro x i hx hm
    simp only [upd] at hx
    split at hx
    · simp at hx
      have := (hh.all i).2 (Or.inl hm); omega
    · exact hh.apart x i hx hm

theorem PhaseOk.mono {R : List Nat} {func func' : Nat → Option Nat} {cs : List Phase} (h : PhaseOk R func cs) (hf : ∀ a ∈ R, func a ≠ none → func' a ≠ none) :
    PhaseOk R func' cs := by
  match cs, h with
  | [], h => exact h
  | [.at_ _], ⟨X, Y, h1, h2, h3⟩ => exact ⟨X, Y, h1, h2, fun a ha => hf a ha (h3 a ha)⟩
  | [.in_ _ _], ⟨X, Y, h1, h2, h3⟩ => exact ⟨X, Y, h1, h2, fun a ha => hf a ha (h3 a ha)⟩
  | [.free _], ⟨X, Y, h1, h2⟩ => exact ⟨X, Y, h1, h2⟩

theorem absOf_lists0 (P F R : List Nat) : (absOf P F R).lists 0 = some P := by simp [absOf]

theorem absOf_lists1 (P F R : List Nat) : (absOf P F R).lists 1 = some F := by simp [absOf]

theorem absOf_lists2 (P F R : List Nat) : (absOf P F R).lists 2 = some R := by simp [absOf]

/-- What is alive in the memory. -/
theorem Inv.alive {q : Queue} {P F R : List Nat} (hi : Inv q P F R) {a : Nat} (ha : q.h.alive a = true) :
    a = 0 ∨ a = 1 ∨ a = 2 ∨ a ∈ P ∨ a ∈ F ∨ a ∈ R := by
  by_cases hm : a ∈ P ∨ a ∈ F ∨ a ∈ R
  · exact Or.inr (Or.inr (Or.inr hm))
  · by_cases h0 : a = 0
    · exact Or.inl h0
    · by_cases h1 : a = 1
      · exact Or.inr (Or.inl h1)
      · by_cases h2 : a = 2
        · exact Or.inr (Or.inr (Or.inl h2))
        · have := hi.rep.dead a ⟨by simp [absOf, hm], by simp [absOf, h0, h1, h2]⟩
          rw [this] at ha; cases ha

/-- The members of the lists are alive, are no sentinels and are in no other list. -/
theorem Rep.apart {h : Heap} {P F R : List Nat} (hr : Rep h (absOf P F R)) :
    (0 :: P).Nodup ∧ (1 :: F).Nodup ∧ (2 :: R).Nodup ∧ (∀ x ∈ 0 :: P, x ∉ 1 :: F ∧ x ∉ 2 :: R) ∧ (∀ x ∈ 1 :: F, x ∉ 2 :: R) :=
  ⟨(hr.ring 0 P (absOf_lists0 ..)).nodup, (hr.ring 1 F (absOf_lists1 ..)).nodup, (hr.ring 2 R (absOf_lists2 ..)).nodup,
    fun x hx => ⟨hr.disj 0 1 P F (absOf_lists0 ..) (absOf_lists1 ..) (by decide) x hx,
      hr.disj 0 2 P R (absOf_lists0 ..) (absOf_lists2 ..) (by decide) x hx⟩,
    fun x hx => hr.disj 1 2 F R (absOf_lists1 ..) (absOf_lists2 ..) (by decide) x hx⟩

theorem step_ok {h : Heap} {σ σ' : Abs} {op : QuickList.Op} {o : QuickList.Out} (hr : Rep h σ) (hs : SpecStep σ op σ' o) :
    ∃ h', QuickList.step h op = .ok (h', o) ∧ Rep h' σ' := step_refines hr hs

/-- `Push`. -/
theorem push_inv {q : Queue} {P F R : List Nat} (hi : Inv q P F R) {a : Nat} (ha : q.h.alive a = false) (t1 : Bool) :
    ∃ q', push q a t1 false = .ok q' ∧
      (Inv q' P F R ∨ (∃ m F', F = m :: F' ∧ Inv q' (P ++ [m]) F' R) ∨ (F = [] ∧ Inv q' (P ++ [a]) F R)) := by
  have he := (hi.rep.ring 1 F (absOf_lists1 ..)).isEmpty
  obtain ⟨nP, nF, nR, dP, dF⟩ := Rep.apart hi.rep
  cases F with
  | nil =>
    simp only [push, he, List.isEmpty_nil, Res.ok_bind, Bool.true_and]
    cases t1 with
    | true => exact ⟨q, rfl, Or.inl hi⟩
    | false =>
      have hal : ∀ x, x ∈ 0 :: P ∨ x ∈ 1 :: ([] : List Nat) ∨ x ∈ 2 :: R → x ≠ a := by
        rintro x hx rfl
        have : q.h.alive x = true := by
          rcases hx with h | h | h
          · exact (hi.rep.ring 0 P (absOf_lists0 ..)).alive x h
          · exact (hi.rep.ring 1 [] (absOf_lists1 ..)).alive x h
          · exact (hi.rep.ring 2 R (absOf_lists2 ..)).alive x h
        rw [this] at ha; cases ha
      have h0 : a ≠ 0 := fun h => hal 0 (by simp) h.symm
      have h1 : a ≠ 1 := fun h => hal 1 (by simp) h.symm
      have h2 : a ≠ 2 := fun h => hal 2 (by simp) h.symm
      have hP : a ∉ P := fun h => hal a (by simp [h]) rfl
      have hR : a ∉ R := fun h => hal a (by simp [h]) rfl
      have hun : (absOf P [] R).Unused a := ⟨by simp [absOf, hP, hR], by simp [absOf, h0, h1, h2]⟩
      obtain ⟨g, e1, r1⟩ := hi.rep.newElem hun
      obtain ⟨g', e2, r2⟩ := step_ok r1 (SpecStep.pushBack (s := 0) (L := P) (a := a) (by simp [Abs.setSt, absOf])
        (Or.inl (by simp [Abs.setSt])))
      have e2' : QuickList.pushBack g 0 a = .ok g' := by
        simp only [QuickList.step] at e2
        obtain ⟨x, hx, hy⟩ := Res.bind_eq_ok.1 e2
        simp at hy; rw [hx, hy]
      have hfa : q.func a = none := by
        refine Classical.byContradiction fun hc => ?_
        rcases hi.dom a hc with h | h | h
        · exact hP h
        · simp at h
        · exact hR h
      refine ⟨{ ((Queue.copy { q with h := g } a).drop a).copy a with h := g' }, by simp [e1, Queue.copy, Queue.drop, e2'], Or.inr (Or.inr ⟨trivial, ?_⟩)⟩
      constructor
      · have : (((absOf P [] R).setSt a .free).setList 0 (P ++ [a])).setSt a .linked = absOf (P ++ [a]) [] R := by
          refine Abs.ext' ?_ ?_
          · intro x; by_cases hx : x = 0 <;> simp [Abs.setList, Abs.setSt, absOf, upd, hx]
          · intro x; by_cases hx : x = a <;> simp [Abs.setList, Abs.setSt, absOf, upd, hx]
        exact this ▸ r2
      · have k1 := held_copy hi.held hfa
        have k2 := held_drop k1 a
        have k3 := held_copy k2 (a := a) (by simp [upd])
        exact k3
      · intro x hx
        by_cases hxa : x = a
        · simp [hxa]
        · have : q.func x ≠ none := by simpa [Queue.copy, Queue.drop, upd, hxa] using hx
          rcases hi.dom x this with h | h | h <;> simp [h]
      · intro x hx
        by_cases hxa : x = a
        · simp [Queue.copy, Queue.drop, upd, hxa]
        · have : x ∈ P := by simpa [hxa] using hx
          simpa [Queue.copy, Queue.drop, upd, hxa] using hi.pend x this
      · refine hi.phase.mono ?_
        intro x hx hf
        have hxa : x ≠ a := by rintro rfl; exact hR hx
        simpa [Queue.copy, Queue.drop, upd, hxa] using hf
  | cons m F =>
    simp only [push, he, List.isEmpty_cons, Res.ok_bind, Bool.false_and, Bool.false_eq_true, if_false]
    obtain ⟨g, e1, r1⟩ := step_ok hi.rep (SpecStep.popFront (s := 1) (a := m) (L := F) (absOf_lists1 ..))
    have e1' : QuickList.popFront q.h 1 = .ok (g, m) := by
      simp only [QuickList.step] at e1
      obtain ⟨x, hx, hy⟩ := Res.bind_eq_ok.1 e1
      obtain ⟨x1, x2⟩ := x
      simp at hy; rw [hx, hy.1, hy.2]
    obtain ⟨g', e2, r2⟩ := step_ok r1 (SpecStep.pushBack (s := 0) (L := P) (a := m) (by simp [Abs.setSt, Abs.setList, absOf, upd])
      (Or.inl (by simp [Abs.setSt])))
    have e2' : QuickList.pushBack g 0 m = .ok g' := by
      simp only [QuickList.step] at e2
      obtain ⟨x, hx, hy⟩ := Res.bind_eq_ok.1 e2
      simp at hy; rw [hx, hy]
    have hmF : m ∉ F := by simp at nF; exact nF.2.1
    have hmR : m ∉ R := by have := dF m (by simp); simp at this; exact this.2
    refine ⟨{ (Queue.drop { q with h := g } m).copy m with h := g' }, by simp [e1', Queue.copy, Queue.drop, e2'], Or.inr (Or.inl ⟨m, F, rfl, ?_⟩)⟩
    constructor
    · have : ((((absOf P (m :: F) R).setList 1 F).setSt m .free).setList 0 (P ++ [m])).setSt m .linked = absOf (P ++ [m]) F R := by
        refine Abs.ext' ?_ ?_
        · intro x; by_cases hx : x = 0 <;> by_cases hx1 : x = 1 <;> simp [Abs.setList, Abs.setSt, absOf, upd, hx, hx1]
        · intro x; by_cases hx : x = m <;> simp [Abs.setList, Abs.setSt, absOf, upd, hx]
      exact this ▸ r2
    · have k2 := held_drop hi.held m
      exact held_copy k2 (a := m) (by simp [upd])
    · intro x hx
      by_cases hxa : x = m
      · simp [hxa]
      · have : q.func x ≠ none := by simpa [Queue.copy, Queue.drop, upd, hxa] using hx
        rcases hi.dom x this with h | h | h
        · simp [h]
        · simp [hxa] at h; simp [h]
        · simp [h]
    · intro x hx
      by_cases hxa : x = m
      · simp [Queue.copy, Queue.drop, upd, hxa]
      · have : x ∈ P := by simpa [hxa] using hx
        simpa [Queue.copy, Queue.drop, upd, hxa] using hi.pend x this
    · refine hi.phase.mono ?_
      intro x hx hf
      have hxa : x ≠ m := by rintro rfl; exact hmR hx
      simpa [Queue.copy, Queue.drop, upd, hxa] using hf

/-- `ClearPending`. -/
theorem clear_inv {q : Queue} {P F R : List Nat} (hi : Inv q P F R) : ∃ q', clearPending q = .ok q' ∧ Inv q' [] (F ++ P) R := by
  obtain ⟨g, e, r⟩ := hi.rep.spliceBack (s := 1) (t := 0) (by decide) (absOf_lists1 ..) (absOf_lists0 ..)
  refine ⟨{ q with h := g }, by simp [clearPending, e], ?_, hi.held, ?_, by simp, hi.phase⟩
  · have : ((absOf P F R).setList 1 (F ++ P)).setList 0 [] = absOf [] (F ++ P) R := by
      refine Abs.ext' ?_ ?_
      · intro x; by_cases hx : x = 0 <;> by_cases hx1 : x = 1 <;> simp [Abs.setList, absOf, upd, hx, hx1]
      · intro x
        simp only [Abs.setList, absOf, List.mem_append, List.not_mem_nil, false_or]
        congr 1
        exact propext ⟨fun h => by rcases h with h | h | h <;> simp [h], fun h => by rcases h with (h | h) | h <;> simp [h]⟩
    exact this ▸ r
  · intro a ha
    rcases hi.dom a ha with h | h | h <;> simp [h]

/-- `PrepareData` of the only call. -/
theorem apply_inv {q : Queue} {P F R : List Nat} (hi : Inv q P F R) (hc : q.calls = []) : ∃ q', apply q = .ok q' ∧ Inv q' [] F P := by
  have hR : R = [] := by have := hi.phase; rw [hc] at this; exact this
  subst hR
  obtain ⟨g, e, r⟩ := step_ok hi.rep (SpecStep.moveAssignList (s := 2) (t := 0) (by decide) (absOf_lists2 ..) (absOf_lists0 ..))
  have e' : QuickList.moveAssignList q.h 2 0 = .ok g := by
    simp only [QuickList.step] at e
    obtain ⟨x, hx, hy⟩ := Res.bind_eq_ok.1 e
    simp at hy; rw [hx, hy]
  have hσ : ((absOf P F []).setList 2 P).setList 0 [] = absOf [] F P := by
    refine Abs.ext' ?_ ?_
    · intro x; by_cases hx : x = 0 <;> by_cases hx1 : x = 2 <;> simp [Abs.setList, absOf, upd, hx, hx1]
    · intro x
      simp only [Abs.setList, absOf, List.not_mem_nil, false_or, or_false]
      congr 1
      exact propext ⟨fun h => h.symm, fun h => h.symm⟩
  rw [hσ] at r
  have hb := begin_ok false (r.ring 2 P (absOf_lists2 ..))
  refine ⟨{ q with h := g, calls := .at_ ⟨some ((dir false P).head?.getD 2), false⟩ :: q.calls }, by simp [apply, e', hb], r, hi.held, ?_, by simp, ?_⟩
  · intro a ha
    rcases hi.dom a ha with h | h | h
    · simp [h]
    · simp [h]
    · simp at h
  · simp only [hc]
    exact ⟨[], P, rfl, by simp [dir], hi.pend⟩

/-- A step of the only call. -/
theorem next_inv {q : Queue} {P F R : List Nat} (hi : Inv q P F R) (throws : Bool) :
    ∃ q' F' R', next q throws = .ok q' ∧ Inv q' P F' R' := by
  have hring := hi.rep.ring 2 R (absOf_lists2 ..)
  obtain ⟨nP, nF, nR, dP, dF⟩ := Rep.apart hi.rep
  have h2R : 2 ∉ R := by simp at nR; exact nR.1
  have hb := begin_ok false hring
  have hph := hi.phase
  cases hcs : q.calls with
  | nil => exact ⟨q, F, R, by simp [next, hcs], hi⟩
  | cons ph cs =>
    rw [hcs] at hph
    cases cs with
    | cons c cs => cases ph <;> exact absurd hph (by simp [PhaseOk])
    | nil =>
      cases ph with
      | at_ i =>
        obtain ⟨X, Y, hXY, hiE, hall⟩ := hph
        cases Y with
        | nil =>
          refine ⟨{ q with calls := [.free ⟨some ((dir false R).head?.getD 2), false⟩] }, F, R, by simp [next, hcs, hiE, Iter.eq, Iter.stop, hb], hi.rep, hi.held, hi.dom, hi.pend, ?_⟩
          exact ⟨[], R, rfl, by simp [dir]⟩
        | cons x Y =>
          have hx : x ∈ R := by rw [hXY]; simp
          have hx2 : x ≠ 2 := by rintro rfl; exact h2R hx
          obtain ⟨u, hu⟩ := Option.ne_none_iff_exists'.1 (hall x hx)
          refine ⟨{ q with calls := [.in_ x i] }, F, R, by simp [next, hcs, hiE, Iter.eq, Iter.stop, hx2, Iter.deref, hu], hi.rep, hi.held, hi.dom, hi.pend, ?_⟩
          exact ⟨X, Y, hXY, by simp [hiE], hall⟩
      | in_ x i =>
        obtain ⟨X, Y, hXY, hiE, hall⟩ := hph
        cases throws with
        | true =>
          refine ⟨{ q with calls := [.free ⟨some ((dir false R).head?.getD 2), false⟩] }, F, R, by simp [next, hcs, hb], hi.rep, hi.held, hi.dom, hi.pend, ?_⟩
          exact ⟨[], R, rfl, by simp [dir]⟩
        | false =>
          have hinc := inc_ok (back := false) hring (X := X) (x := x) (Y := Y) hXY
          refine ⟨{ q with calls := [.at_ ⟨some (Y.head?.getD 2), false⟩] }, F, R, by simp [next, hcs, hiE, hinc], hi.rep, hi.held, hi.dom, hi.pend, ?_⟩
          exact ⟨X ++ [x], Y, by simp [hXY], rfl, hall⟩
      | free i =>
        obtain ⟨X, Y, hXY, hiE⟩ := hph
        cases Y with
        | nil =>
          obtain ⟨g, e, r⟩ := hi.rep.spliceBack (s := 1) (t := 2) (by decide) (absOf_lists1 ..) (absOf_lists2 ..)
          refine ⟨{ q with h := g, calls := [] }, F ++ R, [], by simp [next, hcs, hiE, Iter.eq, Iter.stop, e], ?_, hi.held, ?_, hi.pend, rfl⟩
          · have : ((absOf P F R).setList 1 (F ++ R)).setList 2 [] = absOf P (F ++ R) [] := by
              refine Abs.ext' ?_ ?_
              · intro x; by_cases hx : x = 2 <;> by_cases hx1 : x = 1 <;> simp [Abs.setList, absOf, upd, hx, hx1]
              · intro x
                simp [Abs.setList, absOf, List.mem_append]
            exact this ▸ r
          · intro a ha
            rcases hi.dom a ha with h | h | h <;> simp [h]
        | cons x Y =>
          have hx : x ∈ R := by rw [hXY]; simp
          have hx2 : x ≠ 2 := by rintro rfl; exact h2R hx
          have hinc := inc_ok (back := false) hring (X := X) (x := x) (Y := Y) hXY
          refine ⟨{ q.drop x with calls := [.free ⟨some (Y.head?.getD 2), false⟩] }, F, R, by simp [next, hcs, hiE, Iter.eq, Iter.stop, hx2, Iter.deref, Queue.drop, hinc], hi.rep, held_drop hi.held x, ?_, ?_, ?_⟩
          · intro a ha
            by_cases hax : a = x
            · simp [hax, hx]
            · exact hi.dom a (by simpa [Queue.drop, upd, hax] using ha)
          · intro a ha
            have hax : a ≠ x := by
              rintro rfl
              have := (dP a (by simp [ha])).2
              simp [hx] at this
            simpa [Queue.drop, upd, hax] using hi.pend a ha
          · exact ⟨X ++ [x], Y, by simp [hXY], rfl⟩

theorem start_inv : ∃ q, start = .ok q ∧ q.calls = [] ∧ Inv q [] [] [] := by
  obtain ⟨h1, e1, r1⟩ := rep_empty.newList (s := 0) ⟨rfl, rfl⟩
  obtain ⟨h2, e2, r2⟩ := r1.newList (s := 1) ⟨rfl, rfl⟩
  obtain ⟨h3, e3, r3⟩ := r2.newList (s := 2) ⟨rfl, rfl⟩
  refine ⟨⟨h3, fun _ => none, 0, [], []⟩, ?_, rfl, ?_, ?_, by simp, by simp, rfl⟩
  · have e1' : QuickList.newList ⟨fun _ => false, fun _ => none, fun _ => none⟩ 0 = .ok h1 := e1
    simp [start, e1', e2, e3]
  · have : ((Abs.empty.setList 0 []).setList 1 []).setList 2 [] = absOf [] [] [] := by
      refine Abs.ext' ?_ ?_
      · intro x
        by_cases hx : x = 0 <;> by_cases hx1 : x = 1 <;> by_cases hx2 : x = 2 <;> simp_all [Abs.setList, absOf, upd, Abs.empty]
      · intro x; simp [Abs.setList, absOf, Abs.empty]
    exact this ▸ r3
  · exact ⟨by simp, by simp, by simp, by simp⟩

/-! ## The destructor -/

/-- The links of a part of a list. -/
def Seg (h : Heap) (s : Nat) (Y : List Nat) : Prop := ∀ A x B, Y = A ++ x :: B → h.alive x = true ∧ h.fwd x = some (B.head?.getD s)

theorem seg_of_ring {h : Heap} {s : Nat} {L : List Nat} (hr : RingOf h s L) : Seg h s L := by
  intro A x B hL
  exact ⟨hr.alive x (by simp [hL]), (hr.after hL).2⟩

theorem deleteAll_ok {s : Nat} : ∀ (Y : List Nat) (q : Queue) (fuel : Nat), Y.length < fuel → Seg q.h s Y → Y.Nodup → s ∉ Y →
    Held q.func q.next q.gone →
    ∃ q', deleteAll s fuel q ⟨some (Y.head?.getD s), false⟩ = .ok (some q') ∧ q'.h.fwd = q.h.fwd ∧
      (∀ a, q'.h.alive a = if a ∈ Y then false else q.h.alive a) ∧ (∀ a, q'.func a = if a ∈ Y then none else q.func a) ∧
      Held q'.func q'.next q'.gone ∧ q'.next = q.next := by
  intro Y
  induction Y with
  | nil =>
    intro q fuel hf _ _ _ hh
    obtain ⟨n, rfl⟩ : ∃ n, fuel = n + 1 := ⟨fuel - 1, by simp at hf; omega⟩
    exact ⟨q, by simp [deleteAll, Iter.eq, Iter.stop], rfl, by simp, by simp, hh, rfl⟩
  | cons x Y ih =>
    intro q fuel hf hseg hnd hs hh
    obtain ⟨n, rfl⟩ : ∃ n, fuel = n + 1 := ⟨fuel - 1, by simp at hf; omega⟩
    obtain ⟨hal, hfw⟩ := hseg [] x Y rfl
    simp at hnd hs
    have hxs : x ≠ s := fun h => hs.1 h.symm
    let q1 : Queue := { q.drop x with h := { q.h with alive := upd q.h.alive x false } }
    have hdel : delete q x = .ok q1 := by simp [delete, QuickList.kill, hal, q1]
    have hseg1 : Seg q1.h s Y := by
      intro A y B hY
      obtain ⟨h1, h2⟩ := hseg (x :: A) y B (by simp [hY])
      have hyx : y ≠ x := by rintro rfl; exact hnd.1 (by simp [hY])
      exact ⟨by simp [q1, upd, hyx, h1], h2⟩
    obtain ⟨q', e, f1, f2, f3, f4, f5⟩ := ih q1 n (by simp at hf; omega) hseg1 hnd.2 hs.2 (held_drop hh x)
    refine ⟨q', ?_, f1, ?_, ?_, f4, f5⟩
    · have heq : Iter.eq ⟨some x, false⟩ (Iter.stop s false) = false := by simp [Iter.eq, Iter.stop, hxs]
      have hpi : Iter.postInc q.h ⟨some x, false⟩ = .ok (⟨some x, false⟩, ⟨some (Y.head?.getD s), false⟩) := by
        simp [Iter.postInc, Iter.inc, rd_some hal, hfw]
      simp only [List.head?_cons, Option.getD_some, deleteAll, heq, Bool.false_eq_true, if_false, hpi, Res.ok_bind, Iter.deref, hdel]
      exact e
    · intro a
      rw [f2 a]
      by_cases hax : a = x <;> simp [q1, upd, hax]
    · intro a
      rw [f3 a]
      by_cases hax : a = x <;> simp [q1, Queue.drop, upd, hax]

theorem endList_ok {s : Nat} {L : List Nat} {q : Queue} {fuel : Nat} (hf : L.length < fuel) (hr : q.h.alive s = true ∧ q.h.fwd s = some (L.head?.getD s)) (hseg : Seg q.h s L)
    (hnd : (s :: L).Nodup) (hh : Held q.func q.next q.gone) :
    ∃ q', endList s fuel q = .ok (some q') ∧ q'.h.fwd = q.h.fwd ∧
      (∀ a, q'.h.alive a = if a ∈ s :: L then false else q.h.alive a) ∧ (∀ a, q'.func a = if a ∈ L then none else q.func a) ∧
      Held q'.func q'.next q'.gone ∧ q'.next = q.next := by
  simp at hnd
  obtain ⟨q1, e, f1, f2, f3, f4, f5⟩ := deleteAll_ok L q fuel hf hseg hnd.2 hnd.1 hh
  have hs1 : q1.h.alive s = true := by rw [f2 s]; simp [hnd.1, hr.1]
  have hb : Iter.begin q.h s false = .ok ⟨some (L.head?.getD s), false⟩ := by simp [Iter.begin, rd_some hr.1, hr.2]
  refine ⟨{ q1 with h := { q1.h with alive := upd q1.h.alive s false } }, ?_, f1, ?_, f3, f4, f5⟩
  · simp [endList, hb, e, QuickList.kill, hs1]
  · intro a
    by_cases has : a = s
    · simp [upd, has]
    · simp [upd, has, f2 a]

theorem destroy_ok {q : Queue} {P F R : List Nat} (hi : Inv q P F R) {fuel : Nat} (hf : P.length < fuel ∧ F.length < fuel ∧ R.length < fuel) :
    ∃ q', destroy fuel q = .ok (some q') ∧ (∀ a, q'.h.alive a = false) ∧ (∀ a, q'.func a = none) ∧ Held q'.func q'.next q'.gone ∧ q'.next = q.next := by
  obtain ⟨nP, nF, nR, dP, dF⟩ := Rep.apart hi.rep
  have rP := hi.rep.ring 0 P (absOf_lists0 ..)
  have rF := hi.rep.ring 1 F (absOf_lists1 ..)
  have rR := hi.rep.ring 2 R (absOf_lists2 ..)
  obtain ⟨q1, e1, f1, a1, g1, hh1, n1⟩ := endList_ok hf.2.2 rR.first (seg_of_ring rR) nR hi.held
  have segF : Seg q1.h 1 F := by
    intro A x B hF
    obtain ⟨h1, h2⟩ := seg_of_ring rF A x B hF
    have : x ∉ 2 :: R := dF x (by simp [hF])
    exact ⟨by rw [a1 x, if_neg this]; exact h1, by rw [f1]; exact h2⟩
  have headF : q1.h.alive 1 = true ∧ q1.h.fwd 1 = some (F.head?.getD 1) := by
    refine ⟨?_, by rw [f1]; exact rF.first.2⟩
    rw [a1 1, if_neg (dF 1 (by simp))]; exact rF.first.1
  obtain ⟨q2, e2, f2, a2, g2, hh2, n2⟩ := endList_ok hf.2.1 headF segF nF hh1
  have segP : Seg q2.h 0 P := by
    intro A x B hP
    obtain ⟨h1, h2⟩ := seg_of_ring rP A x B hP
    have hx := dP x (by simp [hP])
    exact ⟨by rw [a2 x, if_neg hx.1, a1 x, if_neg hx.2]; exact h1, by rw [f2, f1]; exact h2⟩
  have headP : q2.h.alive 0 = true ∧ q2.h.fwd 0 = some (P.head?.getD 0) := by
    have hx := dP 0 (by simp)
    refine ⟨?_, by rw [f2, f1]; exact rP.first.2⟩
    rw [a2 0, if_neg hx.1, a1 0, if_neg hx.2]; exact rP.first.1
  obtain ⟨q3, e3, f3, a3, g3, hh3, n3⟩ := endList_ok hf.1 headP segP nP hh2
  refine ⟨q3, by simp [destroy, e1, e2, e3], ?_, ?_, hh3, by rw [n3, n2, n1]⟩
  · intro a
    rw [a3 a, a2 a, a1 a]
    by_cases ha : q.h.alive a = true
    · rcases hi.alive ha with h | h | h | h | h | h <;> simp [h]
    · simp [ha]
  · intro a
    rw [g3 a, g2 a, g1 a]
    by_cases ha : q.func a = none
    · simp [ha]
    · rcases hi.dom a ha with h | h | h <;> simp [h]

end Verif.QueueMem
