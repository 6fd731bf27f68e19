import Verif.VectorSet.CompSpec
import Verif.VectorSet.Props

/-!
# C173: sets keep their orders
-/

namespace Verif.VectorSet.Comp

open Verif.VectorSet
open Verif.VectorSet.Spec (eqv)

variable {γ α : Type}

/-- A set and what it should be. -/
def Is (K : Comparators γ α) : Option (γ × VSet α) → Option (Option (α → α → Bool) × List α) → Prop
  | none, none => True
  | some (c, s), some (o, S) => s.forward = S ∧ (∀ lt, o = some lt → K.order c = some lt ∧ StrictWeak lt ∧ Inv lt s) ∧ (o = none → S = [] ∧ ∀ lt, Inv lt s)
  | _, _ => False

theorem Is.set {K : Comparators γ α} {w : World γ α} {v : Ideal α} (h : ∀ i, Is K (w i) (v i)) {i : Nat} {x : Option (γ × VSet α)} {y : Option (Option (α → α → Bool) × List α)}
    (hx : Is K x y) : ∀ k, Is K (w.set i x k) (v.set i y k) := by
  intro k
  simp only [World.set, Ideal.set]
  by_cases hk : k = i
  · rw [if_pos hk, if_pos hk]; exact hx
  · rw [if_neg hk, if_neg hk]; exact h k

theorem Is.some_some {K : Comparators γ α} {x : Option (γ × VSet α)} {o : Option (α → α → Bool)} {S : List α} (h : Is K x (some (o, S))) : ∃ c s, x = some (c, s) := by
  cases x with
  | none => exact h.elim
  | some p => exact ⟨p.1, p.2, rfl⟩

theorem Is.gone {K : Comparators γ α} {x : Option (γ × VSet α)} (h : Is K x none) : x = none := by
  cases x with
  | none => rfl
  | some p => exact h.elim

theorem inv_of_move {lt : α → α → Bool} {a b : VSet α} (hb : Inv lt b) : Inv lt (a.moveAssign b).1 :=
  ⟨hb.cnt, hb.black, hb.list, hb.uniq, fun x hx => Nat.lt_of_lt_of_le (hb.fresh x hx) (Nat.le_max_right _ _), hb.sorted⟩

theorem inv_moved_from {lt : α → α → Bool} {a b : VSet α} : Inv lt (a.moveAssign b).2 :=
  ⟨trivial, Or.inl rfl, rfl, List.Pairwise.nil, by simp [VSet.moveAssign, toL], List.Pairwise.nil⟩

/-- Moving. -/
theorem Is.move {K : Comparators γ α} {keeps : Bool} (hk : keeps = true → ∀ c, K.order (K.moved c) = K.order c) {c : γ} {s t : VSet α} {o : Option (α → α → Bool)} {S : List α}
    (h : Is K (some (c, s)) (some (o, S))) :
    Is K (some (c, (t.moveAssign s).1)) (some (o, S)) ∧ Is K (some (K.moved c, (t.moveAssign s).2)) (some (if keeps then o else none, [])) := by
  obtain ⟨h1, h2, h3⟩ := h
  refine ⟨⟨h1, fun lt hl => ⟨(h2 lt hl).1, (h2 lt hl).2.1, inv_of_move (h2 lt hl).2.2⟩, fun ho => ⟨(h3 ho).1, fun lt => inv_of_move ((h3 ho).2 lt)⟩⟩, rfl, ?_, fun _ => ⟨rfl, fun _ => inv_moved_from⟩⟩
  intro lt hl
  cases keeps with
  | false => cases hl
  | true =>
    obtain ⟨g1, g2, _⟩ := h2 lt hl
    exact ⟨(hk rfl c).trans g1, g2, inv_moved_from⟩

/-- Copying. -/
theorem Is.copy {K : Comparators γ α} {c : γ} {s t : VSet α} {o : Option (α → α → Bool)} {S : List α} (ht : ∀ lt, Inv lt t) (h0 : t.forward = []) (h : Is K (some (c, s)) (some (o, S))) :
    ∃ s', copyElements K c t s.forward = .ok s' ∧ Is K (some (c, s')) (some (o, S)) := by
  obtain ⟨h1, h2, h3⟩ := h
  cases o with
  | none =>
    obtain ⟨rfl, g2⟩ := h3 rfl
    refine ⟨t, ?_, h0, fun lt hl => (by cases hl), fun _ => ⟨rfl, ht⟩⟩
    rw [h1]
    simp only [copyElements]
    cases K.order c <;> rfl
  | some lt =>
    obtain ⟨g1, g2, g3⟩ := h2 lt rfl
    have hv : vals t = [] := by rw [← (ht lt).forward]; exact h0
    obtain ⟨s', k1, k2, k3⟩ := insertAll_ok g2 s.forward (ht lt) (by rw [hv, g3.forward]; simpa using g3.vals_sorted)
    refine ⟨s', by simp only [copyElements, g1, k1], by rw [k2.forward, k3, hv, List.nil_append, h1], fun lt' hl => ?_, fun hl => (by cases hl)⟩
    cases hl
    exact ⟨g1, g2, k2⟩

theorem same_pointwise {lt : α → α → Bool} : ∀ {S T : List α}, same lt S T = true ↔ Pointwise lt S T := by
  intro S
  induction S with
  | nil =>
    intro T
    cases T with
    | nil => simp [same, Pointwise]
    | cons => simp [same, Pointwise]
  | cons x S ih =>
    intro T
    cases T with
    | nil => simp [same, Pointwise]
    | cons y T => rw [pointwise_cons, ← ih]; simp [same]

theorem size_of {lt : α → α → Bool} (hlt : StrictWeak lt) {s : VSet α} (hi : Inv lt s) : s.size = s.forward.length := by
  obtain ⟨s', h1, _, _⟩ := step_refines hlt hi .size (S' := vals s) (o := .num (vals s).length) rfl
  simp only [VSet.step, Res.ok.injEq, Prod.mk.injEq, Spec.Out.num.injEq] at h1
  rw [h1.2, hi.forward]

theorem size_nil {s : VSet α} (hi : ∀ lt, Inv lt s) (h : s.forward = []) : s.size = 0 := by
  have := size_of (lt := fun _ _ => false) ⟨fun _ => rfl, fun _ _ _ h => (by cases h), fun _ _ _ _ _ _ _ => ⟨rfl, rfl⟩⟩ (hi _)
  rw [this, h]; rfl

theorem Is.size {K : Comparators γ α} {c : γ} {s : VSet α} {o : Option (α → α → Bool)} {S : List α} (h : Is K (some (c, s)) (some (o, S))) : s.size = S.length := by
  obtain ⟨h1, h2, h3⟩ := h
  cases o with
  | none =>
    obtain ⟨rfl, g2⟩ := h3 rfl
    exact size_nil g2 h1
  | some lt =>
    obtain ⟨_, g2, g3⟩ := h2 lt rfl
    rw [size_of g2 g3, h1]

/-- One operation. -/
theorem step_is {K : Comparators γ α} (hord : ∀ c lt, K.order c = some lt → StrictWeak lt) {keeps : Bool} (hk : keeps = true → ∀ c, K.order (K.moved c) = K.order c)
    {w : World γ α} {v v' : Ideal α} (h : ∀ i, Is K (w i) (v i)) {op : COp γ α} {out : Spec.Out α} (hs : ideal K.order keeps v op = .ok (v', out)) :
    ∃ w', step K w op = .ok (w', out) ∧ ∀ i, Is K (w' i) (v' i) := by
  have clr : ∀ (t : VSet α) lt, Inv lt t.clear := fun t lt => (clear_ok t).1
  cases op with
  | new i c =>
    simp only [ideal] at hs
    cases hv : v i with
    | some x => simp only [hv] at hs; cases hs
    | none =>
      cases hc : K.order c with
      | none => simp only [hv, hc] at hs; cases hs
      | some lt =>
        simp only [hv, hc, Res.ok.injEq, Prod.mk.injEq] at hs
        obtain ⟨rfl, rfl⟩ := hs
        have hw : w i = none := (hv ▸ h i).gone
        refine ⟨w.set i (some (c, VSet.empty)), by simp only [step, hw], Is.set h ?_⟩
        exact ⟨rfl, fun lt' hl => (by cases hl; exact ⟨hc, hord c lt hc, Inv.empty lt⟩), fun hl => (by cases hl)⟩
  | copyNew i j =>
    simp only [ideal] at hs
    cases hv : v i with
    | some x => simp only [hv] at hs; cases hs
    | none =>
      cases hj : v j with
      | none => simp only [hv, hj] at hs; cases hs
      | some x =>
        obtain ⟨o, S⟩ := x
        simp only [hv, hj, Res.ok.injEq, Prod.mk.injEq] at hs
        obtain ⟨rfl, rfl⟩ := hs
        have hw : w i = none := (hv ▸ h i).gone
        have h1 := hj ▸ h j
        obtain ⟨c, s, hc⟩ := h1.some_some
        rw [hc] at h1
        obtain ⟨s', k1, k2⟩ := h1.copy (t := VSet.empty) (fun lt => Inv.empty lt) rfl
        exact ⟨_, by simp only [step, hw, hc, k1, Res.ok_bind], Is.set h k2⟩
  | moveNew i j =>
    simp only [ideal] at hs
    cases hv : v i with
    | some x => simp only [hv] at hs; cases hs
    | none =>
      cases hj : v j with
      | none => simp only [hv, hj] at hs; cases hs
      | some x =>
        obtain ⟨o, S⟩ := x
        simp only [hv, hj, Res.ok.injEq, Prod.mk.injEq] at hs
        obtain ⟨rfl, rfl⟩ := hs
        have hw : w i = none := (hv ▸ h i).gone
        have h1 := hj ▸ h j
        obtain ⟨c, s, hc⟩ := h1.some_some
        rw [hc] at h1
        obtain ⟨k1, k2⟩ := h1.move hk (t := VSet.empty)
        exact ⟨(w.set i (some (c, (VSet.empty.moveAssign s).1))).set j (some (K.moved c, (VSet.empty.moveAssign s).2)), by simp only [step, hw, hc], Is.set (Is.set h k1) k2⟩
  | copyTo i j =>
    simp only [ideal] at hs
    cases hv : v i with
    | none => simp only [hv] at hs; cases hs
    | some y =>
      cases hj : v j with
      | none => simp only [hv, hj] at hs; cases hs
      | some x =>
        obtain ⟨o, S⟩ := x
        obtain ⟨o2, S2⟩ := y
        simp only [hv, hj] at hs
        split at hs
        · cases hs
        · rename_i hij
          simp only [Res.ok.injEq, Prod.mk.injEq] at hs
          obtain ⟨rfl, rfl⟩ := hs
          have h1 := hj ▸ h j
          have h2 := hv ▸ h i
          obtain ⟨c, s, hc⟩ := h1.some_some
          obtain ⟨c2, t, hc2⟩ := h2.some_some
          rw [hc] at h1
          obtain ⟨s', k1, k2⟩ := h1.copy (t := t.clear) (clr t) rfl
          exact ⟨_, by simp only [step, hc2, hc, if_neg hij, k1, Res.ok_bind], Is.set h k2⟩
  | moveTo i j =>
    simp only [ideal] at hs
    cases hv : v i with
    | none => simp only [hv] at hs; cases hs
    | some y =>
      cases hj : v j with
      | none => simp only [hv, hj] at hs; cases hs
      | some x =>
        obtain ⟨o, S⟩ := x
        obtain ⟨o2, S2⟩ := y
        simp only [hv, hj] at hs
        split at hs
        · cases hs
        · rename_i hij
          simp only [Res.ok.injEq, Prod.mk.injEq] at hs
          obtain ⟨rfl, rfl⟩ := hs
          have h1 := hj ▸ h j
          have h2 := hv ▸ h i
          obtain ⟨c, s, hc⟩ := h1.some_some
          obtain ⟨c2, t, hc2⟩ := h2.some_some
          rw [hc] at h1
          obtain ⟨k1, k2⟩ := h1.move hk (t := t)
          exact ⟨(w.set i (some (c, (t.moveAssign s).1))).set j (some (K.moved c, (t.moveAssign s).2)), by simp only [step, hc2, hc, if_neg hij], Is.set (Is.set h k1) k2⟩
  | on i op =>
    simp only [ideal] at hs
    cases hv : v i with
    | none => simp only [hv] at hs; cases hs
    | some x =>
      obtain ⟨o, S⟩ := x
      have h1 := hv ▸ h i
      obtain ⟨c, s, hc⟩ := h1.some_some
      rw [hc] at h1
      cases o with
      | some lt =>
        simp only [hv, Res.bind_eq_ok, Prod.exists] at hs
        obtain ⟨S', out', h2, h3⟩ := hs
        simp only [Res.ok.injEq, Prod.mk.injEq] at h3
        obtain ⟨rfl, rfl⟩ := h3
        obtain ⟨g1, g2, _⟩ := h1
        obtain ⟨g3, g4, g5⟩ := g2 lt rfl
        obtain ⟨s', k1, k2, k3⟩ := step_refines g4 g5 op (by rw [← g5.forward, g1]; exact h2)
        refine ⟨w.set i (some (c, s')), by simp only [step, hc, onSet, g3, k1, Res.ok_bind], Is.set h ⟨by rw [k2.forward]; exact k3, fun lt' hl => ?_, fun hl => (by cases hl)⟩⟩
        cases hl
        exact ⟨g3, g4, k2⟩
      | none =>
        simp only [hv, Res.bind_eq_ok] at hs
        obtain ⟨out', h2, h3⟩ := hs
        simp only [Res.ok.injEq, Prod.mk.injEq] at h3
        obtain ⟨rfl, rfl⟩ := h3
        obtain ⟨g1, _, g2⟩ := h1
        obtain ⟨rfl, g3⟩ := g2 rfl
        have hsz := size_nil g3 g1
        have hem : s.isEmpty = true := by
          have h0 := (g3 (fun _ _ => false)).list
          have : toL s.root = [] := by
            rw [← h0]
            simpa [VSet.forward] using g1
          cases hr : s.root with
          | nil => simp [VSet.isEmpty, hr]
          | node => rw [hr] at this; simp [toL] at this
        have stay : ∀ s' : VSet α, s'.forward = [] → (∀ lt, Inv lt s') → ∀ k, Is K ((w.set i (some (c, s'))) k) (v k) := by
          intro s' e1 e2 k
          simp only [World.set]
          by_cases hki : k = i
          · rw [if_pos hki, hki, hv]
            exact ⟨e1, fun lt hl => (by cases hl), fun _ => ⟨rfl, e2⟩⟩
          · rw [if_neg hki]; exact h k
        cases op <;> simp only [bare] at h2 <;> cases h2
        · refine ⟨_, ?_, stay s.clear rfl (clr s)⟩
          simp only [step, hc, onSet]
          cases K.order c <;> rfl
        · refine ⟨_, ?_, stay s g1 g3⟩
          simp only [step, hc, onSet]
          cases K.order c <;> simp [compares, VSet.step, hsz]
        · refine ⟨_, ?_, stay s g1 g3⟩
          simp only [step, hc, onSet]
          cases K.order c <;> simp [compares, VSet.step, hem]
  | equal i j =>
    simp only [ideal] at hs
    cases hv : v i with
    | none => simp only [hv] at hs; cases hs
    | some x =>
      obtain ⟨o, S⟩ := x
      cases o with
      | none => simp only [hv] at hs; cases hs
      | some lt =>
        cases hj : v j with
        | none => simp only [hv, hj] at hs; cases hs
        | some y =>
          obtain ⟨o2, T⟩ := y
          simp only [hv, hj, Res.ok.injEq, Prod.mk.injEq] at hs
          obtain ⟨rfl, rfl⟩ := hs
          have h1 := hv ▸ h i
          have h2 := hj ▸ h j
          obtain ⟨c, s, hc⟩ := h1.some_some
          obtain ⟨c2, t, hc2⟩ := h2.some_some
          rw [hc] at h1
          rw [hc2] at h2
          have z1 := h1.size
          have z2 := h2.size
          obtain ⟨g1, g2, _⟩ := h1
          obtain ⟨g3, g4, g5⟩ := g2 lt rfl
          have key : s.eq lt t = .ok (same lt S T) := by
            simp only [VSet.eq, z1, z2, g1, h2.1]
            by_cases hl : S.length = T.length
            · rw [if_pos hl]
              obtain ⟨r, e1, e2⟩ := eqLoop_ok (lt := lt) T S hl.symm
              rw [e1, Bool.eq_iff_iff.2 (e2.trans same_pointwise.symm)]
            · rw [if_neg hl]
              congr 1
              symm
              rw [Bool.eq_false_iff]
              intro hf
              exact hl (same_pointwise.1 hf).1
          exact ⟨w, by simp only [step, hc, hc2, g3, key, Res.ok_bind], h⟩
  | destroy i =>
    simp only [ideal] at hs
    cases hv : v i with
    | none => simp only [hv] at hs; cases hs
    | some x =>
      obtain ⟨o, S⟩ := x
      simp only [hv, Res.ok.injEq, Prod.mk.injEq] at hs
      obtain ⟨rfl, rfl⟩ := hs
      obtain ⟨c, s, hc⟩ := (hv ▸ h i).some_some
      exact ⟨w.set i none, by simp only [step, hc], Is.set h (y := none) trivial⟩

theorem run_is {K : Comparators γ α} (hord : ∀ c lt, K.order c = some lt → StrictWeak lt) {keeps : Bool} (hk : keeps = true → ∀ c, K.order (K.moved c) = K.order c) :
    ∀ (ops : List (COp γ α)) {w : World γ α} {v v' : Ideal α} {outs : List (Spec.Out α)}, (∀ i, Is K (w i) (v i)) → idealRun K.order keeps v ops = .ok (v', outs) →
    ∃ w', run K w ops = .ok (w', outs) ∧ ∀ i, Is K (w' i) (v' i) := by
  intro ops
  induction ops with
  | nil =>
    intro w v v' outs h hr
    simp only [idealRun, Res.ok.injEq, Prod.mk.injEq] at hr
    obtain ⟨rfl, rfl⟩ := hr
    exact ⟨w, rfl, h⟩
  | cons op ops ih =>
    intro w v v' outs h hr
    simp only [idealRun, Res.bind_eq_ok, Prod.exists] at hr
    obtain ⟨v1, o, h1, v2, os, h2, h3⟩ := hr
    simp only [Res.ok.injEq, Prod.mk.injEq] at h3
    obtain ⟨rfl, rfl⟩ := h3
    obtain ⟨w1, k1, k2⟩ := step_is hord hk h h1
    obtain ⟨w2, k3, k4⟩ := ih k2 h2
    exact ⟨w2, by simp only [run, k1, k3, Res.ok_bind], k4⟩

theorem view_of {K : Comparators γ α} {w : World γ α} {v : Ideal α} (h : ∀ i, Is K (w i) (v i)) (i : Nat) : (w i).map (fun x => x.2.forward) = (v i).map Prod.snd := by
  have := h i
  cases hv : v i with
  | none => rw [hv] at this; rw [this.gone]; rfl
  | some x =>
    obtain ⟨o, S⟩ := x
    rw [hv] at this
    obtain ⟨c, s, hc⟩ := this.some_some
    rw [hc] at this ⊢
    exact congrArg some this.1

/-- C173, for comparators that moving does not change (functions, lambdas without captures or with trivial ones, and the like).  Every program with sets of different orders reports what is
expected, and ends with the expected elements: what is copied or moved brings its order along, and a set that was moved from is empty and has the order it had. -/
theorem c173_orders_kept_partial (K : Comparators γ α) (hord : ∀ c lt, K.order c = some lt → StrictWeak lt) (hmoved : ∀ c, K.order (K.moved c) = K.order c) (ops : List (COp γ α))
    {v : Ideal α} {outs : List (Spec.Out α)} (h : idealRun K.order true (fun _ => none) ops = .ok (v, outs)) :
    ∃ w, run K (fun _ => none) ops = .ok (w, outs) ∧ ∀ i, (w i).map (fun x => x.2.forward) = (v i).map Prod.snd := by
  obtain ⟨w, k1, k2⟩ := run_is hord (fun _ => hmoved) ops (w := fun _ => none) (v := fun _ => none) (fun _ => trivial) h
  exact ⟨w, k1, view_of k2⟩

/-- C173, for all comparators, also those that are no longer usable when they were moved from (`std::function`): every program that does with a set that was moved from nothing but ask whether it
is empty, clear it, assign to it and destroy it. -/
theorem c173_all_comparators_partial (K : Comparators γ α) (hord : ∀ c lt, K.order c = some lt → StrictWeak lt) (ops : List (COp γ α))
    {v : Ideal α} {outs : List (Spec.Out α)} (h : idealRun K.order false (fun _ => none) ops = .ok (v, outs)) :
    ∃ w, run K (fun _ => none) ops = .ok (w, outs) ∧ ∀ i, (w i).map (fun x => x.2.forward) = (v i).map Prod.snd := by
  obtain ⟨w, k1, k2⟩ := run_is hord (fun h => by cases h) ops (w := fun _ => none) (v := fun _ => none) (fun _ => trivial) h
  exact ⟨w, k1, view_of k2⟩

/-- `std::function` (or nothing): ascending, descending, and empty. -/
def functions : Comparators (Option Bool) Nat where
  order
    | some true => some (fun a b => decide (a < b))
    | some false => some (fun a b => decide (b < a))
    | none => none
  moved _ := none

/-- Pointers to functions. -/
def pointers : Comparators (Option Bool) Nat := { functions with moved := id }

/-- An ascending and a descending set; a copy takes the order along. -/
def shuffle : List (COp (Option Bool) Nat) :=
  [.new 0 (some true), .new 1 (some false), .on 0 (.insert 1), .on 0 (.insert 2), .on 1 (.insert 7), .on 1 (.insert 9), .copyNew 2 1, .on 2 (.insert 8), .moveTo 0 1, .on 0 (.insert 3),
   .copyTo 1 2, .on 1 (.lowerBound 8), .equal 1 2]

example : ∃ v outs, idealRun functions.order false (fun _ => none) shuffle = .ok (v, outs) ∧ (v 0).map Prod.snd = some [9, 7, 3] ∧ (v 1).map Prod.snd = some [9, 8, 7] ∧
    outs.getLast? = some (.bool true) :=
  ⟨_, _, rfl, rfl, rfl, rfl⟩

example : (∀ c lt, functions.order c = some lt → StrictWeak lt) ∧ ∀ c, pointers.order (pointers.moved c) = pointers.order c := by
  refine ⟨?_, fun _ => rfl⟩
  intro c lt h
  rcases c with _ | _ | _ <;> simp only [functions] at h <;> cases h <;> constructor <;> simp <;> omega

/-- **C173 is violated**: of comparators like `std::function` nothing is left in a set that was moved from: the second insertion into it throws. -/
theorem c173_moved_from_violated :
    (∃ v outs, idealRun functions.order true (fun _ => none) [.new 0 (some true), .on 0 (.insert 1), .moveNew 1 0, .on 0 (.insert 5), .on 0 (.insert 6)] = .ok (v, outs) ∧
      (v 0).map Prod.snd = some [5, 6]) ∧
    run functions (fun _ => none) [.new 0 (some true), .on 0 (.insert 1), .moveNew 1 0, .on 0 (.insert 5), .on 0 (.insert 6)] = .throw (.user 0) :=
  ⟨⟨_, _, rfl, rfl⟩, rfl⟩

/-- So it is with every comparator that cannot be called after it is moved from, in every program: the first insertion into the set that was moved from succeeds, and every operation that compares throws then. -/
theorem c173_every_moved_from_violated (K : Comparators γ α) (w : World γ α) (i j : Nat) (c : γ) (s : VSet α) (hi : w i = none) (hj : w j = some (c, s)) (hm : K.order (K.moved c) = none)
    (x : α) (op : Spec.Op α) (ho : compares op = true) :
    (∃ w' outs, run K w [.moveNew i j, .on j (.insert x)] = .ok (w', outs) ∧ (w' j).map (·.2.forward) = some [x]) ∧
      run K w [.moveNew i j, .on j (.insert x), .on j op] = .throw (.user 0) := by
  have hins : ∃ t : Tree α, (⟨.nil, [], s.nextId⟩ : VSet α).insert (fun _ _ => false) x = .ok (⟨t, [⟨s.nextId, x⟩], s.nextId + 1⟩, ⟨s.nextId, x⟩, true) ∧ ∃ c n l e r, t = .node c n l e r :=
    ⟨.node .black 0 .nil ⟨s.nextId, x⟩ .nil, by simp [VSet.insert, findNode, linkNode, balanceAfterInsert, blackenRoot, setColor, linkList, locate, getPredecessor, climbPred], _, _, _, _, _, rfl⟩
  obtain ⟨t, h1, tc, tn, tl, te, tr, rfl⟩ := hins
  let s' : VSet α := ⟨.node tc tn tl te tr, [⟨s.nextId, x⟩], s.nextId + 1⟩
  let w1 : World γ α := ((w.set i (some (c, (VSet.empty.moveAssign s).1))).set j (some (K.moved c, ⟨.nil, [], s.nextId⟩)))
  have h2 : step K w (.moveNew i j) = .ok (w1, .unit) := by simp only [step, hi, hj]; rfl
  have h3 : w1 j = some (K.moved c, ⟨.nil, [], s.nextId⟩) := by simp [w1, World.set]
  have h4 : step K w1 (.on j (.insert x)) = .ok (w1.set j (some (K.moved c, s')), .inserted x true) := by
    simp only [step, h3, onSet, hm, VSet.isEmpty, Bool.not_true, Bool.and_false, Bool.false_eq_true, if_false, VSet.step, h1, Res.ok_bind]
    rfl
  have h5 : (w1.set j (some (K.moved c, s'))) j = some (K.moved c, s') := by simp [World.set]
  have h6 : step K (w1.set j (some (K.moved c, s'))) (.on j op) = .throw (.user 0) := by
    simp only [step, h5, onSet, hm, ho, VSet.isEmpty, s', Bool.not_false, Bool.and_self, if_true, Res.throw_bind]
  exact ⟨⟨w1.set j (some (K.moved c, s')), [.unit, .inserted x true], by simp only [run, h2, h4, Res.ok_bind], by rw [h5]; rfl⟩, by simp only [run, h2, h4, h6, Res.ok_bind, Res.throw_bind]⟩

-- Non-vacuity: a set with the comparator of the sample and two elements; the operation is a search.
example : ∃ w outs s, run functions (fun _ => none) [.new 0 (some true), .on 0 (.insert 1), .on 0 (.insert 4)] = .ok (w, outs) ∧ w 1 = none ∧ w 0 = some (some true, s) ∧ s.forward = [1, 4] ∧
    functions.order (functions.moved (some true)) = none ∧ compares (Spec.Op.contains 5) = true :=
  ⟨_, _, _, rfl, rfl, rfl, rfl, rfl, rfl⟩

end Verif.VectorSet.Comp
