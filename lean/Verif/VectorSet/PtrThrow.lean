import Verif.VectorSet.PtrThrowSpec
import Verif.VectorSet.PtrSet

/-! # `vector_set` with exceptions: lemmas -/

namespace Verif.VectorSet.Heap

open Verif.VectorSet.Spec (Op Out)
open Verif.QuickList (RingOf)

variable {α β γ : Type}

theorem T.bind_apply (x : T α β) (f : β → T α γ) (t : TS α) :
    (x >>= f) t = (match x t with | .ok (some b, t') => f b t' | .ok (none, t') => .ok (none, t') | .throw e => .throw e | .ub => .ub) := rfl

theorem T.pure_apply (b : β) (t : TS α) : (pure b : T α β) t = .ok (some b, t) := rfl

theorem T.lift_apply (x : M α β) (t : TS α) :
    T.lift x t = (match x t.mem with | .ok (b, m) => .ok (some b, { t with mem := m }) | .throw e => .throw e | .ub => .ub) := rfl

theorem T.lift_ok {x : M α β} {t : TS α} {b : β} {m : Mem α} (h : x t.mem = .ok (b, m)) : T.lift x t = .ok (some b, { t with mem := m }) := by
  rw [T.lift_apply, h]

theorem T.ite_apply {c : Prop} [Decidable c] (x y : T α β) (t : TS α) : (if c then x else y) t = if c then x t else y t := by
  split <;> rfl

theorem T.call_zero {t : TS α} (h : t.calls = 0) : T.call t = .ok (none, t) := by
  obtain ⟨m, r, n⟩ := t
  cases h
  rfl

theorem T.call_succ {t : TS α} {n : Nat} (h : t.calls = n + 1) : T.call t = .ok (some (), { t with calls := n }) := by
  obtain ⟨m, r, k⟩ := t
  cases h
  rfl

/-- `x` does what `p` does, which only reads, or throws and has done nothing; it calls the user's code at most `c` times. -/
def Sim (x : T α β) (p : M α β) (c : Nat) : Prop :=
  ∀ t b, p t.mem = .ok (b, t.mem) →
    (∃ j, x t = .ok (some b, { t with calls := j }) ∧ t.calls ≤ j + c) ∨ (∃ j, x t = .ok (none, { t with calls := j }) ∧ t.calls < c)

theorem rd_none_ub {x : Ptr} {m : Mem α} (h : ∀ a c, x = some a → m.node a ≠ some c) : rd x m = .ub := by
  cases x with
  | none => rfl
  | some a =>
    simp only [rd]
    cases hc : m.node a with
    | none => rfl
    | some c => exact (h a c rfl hc).elim

theorem rd_cases (x : Ptr) (m : Mem α) : rd x m = .ub ∨ ∃ c, rd x m = .ok (c, m) := by
  cases x with
  | none => exact Or.inl rfl
  | some a =>
    simp only [rd]
    cases m.node a with
    | none => exact Or.inl rfl
    | some c => exact Or.inr ⟨c, rfl⟩

theorem findNodeByKeyT_sim {klt elt : α → Bool} : ∀ n x par, Sim (findNodeByKeyT klt elt n x par) (findNodeByKey klt elt n x par) (2 * n) := by
  intro n
  induction n with
  | zero => intro x par t b h; cases h
  | succ n ih =>
    rintro x par ⟨m, raw, k⟩ b h
    simp only at h
    rw [findNodeByKey] at h
    rw [findNodeByKeyT]
    by_cases hx : x = none
    · rw [ite_apply', if_pos hx] at h
      rw [if_pos hx]
      cases h
      exact Or.inl ⟨k, rfl, by simp only; omega⟩
    · rw [ite_apply', if_neg hx] at h
      rw [if_neg hx]
      rcases rd_cases x m with hr | ⟨c, hr⟩
      · rw [bind_apply, hr] at h
        cases h
      · rw [bind_apply, hr] at h
        simp only [] at h
        rw [T.bind_apply, T.lift_ok (t := ⟨m, raw, k⟩) hr]
        simp only []
        cases k with
        | zero => rw [T.bind_apply, T.call_zero rfl]; exact Or.inr ⟨0, rfl, by omega⟩
        | succ k =>
          rw [T.bind_apply, T.call_succ rfl]
          simp only []
          by_cases h1 : klt c.value = true
          · rw [if_pos h1, bind_apply, hr] at h
            simp only [] at h
            rw [if_pos h1]
            rcases ih c.left x ⟨m, raw, k⟩ b h with ⟨j, e1, e2⟩ | ⟨j, e1, e2⟩
            · exact Or.inl ⟨j, e1, by simp only at e2 ⊢; omega⟩
            · exact Or.inr ⟨j, e1, by simp only at e2 ⊢; omega⟩
          · rw [if_neg h1, bind_apply, hr] at h
            simp only [] at h
            rw [if_neg h1]
            cases k with
            | zero => rw [T.bind_apply, T.call_zero rfl]; exact Or.inr ⟨0, rfl, by omega⟩
            | succ k =>
              rw [T.bind_apply, T.call_succ rfl]
              simp only []
              by_cases h2 : elt c.value = true
              · rw [if_pos h2, bind_apply, hr] at h
                simp only [] at h
                rw [if_pos h2]
                rcases ih c.right x ⟨m, raw, k⟩ b h with ⟨j, e1, e2⟩ | ⟨j, e1, e2⟩
                · exact Or.inl ⟨j, e1, by simp only at e2 ⊢; omega⟩
                · exact Or.inr ⟨j, e1, by simp only at e2 ⊢; omega⟩
              · rw [if_neg h2] at h
                rw [if_neg h2]
                cases h
                exact Or.inl ⟨k, rfl, by omega⟩

theorem findBoundByKeyT_sim {klt elt : α → Bool} : ∀ n x g, Sim (findBoundByKeyT klt elt n x g) (findBoundByKey klt elt n x g) (2 * n) := by
  intro n
  induction n with
  | zero => intro x g t b h; cases h
  | succ n ih =>
    rintro x g ⟨m, raw, k⟩ b h
    simp only at h
    rw [findBoundByKey] at h
    rw [findBoundByKeyT]
    by_cases hx : x = none
    · rw [ite_apply', if_pos hx] at h
      rw [if_pos hx]
      cases h
      exact Or.inl ⟨k, rfl, by simp only; omega⟩
    · rw [ite_apply', if_neg hx] at h
      rw [if_neg hx]
      rcases rd_cases x m with hr | ⟨c, hr⟩
      · rw [bind_apply, hr] at h
        cases h
      · rw [bind_apply, hr] at h
        simp only [] at h
        rw [T.bind_apply, T.lift_ok (t := ⟨m, raw, k⟩) hr]
        simp only []
        cases k with
        | zero => rw [T.bind_apply, T.call_zero rfl]; exact Or.inr ⟨0, rfl, by omega⟩
        | succ k =>
          rw [T.bind_apply, T.call_succ rfl]
          simp only []
          by_cases h1 : klt c.value = true
          · rw [if_pos h1, bind_apply, hr] at h
            simp only [] at h
            rw [if_pos h1]
            rcases ih c.left x ⟨m, raw, k⟩ b h with ⟨j, e1, e2⟩ | ⟨j, e1, e2⟩
            · exact Or.inl ⟨j, e1, by simp only at e2 ⊢; omega⟩
            · exact Or.inr ⟨j, e1, by simp only at e2 ⊢; omega⟩
          · rw [if_neg h1, bind_apply, hr] at h
            simp only [] at h
            rw [if_neg h1]
            cases k with
            | zero => rw [T.bind_apply, T.call_zero rfl]; exact Or.inr ⟨0, rfl, by omega⟩
            | succ k =>
              rw [T.bind_apply, T.call_succ rfl]
              simp only []
              by_cases h2 : elt c.value = true
              · rw [if_pos h2, bind_apply, hr] at h
                simp only [] at h
                rw [if_pos h2]
                rcases ih c.right g ⟨m, raw, k⟩ b h with ⟨j, e1, e2⟩ | ⟨j, e1, e2⟩
                · exact Or.inl ⟨j, e1, by simp only at e2 ⊢; omega⟩
                · exact Or.inr ⟨j, e1, by simp only at e2 ⊢; omega⟩
              · rw [if_neg h2] at h
                rw [if_neg h2]
                cases h
                exact Or.inl ⟨k, rfl, by omega⟩

/-! ## A node that is lost -/

/-- `nextId` only grows. -/
theorem inv_bump {lt : α → α → Bool} {s : VSet α} (hi : Inv lt s) : Inv lt { s with nextId := s.nextId + 1 } :=
  ⟨hi.cnt, hi.black, hi.list, hi.uniq, fun a ha => Nat.lt_succ_of_lt (hi.fresh a ha), hi.sorted⟩

theorem Rep.bump {s : VSet α} {m : Mem α} {lost : List Nat} (h : Rep m lost s) : Rep { m with next := m.next + 1 } lost { s with nextId := s.nextId + 1 } where
  tree := ⟨h.tree.tree, h.tree.path, h.tree.root, h.tree.nodup, fun i hi => Nat.lt_succ_of_lt (h.tree.lt i hi)⟩
  ring := h.ring
  next := by show m.next + 1 = s.nextId + 1; rw [h.next]
  dom := h.dom
  alive := h.alive
  apart := fun i hi => ⟨(h.apart i hi).1, Nat.lt_succ_of_lt (h.apart i hi).2⟩

/-- What is written into a lost node does not matter. -/
theorem Rep.setLost {s : VSet α} {m : Mem α} {lost : List Nat} (h : Rep m lost s) {x : Nat} (hx : x ∈ lost) (c : Cell α) : Rep (m.set x c) lost s where
  tree := by
    have hn := (h.apart x hx).1
    refine h.tree.same (fun i hi => ?_) rfl rfl
    simp only [idsF, List.append_nil] at hi
    have hne : i ≠ x := fun hh => hn (hh ▸ hi)
    simp only [set_node]
    rw [if_neg hne]
  ring := h.ring
  next := h.next
  dom := by
    intro i
    have := h.dom i
    simp only [set_node]
    split
    · rename_i hi
      subst hi
      simp [hx]
    · exact this
  alive := h.alive
  apart := h.apart

/-- A node that is not in the list is freed. -/
theorem destroyLost {lt : α → α → Bool} {s : VSet α} {m : Mem α} {lost : List Nat} {x : Nat} (hi : Inv lt s) (h : Rep m (x :: lost) s) (hl : x ∉ lost) (hf : m.links.fwd (x + 1) = none) :
    ∃ m', destroyNode (some x) m = .ok ((), m') ∧ Rep m' lost s ∧ m'.root = m.root ∧ (∀ p, p ≠ x → m'.node p = m.node p) ∧
      ∀ a, a ≠ x + 1 → m'.links.alive a = m.links.alive a ∧ m'.links.fwd a = m.links.fwd a ∧ m'.links.bwd a = m.links.bwd a := by
  obtain ⟨hxt, hxn⟩ := h.apart x (by simp)
  have hal : m.links.alive (x + 1) = true := (h.alive _).2 (Or.inr ⟨x, Or.inr (by simp), rfl⟩)
  have hsafe : QuickList.safeExclude m.links (x + 1) = .ok m.links := by
    simp [QuickList.safeExclude, QuickList.included, QuickList.rd, hal, hf]
  have hne : m.node x ≠ none := by rw [ne_eq, h.dom]; simp
  refine ⟨{ m with links := { m.links with alive := QuickList.upd m.links.alive (x + 1) false }, node := QuickList.upd m.node x none }, ?_,
    ⟨?_, ?_, h.next, ?_, ?_, ?_⟩, rfl, ?_, ?_⟩
  · cases hc : m.node x with
    | none => exact (hne hc).elim
    | some c =>
      have e1 : onLinks (fun h => QuickList.safeExclude h (x + 1)) m = .ok ((), m) := by
        simp only [onLinks, hsafe]
      rw [destroyNode, bind_apply, e1]; simp only []
      rw [bind_apply]
      simp only [onLinks, QuickList.kill, hal, if_true, deallocate, hc]
  · refine h.tree.same (fun i hi => ?_) rfl rfl
    simp only [idsF, List.append_nil] at hi
    have hne : i ≠ x := fun hh => hxt (hh ▸ hi)
    simp only [QuickList.upd]
    rw [if_neg hne]
  · refine h.ring.frame (fun _ _ => rfl) (fun _ _ => rfl) (fun a ha => ?_)
    have hne : a ≠ x + 1 := by
      rintro rfl
      rcases List.mem_cons.1 ha with h0 | h0
      · cases h0
      · obtain ⟨e, he, h0⟩ := List.mem_map.1 h0
        rw [hi.list] at he
        exact hxt (mem_idsT.2 ⟨e, he, by omega⟩)
    simp [QuickList.upd, hne]
  · intro i
    simp only [QuickList.upd]
    split
    · rename_i hi
      subst hi
      exact ⟨fun _ => ⟨hxt, hl⟩, fun _ => rfl⟩
    · rename_i hi
      rw [h.dom, List.mem_cons]
      tauto
  · intro a
    simp only [QuickList.upd]
    split
    · rename_i ha
      subst ha
      simp only [Bool.false_eq_true, Nat.add_right_cancel_iff, false_iff, not_or, not_exists, not_and]
      refine ⟨by omega, fun i hi he => ?_⟩
      subst he
      exact hi.elim hxt hl
    · rename_i ha
      rw [h.alive]
      constructor
      · rintro (h0 | ⟨i, h0 | h0, rfl⟩)
        · exact Or.inl h0
        · exact Or.inr ⟨i, Or.inl h0, rfl⟩
        · rcases List.mem_cons.1 h0 with rfl | h0
          · exact absurd rfl ha
          · exact Or.inr ⟨i, Or.inr h0, rfl⟩
      · rintro (h0 | ⟨i, h0 | h0, rfl⟩)
        · exact Or.inl h0
        · exact Or.inr ⟨i, Or.inl h0, rfl⟩
        · exact Or.inr ⟨i, Or.inr (by simp [h0]), rfl⟩
  · exact fun i hi => h.apart i (by simp [hi])
  · intro p hp
    simp [QuickList.upd, hp]
  · intro a ha
    simp [QuickList.upd, ha]

/-! ## `InsertNode` -/

theorem insertNodeT_root {lt : α → α → Bool} {x : Ptr} (t : TS α) : insertNodeT lt x none t = T.lift (insertNode lt x none) t := by
  rw [insertNodeT, T.bind_apply, T.lift_apply, T.lift_apply, insertNode, bind_apply]
  cases wr x (fun c => { c with parent := none }) t.mem with
  | ub => rfl
  | throw e => rfl
  | ok r =>
    obtain ⟨-, m⟩ := r
    simp only []
    rw [T.bind_apply, placeNodeT, if_pos rfl, T.lift_apply, bind_apply]
    simp only []
    cases placeNode lt x none m with
    | ub => rfl
    | throw e => rfl
    | ok r => rfl

theorem insertNodeT_zero {lt : α → α → Bool} {x p : Nat} {c : Cell α} {t : TS α} (hc : t.mem.node x = some c) (hk : t.calls = 0) :
    insertNodeT lt (some x) (some p) t = .ok (none, { t with mem := t.mem.set x { c with parent := some p } }) := by
  obtain ⟨m, raw, k⟩ := t
  cases hk
  rw [insertNodeT, T.bind_apply, T.lift_ok (t := ⟨m, raw, 0⟩) (wr_ok _ hc)]
  simp only []
  rw [T.bind_apply, placeNodeT, if_neg (by simp), T.bind_apply, T.call_zero rfl]

theorem insertNodeT_succ {lt : α → α → Bool} {x p : Nat} {t : TS α} {n : Nat} (hk : t.calls = n + 1) :
    insertNodeT lt (some x) (some p) t = T.lift (insertNode lt (some x) (some p)) { t with calls := n } := by
  obtain ⟨m0, raw, k⟩ := t
  cases hk
  rw [insertNodeT, T.bind_apply, T.lift_apply, T.lift_apply, insertNode, bind_apply]
  simp only
  cases wr (some x) (fun c => { c with parent := some p }) m0 with
  | ub => rfl
  | throw e => rfl
  | ok r =>
    obtain ⟨-, m⟩ := r
    simp only []
    rw [T.bind_apply, placeNodeT, if_neg (by simp), T.bind_apply, T.call_succ (n := n) rfl, bind_apply]
    simp only []
    rw [T.lift_apply]
    simp only []
    cases placeNode lt (some x) (some p) m with
    | ub => rfl
    | throw e => rfl
    | ok r => rfl

end Verif.VectorSet.Heap
