import Verif.VectorSet.Balance
import Verif.VectorSet.Props

/-! # Balance of `vector_set`: C08 and C09 -/

namespace Verif.VectorSet

open Spec

variable {α : Type}

theorem run_inserts_rb {lt : α → α → Bool} (hlt : StrictWeak lt) : ∀ (vs : List α) {s s' : VSet α} {os : List (Out α)},
    Inv lt s → (∃ m, Rb s.root m) → s.run lt (vs.map Op.insert) = .ok (s', os) → ∃ m, Rb s'.root m := by
  intro vs
  induction vs with
  | nil =>
    intro s s' os _ hr h
    simp only [List.map_nil, VSet.run, Res.ok.injEq, Prod.mk.injEq] at h
    rw [← h.1]; exact hr
  | cons v vs ih =>
    intro s s' os hi hr h
    simp only [List.map_cons, VSet.run, VSet.step, Res.bind_eq_ok] at h
    obtain ⟨⟨s1, o⟩, ⟨⟨s2, e, b⟩, h1, h2⟩, ⟨s3, os'⟩, h3, h4⟩ := h
    simp only [Res.ok.injEq, Prod.mk.injEq] at h2 h4
    obtain ⟨rfl, _⟩ := h2
    obtain ⟨rfl, _⟩ := h4
    have hi' : Inv lt s2 := by
      apply step_inv hlt hi (op := .insert v) (o := .inserted e.val b)
      simp only [VSet.step, h1, Res.ok_bind]
    exact ih hi' (insert_rb hlt hi hr h1) h3

/-- **C08.**  In a set built by insertions only, in any order, no search by key and no look-up by index takes more than
`2 * log2 (size + 1)` iterations: `2 ^ steps ≤ (size + 1) ^ 2`. -/
theorem c08_insertions_keep_balance {lt : α → α → Bool} (hlt : StrictWeak lt) (vs : List α) :
    ∃ s outs, VSet.empty.run lt (vs.map Op.insert) = .ok (s, outs) ∧
      (∀ k, 2 ^ searchSteps (lt k) (fun a => lt a k) s.root ≤ (s.size + 1) ^ 2) ∧
      (∀ i, 2 ^ indexSteps s.root i ≤ (s.size + 1) ^ 2) := by
  have hspec : ∀ (vs : List α) (S : List α), ∃ S' os, Spec.run lt S (vs.map Op.insert) = .ok (S', os) := by
    intro vs
    induction vs with
    | nil => intro S; exact ⟨S, [], rfl⟩
    | cons v vs ih =>
      intro S
      have : ∃ S1 o, Spec.step lt S (.insert v) = .ok (S1, o) := by
        simp only [Spec.step]; split <;> exact ⟨_, _, rfl⟩
      obtain ⟨S1, o, h1⟩ := this
      obtain ⟨S2, os, h2⟩ := ih S1
      exact ⟨S2, o :: os, by simp only [List.map_cons, Spec.run, h1, Res.ok_bind, h2]⟩
  obtain ⟨S', os, h⟩ := hspec vs []
  obtain ⟨s, k1, k2, _⟩ := run_refines hlt (vs.map Op.insert) (Inv.empty lt) h
  obtain ⟨m, hm⟩ := run_inserts_rb hlt vs (Inv.empty lt) ⟨0, rfl⟩ k1
  have hb := rb_bound hm k2.black
  rw [← cnt_eq k2.cnt] at hb
  refine ⟨s, os, k1, fun k => ?_, fun i => ?_⟩
  · exact Nat.le_trans (Nat.pow_le_pow_right (by omega) (searchSteps_le _ _ _)) hb
  · exact Nat.le_trans (Nat.pow_le_pow_right (by omega) (indexSteps_le _ _)) hb

/-- Inserting 1, 2, ..., 8 in order: the search for 8 takes 4 steps. -/
example : ∃ s outs, VSet.empty.run (fun a b : Nat => decide (a < b)) ([1, 2, 3, 4, 5, 6, 7, 8].map Op.insert) = .ok (s, outs) ∧
    s.size = 8 ∧ searchSteps (fun a => decide (8 < a)) (fun a => decide (a < 8)) s.root = 4 := ⟨_, _, rfl, rfl, rfl⟩

theorem spec_run_range (n : Nat) : ∀ m, ∃ os, Spec.run (fun a b : Nat => decide (a < b)) (List.range m)
    ((List.range' m n).map Op.insert) = .ok (List.range (m + n), os) := by
  induction n with
  | zero => intro m; exact ⟨[], rfl⟩
  | succ n ih =>
    intro m
    obtain ⟨os, h⟩ := ih (m + 1)
    have hfind : (List.range m).find? (fun a => eqv (fun a b : Nat => decide (a < b)) a m) = none := by
      rw [List.find?_eq_none]
      intro a ha
      have := List.mem_range.1 ha
      simp [eqv]; omega
    have h1 : Spec.step (fun a b : Nat => decide (a < b)) (List.range m) (.insert m) =
        .ok (List.range (m + 1), .inserted m true) := by
      simp only [Spec.step, hfind]
      rw [filter_all _ (by intro a ha; simpa using List.mem_range.1 ha),
        filter_none _ (by intro a ha; have := List.mem_range.1 ha; simp; omega), List.range_succ]
    refine ⟨.inserted m true :: os, ?_⟩
    simp only [List.range'_succ, List.map_cons, Spec.run, h1, Res.ok_bind, h]
    rw [show m + 1 + n = m + (n + 1) by omega]

/-- **C09 is violated**: for every `N` there is a history of insertions and removals after which the set has at least
`N` elements and the search for one of them visits every element of the set. -/
theorem c09_lookup_degenerates_violated (N : Nat) :
    ∃ s, Reachable (fun a b : Nat => decide (a < b)) s ∧ N ≤ s.size ∧
      ∃ k, searchSteps (fun a => decide (k < a)) (fun a => decide (a < k)) s.root = s.size := by
  obtain ⟨os, h⟩ := spec_run_range (2 ^ N) 0
  obtain ⟨s, k1, k2, k3⟩ := run_refines natLt_strictWeak _ (Inv.empty _) h
  have hr : Reachable (fun a b : Nat => decide (a < b)) s := ⟨_, _, k1⟩
  have hlen : (toL s.root).length = 2 ^ N := by
    have := congrArg List.length k3
    simpa [vals] using this
  have hne : s.root ≠ .nil := by
    intro h0
    rw [h0] at hlen
    have := Nat.two_pow_pos N
    simp [toL] at hlen
    omega
  obtain ⟨e, _, he⟩ := exists_deep natLt_strictWeak s.root hne k2.sorted
  have hh := size_lt_pow_height s.root
  rw [hlen] at hh
  have hN : N < s.root.height := (Nat.pow_lt_pow_iff_right (by omega)).1 hh
  obtain ⟨s', r1, r2, r3⟩ := prune natLt_strictWeak (fun a => decide (e.val < a)) (fun a => decide (a < e.val)) _ s rfl hr
  have hsz : s'.size = (toL s'.root).length := cnt_eq (r1.inv natLt_strictWeak).cnt
  refine ⟨s', r1, ?_, e.val, ?_⟩
  · rw [hsz, r3, he]; omega
  · rw [hsz, r2, r3]

/-- **C09 is violated**, the claimed bound itself: there is a reachable set in which a search takes more than
`2 * log2 (size + 1)` steps. -/
theorem c09_logarithmic_bound_violated :
    ¬ ∀ (s : VSet Nat), Reachable (fun a b : Nat => decide (a < b)) s → ∀ k,
      2 ^ searchSteps (fun a => decide (k < a)) (fun a => decide (a < k)) s.root ≤ (s.size + 1) ^ 2 := by
  intro hall
  obtain ⟨s, hr, hN, k, hk⟩ := c09_lookup_degenerates_violated 6
  have h := hall s hr k
  rw [hk] at h
  have : ∀ d, (6 + d + 1) ^ 2 < 2 ^ (6 + d) := by
    intro d
    induction d with
    | zero => decide
    | succ d ih =>
      have e1 : 2 ^ (6 + (d + 1)) = 2 * 2 ^ (6 + d) := by rw [← Nat.add_assoc, Nat.pow_succ]; omega
      have e2 : (6 + (d + 1) + 1) ^ 2 = (6 + d + 1) ^ 2 + 2 * (6 + d + 1) + 1 := by
        rw [show 6 + (d + 1) + 1 = (6 + d + 1) + 1 by omega, Nat.pow_two, Nat.pow_two, Nat.add_mul, Nat.mul_add]; omega
      have e3 : 2 * (6 + d + 1) + 1 ≤ (6 + d + 1) ^ 2 := by
        rw [Nat.pow_two]
        have : 7 * (6 + d + 1) ≤ (6 + d + 1) * (6 + d + 1) := Nat.mul_le_mul_right _ (by omega)
        omega
      rw [e1, e2]; omega
  have h2 := this (s.size - 6)
  rw [show 6 + (s.size - 6) = s.size by omega] at h2
  omega

theorem searchSteps_le_size (klt elt : α → Bool) (t : Tree α) : searchSteps klt elt t ≤ (toL t).length := by
  induction t with
  | nil => simp [searchSteps]
  | node c n l e r ihl ihr =>
    simp only [searchSteps, toL, List.length_append, List.length_cons]
    split
    · omega
    · split <;> omega

/-- **C09**, the part that holds after any history: a search never takes more than `size` steps.  (The logarithmic bound
holds for sets built by insertions only, see `c08_insertions_keep_balance`.) -/
theorem c09_lookup_linear_partial {lt : α → α → Bool} (hlt : StrictWeak lt) {s : VSet α} (hr : Reachable lt s) (k : α) :
    searchSteps (lt k) (fun a => lt a k) s.root ≤ s.size := by
  have hi := hr.inv hlt
  have := searchSteps_le_size (lt k) (fun a => lt a k) s.root
  rw [VSet.size, cnt_eq hi.cnt]; exact this

/-- A small witness: after inserting 1..5 and removing the leaves off the longest path, three elements form a path. -/
example : ∃ s, Reachable (fun a b : Nat => decide (a < b)) s ∧ s.forward = [2, 3, 4] ∧
    searchSteps (fun a => decide (3 < a)) (fun a => decide (a < 3)) s.root = 3 :=
  ⟨_, ⟨[.insert 1, .insert 2, .insert 3, .insert 4, .insert 5, .eraseKey 5, .eraseKey 1], _, rfl⟩, rfl, rfl⟩

end Verif.VectorSet
