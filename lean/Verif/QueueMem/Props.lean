import Verif.QueueMem.Lemmas

/-! # C176: an update queue leaves nothing behind -/

namespace Verif.QueueMem

open Verif.QuickList

/-- What the partial theorems allow: `new` returns memory nobody uses, the assignment of line 79 does not throw (the copy in line 72 may), and `ApplyUpdates` is not called inside an update. -/
def Allowed (q : Queue) : Op → Prop
  | .push a _ t2 => q.h.alive a = false ∧ t2 = false
  | .clear => True
  | .apply => q.calls = []
  | .next _ => True

/-- The states the allowed histories lead to. -/
inductive Exec : Queue → Prop where
  | start {q} : start = .ok q → Exec q
  | step {q q' op} : Exec q → Allowed q op → step q op = .ok q' → Exec q'

theorem step_inv {q : Queue} {P F R : List Nat} (hi : Inv q P F R) {op : Op} (ha : Allowed q op) :
    ∃ q' P' F' R', step q op = .ok q' ∧ Inv q' P' F' R' := by
  cases op with
  | push a t1 t2 =>
    obtain ⟨h1, rfl⟩ := ha
    obtain ⟨q', e, h | ⟨m, F', -, h⟩ | ⟨-, h⟩⟩ := push_inv hi h1 t1
    · exact ⟨q', _, _, _, e, h⟩
    · exact ⟨q', _, _, _, e, h⟩
    · exact ⟨q', _, _, _, e, h⟩
  | clear => obtain ⟨q', e, h⟩ := clear_inv hi; exact ⟨q', _, _, _, e, h⟩
  | apply => obtain ⟨q', e, h⟩ := apply_inv hi ha; exact ⟨q', _, _, _, e, h⟩
  | next throws => obtain ⟨q', F', R', e, h⟩ := next_inv hi throws; exact ⟨q', _, _, _, e, h⟩

theorem exec_inv {q : Queue} (h : Exec q) : ∃ P F R, Inv q P F R := by
  induction h with
  | start h =>
    obtain ⟨q0, e, -, hi⟩ := start_inv
    rw [e] at h; cases h
    exact ⟨_, _, _, hi⟩
  | step _ ha e ih =>
    obtain ⟨P, F, R, hi⟩ := ih
    obtain ⟨q', P', F', R', e', hi'⟩ := step_inv hi ha
    rw [e] at e'; cases e'
    exact ⟨_, _, _, hi'⟩

/-- C176, part: a queue can be constructed, and no step touches memory that is not alive or calls an empty function.  Missing: histories with a throwing assignment or with nested calls. -/
theorem c176_defined_partial : (∃ q, start = .ok q) ∧ ∀ {q : Queue}, Exec q → ∀ op, Allowed q op → ∃ q', step q op = .ok q' := by
  constructor
  · obtain ⟨q, e, -⟩ := start_inv; exact ⟨q, e⟩
  · intro q h op ha
    obtain ⟨P, F, R, hi⟩ := exec_inv h
    obtain ⟨q', _, _, _, e, _⟩ := step_inv hi ha
    exact ⟨q', e⟩

/-- C176, part: the destructor ends without undefined behaviour (no block is deleted twice, no link of a deleted block is read), no object is left, and every copy of a function the queue has made was destroyed exactly once
(`gone` lists the destroyed ones, the copies are numbered from 0).  Missing: histories with a throwing assignment or with nested calls. -/
theorem c176_all_freed_partial {q : Queue} (h : Exec q) :
    ∃ n, ∀ fuel, n ≤ fuel → ∃ q', destroy fuel q = .ok (some q') ∧ (∀ a, q'.h.alive a = false) ∧ q'.gone.Nodup ∧ (∀ i, i ∈ q'.gone ↔ i < q.next) := by
  obtain ⟨P, F, R, hi⟩ := exec_inv h
  refine ⟨P.length + F.length + R.length + 1, fun fuel hf => ?_⟩
  obtain ⟨q', e, h1, h2, hh, hn⟩ := destroy_ok hi (fuel := fuel) ⟨by omega, by omega, by omega⟩
  refine ⟨q', e, h1, hh.nodup, fun i => ?_⟩
  rw [← hn, hh.all i]
  simp [h2]

/-- C176, part: at any time of an allowed history every copy made is either destroyed or held by exactly one message that is alive, and never both. -/
theorem c176_owned_partial {q : Queue} (h : Exec q) :
    q.gone.Nodup ∧ ∀ i, i < q.next → (i ∈ q.gone ∧ ∀ a, q.func a ≠ some i) ∨
      (i ∉ q.gone ∧ ∃ a, q.func a = some i ∧ q.h.alive a = true ∧ ∀ b, q.func b = some i → b = a) := by
  obtain ⟨P, F, R, hi⟩ := exec_inv h
  refine ⟨hi.held.nodup, fun i hlt => ?_⟩
  rcases (hi.held.all i).1 hlt with h | ⟨a, ha⟩
  · exact Or.inl ⟨h, fun a hc => hi.held.apart a i hc h⟩
  · refine Or.inr ⟨hi.held.apart a i ha, a, ha, ?_, fun b hb => hi.held.inj b a i hb ha⟩
    rcases hi.dom a (by simp [ha]) with h | h | h
    · exact (hi.rep.ring 0 P (absOf_lists0 ..)).alive a (by simp [h])
    · exact (hi.rep.ring 1 F (absOf_lists1 ..)).alive a (by simp [h])
    · exact (hi.rep.ring 2 R (absOf_lists2 ..)).alive a (by simp [h])

/-- Two updates, the first of which queues a third and clears the queue, and the second throws; then one more. -/
def exampleOps : List Op :=
  [.push 3 false false, .push 4 false false, .apply, .next false, .push 5 true false, .push 5 false false, .clear, .push 9 false false, .next false, .next false, .next true,
    .next false, .next false, .next false, .push 9 false false]

/-- The hypotheses can be met: a history with re-entrant calls, an exception and a reused block.  Messages 3 and 4 were applied, 5 was cleared; 5 and 3 were used again. -/
example : ∃ q0 q q', start = .ok q0 ∧ run q0 exampleOps = .ok q ∧ destroy 9 q = .ok (some q') ∧ q.next = 8 ∧ q.calls = [] ∧ q.func 3 = some 7 ∧ q.func 4 = none ∧ q.func 5 = some 6 ∧
    q.h.alive 3 = true ∧ q.h.alive 9 = false ∧ q'.h.alive 3 = false ∧ q'.gone.length = 8 :=
  ⟨_, _, _, rfl, rfl, rfl, rfl, rfl, rfl, rfl, rfl, rfl, rfl, rfl, rfl⟩

/-- The same history is an allowed one. -/
example : ∃ q, Exec q ∧ q.next = 8 ∧ q.calls = [] := by
  have h := (Exec.start rfl)
    |>.step (op := .push 3 false false) ⟨rfl, rfl⟩ rfl
    |>.step (op := .push 4 false false) ⟨rfl, rfl⟩ rfl
    |>.step (op := .apply) rfl rfl
    |>.step (op := .next false) trivial rfl
    |>.step (op := .push 5 true false) ⟨rfl, rfl⟩ rfl
    |>.step (op := .push 5 false false) ⟨rfl, rfl⟩ rfl
    |>.step (op := .clear) trivial rfl
    |>.step (op := .push 9 false false) ⟨rfl, rfl⟩ rfl
    |>.step (op := .next false) trivial rfl
    |>.step (op := .next false) trivial rfl
    |>.step (op := .next true) trivial rfl
    |>.step (op := .next false) trivial rfl
    |>.step (op := .next false) trivial rfl
    |>.step (op := .next false) trivial rfl
    |>.step (op := .push 9 false false) ⟨rfl, rfl⟩ rfl
  exact ⟨_, h, rfl, rfl⟩

/-- C176, what fails: the assignment in line 79 throws.  The block is in no list any more: after the queue is destroyed it is still there, with the copy made by its constructor. -/
theorem c176_copy_violated : ∃ q0 q q', start = .ok q0 ∧ run q0 [.push 3 false true] = .ok q ∧ q.calls = [] ∧ destroy 5 q = .ok (some q') ∧
    q'.h.alive 3 = true ∧ q'.func 3 = some 0 ∧ 0 ∉ q'.gone ∧ q.next = 1 :=
  ⟨_, _, _, rfl, rfl, rfl, rfl, rfl, rfl, by decide, rfl⟩

/-- C176, what fails: `ApplyUpdates` called inside an update (release build; in a debug build the assertion of `quick_list` fails).  The calls return, both updates ran, but the messages that were being applied are in no
list any more: after the queue is destroyed they are still there with their functions. -/
theorem c176_nested_violated : ∃ q0 q q', start = .ok q0 ∧
    run q0 [.push 3 false false, .push 4 false false, .apply, .next false, .apply, .next false, .next false, .next false, .next false, .next false, .next false, .next false] = .ok q ∧
    q.calls = [] ∧ destroy 5 q = .ok (some q') ∧ q'.h.alive 3 = true ∧ q'.h.alive 4 = true ∧ q'.func 3 = some 1 ∧ q'.func 4 = some 3 ∧ q'.gone = [0, 2] ∧ q.next = 4 :=
  ⟨_, _, _, rfl, rfl, rfl, rfl, rfl, rfl, rfl, rfl, rfl, rfl⟩

end Verif.QueueMem
