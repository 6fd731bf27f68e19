import Verif.JThread.Lemmas

/-! # Joining threads (C102) -/

namespace Verif.JThread

/-- **C102.**  A thread that was started belongs to exactly one object, or it has been joined or detached, exactly once and not both. -/
theorem c102_owned (l : List (Nat × Act)) (s : State) (h : runAll init l = .ok s) (t : Nat) (h1 : 1 ≤ t) (hn : t ≤ s.n) :
    ((∃ j o, s.objs j = some o ∧ o.thread = some t) ∧ t ∉ s.joined ∧ t ∉ s.detached ∧
      ∀ j j' o o', s.objs j = some o → s.objs j' = some o' → o.thread = some t → o'.thread = some t → j = j') ∨
    ((∀ j o, s.objs j = some o → o.thread ≠ some t) ∧ s.joined.count t + s.detached.count t = 1) := by
  have hi := run_inv l init s inv_init h
  rcases hi.done t h1 hn with ⟨j, o, ho, ht⟩ | hj | hd
  · exact .inl ⟨⟨j, o, ho, ht⟩, (hi.free j o t ho ht).1, (hi.free j o t ho ht).2, fun j j' o o' => hi.single j j' o o' t⟩
  · refine .inr ⟨fun j o ho ht => (hi.free j o t ho ht).1 hj, ?_⟩
    rw [List.count_eq_zero.mpr (hi.disj t hj), hi.nodupJ.count, if_pos hj]
  · refine .inr ⟨fun j o ho ht => (hi.free j o t ho ht).2 hd, ?_⟩
    have : t ∉ s.joined := fun hj => hi.disj t hj hd
    rw [List.count_eq_zero.mpr this, hi.nodupD.count, if_pos hd]

/-- **C102.**  When no object exists any more, every thread has been detached or has ended. -/
theorem c102_all_joined (l : List (Nat × Act)) (s : State) (h : runAll init l = .ok s) (hn : ∀ j, s.objs j = none) (t : Nat) (h1 : 1 ≤ t) (h2 : t ≤ s.n) :
    (t ∈ s.joined ∧ s.ended t = true) ∨ t ∈ s.detached := by
  have hi := run_inv l init s inv_init h
  rcases hi.done t h1 h2 with ⟨j, o, ho, ht⟩ | hj | hd
  · simp [hn j] at ho
  · exact .inl ⟨hj, hi.ended t hj⟩
  · exact .inr hd

/-- **C102.**  The stop source of an object is the one of its thread, wherever both have been moved: `request_stop` stops this thread, and no other one. -/
theorem c102_stop (l : List (Nat × Act)) (s s' : State) (h : runAll init l = .ok s) (a j t : Nat) (o : Obj) (ho : s.objs j = some o) (ht : o.thread = some t)
    (hs : step s a (.stop j) = .ok s') : s'.stops t = true ∧ ∀ u, u ≠ t → s'.stops u = s.stops u := by
  have hi := run_inv l init s inv_init h
  have hp := (hi.pair j o t ho ht).1
  simp only [step, call, reduceCtorEq, if_false, ho] at hs
  split at hs <;> try (simp at hs; done)
  split at hs <;> try (simp at hs; done)
  simp only [hp, requestStop, Res.ok.injEq] at hs
  subst hs
  constructor
  · simp [upd]
  · intro u hu; simp [upd, hu]

/-- **C102.**  A thread that waits in a destructor or an assignment waits for another thread, whose stop has been requested. -/
theorem c102_stop_before_join (l : List (Nat × Act)) (s : State) (h : runAll init l = .ok s) (a j : Nat) (k : Kont) (hpc : s.pc a = some (j, k)) :
    ∃ o t, s.objs j = some o ∧ o.thread = some t ∧ t ≠ a ∧ (k ≠ .join → s.stops t = true) :=
  ((run_inv l init s inv_init h).wait a j k hpc).2.2

/-- The thread would have to join itself. -/
def OwnThread (s : State) (a : Nat) : Act → Prop
  | .destroy j => ∃ o, s.objs j = some o ∧ o.thread = some a
  | .assign j _ => ∃ o, s.objs j = some o ∧ o.thread = some a
  | _ => False

/-- **C102.**  `std::terminate` is never called, unless a thread destroys or overwrites the object it belongs to. Missing: such threads, and that an assignment to itself changes nothing (`c102_self_violated`). -/
theorem c102_no_terminate_partial (l : List (Nat × Act)) (s : State) (h : runAll init l = .ok s) (a : Nat) (x : Act) (hx : ¬ OwnThread s a x) : step s a x ≠ .ub := by
  have hi := run_inv l init s inv_init h
  intro hs
  cases x with
  | wake =>
    simp only [step, if_true, wake] at hs
    split at hs <;> try (simp at hs; done)
    rename_i j k hpc
    obtain ⟨_, _, o, t, ho, ht, _⟩ := hi.wait a j k hpc
    simp only [ho, ht] at hs
    split at hs <;> try (simp at hs; done)
    cases k with
    | join => simp at hs
    | dtor => simp [doDestroy, upd] at hs
    | assign i =>
      simp only [doAssign, upd, if_true] at hs
      split at hs <;> try (simp at hs; done)
      rename_i h1 h2
      simp at h1
      subst h1
      simp at hs
      split at hs <;> simp at hs
  | destroy j =>
    simp only [step, call, reduceCtorEq, if_false] at hs
    split at hs <;> try (simp at hs; done)
    split at hs <;> try (simp at hs; done)
    rename_i o ho
    split at hs <;> try (simp at hs; done)
    split at hs
    · unfold enterJoin at hs
      split at hs
      · rename_i h; exact hx ⟨o, ho, h⟩
      · simp at hs
    · rename_i hth; simp [doDestroy, ho, hth] at hs
  | assign j i =>
    simp only [step, call, reduceCtorEq, if_false] at hs
    split at hs <;> try (simp at hs; done)
    split at hs <;> try (simp at hs; done)
    rename_i o p ho hp
    split at hs <;> try (simp at hs; done)
    split at hs
    · unfold enterJoin at hs
      split at hs
      · rename_i h; exact hx ⟨o, ho, h⟩
      · simp at hs
    · rename_i hth
      simp only [doAssign, ho, hp, hth] at hs
      simp at hs
      split at hs <;> simp at hs
  | empty j => simp only [step, call, reduceCtorEq, if_false] at hs; split at hs <;> try (simp at hs; done)
               split at hs <;> simp at hs
  | start j => simp only [step, call, reduceCtorEq, if_false] at hs; split at hs <;> try (simp at hs; done)
               split at hs <;> simp at hs
  | moveCtor j i => simp only [step, call, reduceCtorEq, if_false] at hs; split at hs <;> try (simp at hs; done)
                    split at hs <;> try (simp at hs; done)
                    split at hs <;> simp at hs
  | swap j i => simp only [step, call, reduceCtorEq, if_false] at hs; split at hs <;> try (simp at hs; done)
                split at hs <;> try (simp at hs; done)
                split at hs <;> simp at hs
  | stop j => simp only [step, call, reduceCtorEq, if_false] at hs; split at hs <;> try (simp at hs; done)
              split at hs <;> try (simp at hs; done)
              split at hs <;> simp at hs
  | join j =>
    simp only [step, call, reduceCtorEq, if_false, enterJoin] at hs; split at hs <;> try (simp at hs; done)
    split at hs <;> try (simp at hs; done)
    split at hs <;> try (simp at hs; done)
    split at hs <;> try (simp at hs; done)
    split at hs <;> simp at hs
  | detach j =>
    simp only [step, call, reduceCtorEq, if_false] at hs; split at hs <;> try (simp at hs; done)
    split at hs <;> try (simp at hs; done)
    split at hs <;> try (simp at hs; done)
    split at hs <;> simp at hs
  | finish => simp only [step, call, reduceCtorEq, if_false] at hs; split at hs <;> try (simp at hs; done)
              split at hs <;> simp at hs

/-- **C102.**  If the thread waited for ends (as one does that obeys its stop token), the wait is over: the thread has been joined, and the object has been destroyed or has
taken what was assigned. -/
theorem c102_returns (l : List (Nat × Act)) (s : State) (h : runAll init l = .ok s) (a j t : Nat) (k : Kont) (o : Obj) (hpc : s.pc a = some (j, k))
    (ho : s.objs j = some o) (ht : o.thread = some t) (he : s.ended t = true) :
    ∃ s', step s a .wake = .ok s' ∧ s'.pc a = none ∧ s'.joined = s.joined ++ [t] ∧
      match k with
      | .join => s'.objs j = some { o with thread := none }
      | .dtor => s'.objs j = none
      | .assign i => if i = j then s'.objs j = some { o with thread := none } else s'.objs j = s.objs i ∧ s'.objs i = some ⟨none, none⟩ := by
  have hi := run_inv l init s inv_init h
  simp only [step, if_true, wake, hpc, ho, ht, he]
  cases k with
  | join => exact ⟨_, rfl, by simp [upd], rfl, by simp [upd]⟩
  | dtor => exact ⟨_, by simp [doDestroy, upd]; rfl, by simp [upd], rfl, by simp [upd]⟩
  | assign i =>
    obtain ⟨p, hp⟩ := hi.from_ a j i hpc
    by_cases hij : i = j
    · subst hij
      exact ⟨_, by simp [doAssign, upd]; rfl, by simp [upd], rfl, by simp [upd]⟩
    · refine ⟨_, by simp [doAssign, upd, hij, hp, Ne.symm hij]; rfl, by simp [upd], rfl, ?_⟩
      simp [upd, hij, hp, Ne.symm hij]

/-- **C102.**  Move construction and swap take the thread along with its stop source and leave nothing behind. -/
theorem c102_move (s s' : State) (a j i : Nat) (hs : step s a (.moveCtor j i) = .ok s') : s'.objs j = s.objs i ∧ s'.objs i = some ⟨none, none⟩ := by
  simp only [step, call, reduceCtorEq, if_false] at hs
  split at hs <;> try (simp at hs; done)
  split at hs <;> try (simp at hs; done)
  rename_i hj hp
  split at hs <;> try (simp at hs; done)
  have hne : j ≠ i := by rintro rfl; simp [hj] at hp
  simp at hs
  subst hs
  simp [upd, hne, hp]

theorem c102_swap (s s' : State) (a j i : Nat) (hs : step s a (.swap j i) = .ok s') : s'.objs j = s.objs i ∧ s'.objs i = s.objs j := by
  simp only [step, call, reduceCtorEq, if_false] at hs
  split at hs <;> try (simp at hs; done)
  split at hs <;> try (simp at hs; done)
  rename_i hj hp
  split at hs <;> try (simp at hs; done)
  simp at hs
  subst hs
  by_cases hne : j = i
  · subst hne; simp_all [upd]
  · simp [upd, hne, hj, hp]

/-- **C102 is violated** for an assignment of an object to itself: its thread is stopped and joined (`std::jthread` leaves it alone, LWG 3788). -/
theorem c102_self_violated (l : List (Nat × Act)) (s : State) (h : runAll init l = .ok s) (a j t : Nat) (o : Obj) (ho : s.objs j = some o) (ht : o.thread = some t)
    (ha : a ≤ s.n ∧ s.ended a = false ∧ s.pc a = none) (hne : t ≠ a) (hb : busy s j = false) :
    ∃ s', step s a (.assign j j) = .ok s' ∧ s'.stops t = true ∧ s'.pc a = some (j, .assign j) := by
  have hi := run_inv l init s inv_init h
  have hp := (hi.pair j o t ho ht).1
  have : ¬ s.n < a := by omega
  refine ⟨_, by simp [step, call, this, ha, ho, ht, hb, enterJoin, hne]; rfl, ?_, ?_⟩
  · simp [hp, requestStop, upd]
  · simp [upd]

/-- **C102.**  No thread is stopped unless it was asked to: by `request_stop`, the destructor or the assignment of an object with its stop source. -/
theorem c102_stop_asked (l : List (Nat × Act)) (s : State) (h : runAll init l = .ok s) (t : Nat) (ht : s.stops t = true) :
    ∃ l₁ a x l₂ s₁ s₂ j o, l = l₁ ++ (a, x) :: l₂ ∧ runAll init l₁ = .ok s₁ ∧ step s₁ a x = .ok s₂ ∧ s₁.objs j = some o ∧ o.src = some t ∧
      (x = .stop j ∨ x = .destroy j ∨ ∃ i, x = .assign j i) :=
  stop_asked t l init s rfl h ht

/-- What the functions require of the user: the objects exist and no thread waits with them; a thread to be joined or detached is there and is not the caller. -/
def Ready (s : State) (a : Nat) : Act → Prop
  | .empty j | .start j => s.objs j = none
  | .moveCtor j i => s.objs j = none ∧ s.objs i ≠ none ∧ ∀ b, ¬ uses s b i
  | .assign j i => (∃ o, s.objs j = some o ∧ o.thread ≠ some a) ∧ s.objs i ≠ none ∧ (∀ b, ¬ uses s b j) ∧ ∀ b, ¬ uses s b i
  | .swap j i => s.objs j ≠ none ∧ s.objs i ≠ none ∧ (∀ b, ¬ uses s b j) ∧ ∀ b, ¬ uses s b i
  | .stop j => s.objs j ≠ none ∧ ∀ b, ¬ uses s b j
  | .join j => (∃ o, s.objs j = some o ∧ o.thread ≠ none ∧ o.thread ≠ some a) ∧ ∀ b, ¬ uses s b j
  | .detach j => (∃ o, s.objs j = some o ∧ o.thread ≠ none) ∧ ∀ b, ¬ uses s b j
  | .destroy j => (∃ o, s.objs j = some o ∧ o.thread ≠ some a) ∧ ∀ b, ¬ uses s b j
  | .wake => False
  | .finish => a ≠ 0

/-- **C102.**  Then every function can be called. -/
theorem c102_callable (s : State) (a : Nat) (x : Act) (ha : a ≤ s.n) (he : s.ended a = false) (hw : s.pc a = none) (hx : Ready s a x) :
    ∃ s', step s a x = .ok s' := by
  have hr : ¬ (s.n < a ∨ s.ended a = true ∨ (s.pc a).isSome = true) := by simp [he, hw]; omega
  cases x with
  | wake => exact hx.elim
  | empty j => simp only [Ready] at hx; simp [step, call, hr, hx]
  | start j => simp only [Ready] at hx; simp [step, call, hr, hx]
  | finish => simp only [Ready] at hx; simp [step, call, hr, hx]
  | moveCtor j i =>
    obtain ⟨h1, h2, h3⟩ := hx
    obtain ⟨p, hp⟩ := Option.ne_none_iff_exists'.1 h2
    simp [step, call, hr, h1, hp, busy_of h3]
  | swap j i =>
    obtain ⟨h1, h2, h3, h4⟩ := hx
    obtain ⟨o, ho⟩ := Option.ne_none_iff_exists'.1 h1
    obtain ⟨p, hp⟩ := Option.ne_none_iff_exists'.1 h2
    simp [step, call, hr, ho, hp, busy_of h3, busy_of h4]
  | stop j =>
    obtain ⟨h1, h3⟩ := hx
    obtain ⟨o, ho⟩ := Option.ne_none_iff_exists'.1 h1
    simp [step, call, hr, ho, busy_of h3]
  | join j =>
    obtain ⟨⟨o, ho, h1, h2⟩, h3⟩ := hx
    simp [step, call, hr, ho, busy_of h3, Option.isSome_iff_ne_none.2 h1, enterJoin, h2]
  | detach j =>
    obtain ⟨⟨o, ho, h1⟩, h3⟩ := hx
    obtain ⟨t, ht⟩ := Option.ne_none_iff_exists'.1 h1
    simp [step, call, hr, ho, busy_of h3, ht]
  | destroy j =>
    obtain ⟨⟨o, ho, h1⟩, h3⟩ := hx
    cases ht : o.thread with
    | none => simp [step, call, hr, ho, busy_of h3, ht, doDestroy]
    | some t => rw [ht] at h1; simp [step, call, hr, ho, busy_of h3, ht, enterJoin, h1]
  | assign j i =>
    obtain ⟨⟨o, ho, h1⟩, h2, h3, h4⟩ := hx
    obtain ⟨p, hp⟩ := Option.ne_none_iff_exists'.1 h2
    cases ht : o.thread with
    | none =>
      by_cases hij : j = i
      · subst hij; simp [step, call, hr, ho, busy_of h3, ht, doAssign]
      · simp [step, call, hr, ho, hp, busy_of h3, busy_of h4, ht, doAssign, hij]
    | some t => rw [ht] at h1; simp [step, call, hr, ho, hp, busy_of h3, busy_of h4, ht, enterJoin, h1]

/-- What can be seen of a state. -/
structure View where
  objs : List (Option Obj)
  stops : List Bool
  joined : List Nat
  detached : List Nat
  waits : List (Option (Nat × Kont))
deriving DecidableEq

def view (r : Res State) (n : Nat) : Option View :=
  match r with
  | .ok s => some ⟨(List.range n).map s.objs, (List.range n).map s.stops, s.joined, s.detached, (List.range n).map s.pc⟩
  | _ => none

-- Non-vacuity: two threads; the object of the first is overwritten by the second and then destroyed.
example : view (runAll init [(0, .start 0), (0, .start 1), (0, .assign 0 1)]) 3
    = some ⟨[some ⟨some 1, some 1⟩, some ⟨some 2, some 2⟩, none], [false, true, false], [], [], [some (0, .assign 1), none, none]⟩ := by decide
example : view (runAll init [(0, .start 0), (0, .start 1), (0, .assign 0 1), (1, .finish), (0, .wake)]) 3
    = some ⟨[some ⟨some 2, some 2⟩, some ⟨none, none⟩, none], [false, true, false], [1], [], [none, none, none]⟩ := by decide
example : view (runAll init [(0, .start 0), (0, .start 1), (0, .assign 0 1), (1, .finish), (0, .wake), (0, .destroy 0), (2, .finish), (0, .wake), (0, .destroy 1)]) 3
    = some ⟨[none, none, none], [false, true, true], [1, 2], [], [none, none, none]⟩ := by decide
-- The calls that are ready, and the one that asked the second thread to stop.
example : ∃ s, runAll init [(0, .start 0), (0, .start 1)] = .ok s ∧ Ready s 0 (.assign 0 1) ∧ Ready s 1 (.detach 1) ∧ ¬ Ready s 1 (.destroy 0) := by
  refine ⟨_, rfl, ?_, ?_, ?_⟩ <;> simp [Ready, upd, init, uses]
example : ∃ s, runAll init [(0, .start 0), (0, .start 1), (0, .stop 1)] = .ok s ∧ s.stops 2 = true ∧ s.stops 1 = false := ⟨_, rfl, rfl, rfl⟩
-- A thread that destroys its own object ends the program.
example : runAll init [(0, .start 0), (1, .destroy 0)] = .ub := rfl
-- A thread is detached; join of it throws.
example : view (runAll init [(0, .start 0), (0, .detach 0), (0, .join 0), (0, .destroy 0)]) 2 = some ⟨[none, none], [false, false], [], [1], [none, none]⟩ := by decide

end Verif.JThread
