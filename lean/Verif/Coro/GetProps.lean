import Verif.Coro.GetLemmas
import Verif.Coro.Check

/-!
# `is_ready` and `get` of a task (C153)
-/

namespace Verif.Coro

/-- `is_ready` says no until the body ends, then yes if it ended with a value; it throws what left the body. -/
theorem c153_ready (s : State) (x t : Nat) (h : ReachG s) (hx : Holds s x t) :
    (isReady s x = .ok .no ↔ fins t s.log = []) ∧
    (isReady s x = .ok .yes ↔ ∃ v, fins t s.log = [.value v]) ∧
    (∀ e, isReady s x = .ok (.throws e) ↔ fins t s.log = [.exc e]) := by
  obtain ⟨v, fr, hl, hv, hf, hk, h1⟩ := holds_frame s x t (reachG_all s h) hx
  rcases h1 with ⟨h1, h2⟩ | ⟨r, h1, hm, ⟨h2, _⟩ | ⟨u, rfl, h2, _⟩⟩
  · simp [isReady, hl, hv, hf, hk, h1, h2]
  · cases r <;> simp_all [isReady]
  · simp [isReady, hl, hv, hf, hk, h1, h2]

/-- Once it said yes or threw, it does the same for ever, whatever the program does, as long as a variable holds the task. -/
theorem c153_ready_stays (s s' : State) (x y t : Nat) (h : ReachG s) (hx : Holds s x t) (hl : Later s s') (hy : Holds s' y t) :
    (isReady s x = .ok .yes → isReady s' y = .ok .yes) ∧
    (∀ e, isReady s x = .ok (.throws e) → isReady s' y = .ok (.throws e)) := by
  have key : ReachG s' ∧ ∀ r, fins t s.log = [r] → fins t s'.log = [r] := by
    clear hy
    induction hl with
    | refl => exact ⟨h, fun _ h => h⟩
    | step s1 s2 _ hm ih =>
      exact ⟨.step s1 s2 ih.1 hm, fun r hr => fins_moves s1 s2 t r (reachG_all s1 ih.1) hm (ih.2 r hr)⟩
  obtain ⟨_, h2, h3⟩ := c153_ready s x t h hx
  obtain ⟨_, h5, h6⟩ := c153_ready s' y t key.1 hy
  refine ⟨fun h7 => ?_, fun e h7 => ?_⟩
  · obtain ⟨v, hv⟩ := h2.1 h7
    exact h5.2 ⟨v, key.2 _ hv⟩
  · exact (h6 e).2 (key.2 _ ((h3 e).1 h7))

/-- `get` gives the value the body returned to whoever reads it first, a coroutine that awaits the task or a caller of `get`; it
throws the exception of the body every time. -/
theorem c153_get (s : State) (c x t : Nat) (h : ReachG s) (hx : Holds s x t) :
    (∀ v, fins t s.log = [.value v] → reads t s.log = [] →
      ∃ s', get s c x = .ok s' ∧ gots s'.log = (c, t, .value v) :: gots s.log) ∧
    (∀ v, fins t s.log = [.value v] → reads t s.log ≠ [] →
      ∃ s', get s c x = .ok s' ∧ gots s'.log = (c, t, .moved) :: gots s.log) ∧
    (∀ e, fins t s.log = [.exc e] → ∃ s', get s c x = .ok s' ∧ gots s'.log = (c, t, .exc e) :: gots s.log) ∧
    (get s c x = .ub ↔ fins t s.log = []) := by
  obtain ⟨v, fr, hl, hv, hf, hk, h1⟩ := holds_frame s x t (reachG_all s h) hx
  rcases h1 with ⟨h1, h2⟩ | ⟨r, h1, hm, ⟨h2, h3⟩ | ⟨u, rfl, h2, h3⟩⟩
  · simp [get, hl, hv, hf, hk, h1, h2]
  · cases r <;> simp_all [get, gots]
  · simp [get, hl, hv, hf, hk, h1, h2, h3, gots]

/-- So `get` after a yes of `is_ready` is defined, and gives the value if nothing read the task before. -/
theorem c153_get_after_ready (s : State) (c x t : Nat) (h : ReachG s) (hx : Holds s x t) (hr : isReady s x = .ok .yes) :
    ∃ v s', fins t s.log = [.value v] ∧ get s c x = .ok s' ∧
      (reads t s.log = [] → gots s'.log = (c, t, .value v) :: gots s.log) := by
  obtain ⟨v, hv⟩ := (c153_ready s x t h hx).2.1.1 hr
  obtain ⟨h1, h2, _⟩ := c153_get s c x t h hx
  by_cases hn : reads t s.log = []
  · obtain ⟨s', h3, h4⟩ := h1 v hv hn
    exact ⟨v, s', hv, h3, fun _ => h4⟩
  · obtain ⟨s', h3, _⟩ := h2 v hv hn
    exact ⟨v, s', hv, h3, fun h => absurd h hn⟩

/-- `get` changes nothing else: the tasks and the variables that hold them are what they were, every other task has its
result, and nobody is resumed. -/
theorem c153_get_only (s s' : State) (c x t : Nat) (h : ReachG s) (hx : Holds s x t) (hg : get s c x = .ok s') :
    s'.vars = s.vars ∧ s'.next = s.next ∧ (∀ u, u ≠ t → s'.frames u = s.frames u) ∧ (Alive s' t ∧ Finished s' t) ∧
    (∀ u, fins u s'.log = fins u s.log) ∧ ∀ u, .destroyed u ∈ s'.log → .destroyed u ∈ s.log := by
  obtain ⟨v, hv, hvx, u, fr, hu, hfr, hk, hp, hd⟩ := get_spec s s' c x (reachG_all s h).bare hg
  obtain ⟨w, hw, hwx, hwt, _⟩ := hx
  have e := name_inj _ (reachG_all s h).inv.names v w hv hw (hvx.trans hwx.symm)
  subst e
  rw [hu] at hwt; cases hwt
  obtain ⟨h1, h2, h3⟩ := deliver_spec s c t fr.kind s' hd
  rcases h3 with ⟨hk', _⟩ | ⟨_, fr', q, hfr', hq, hlog, hne, hcase⟩
  · rw [hk] at hk'; cases hk'
  · rw [hfr] at hfr'; cases hfr'
    refine ⟨h2, h1, hne, ?_, ?_, ?_⟩
    · rcases hcase with ⟨_, h4⟩ | ⟨_, h4⟩
      · exact ⟨by simp [Alive, h4], _, h4, hp⟩
      · exact ⟨by simp [Alive, h4], _, h4, hp⟩
    · intro t; rw [hlog, fins_got]
    · intro t ht; rw [hlog] at ht; simpa using ht

/-- The value goes to one reader only, and everybody gets what the body ended with or a value that was moved out. -/
theorem c153_one_reader (s : State) (t : Nat) (h : ReachG s) : (reads t s.log).length ≤ 1 ∧
    ∀ c r, (c, t, r) ∈ gots s.log → fins t s.log = [r] ∨ r = .moved ∧ ∃ v, fins t s.log = [.value v] := by
  refine ⟨(reachG_all s h).linv.reads t, fun c r hg => ?_⟩
  obtain ⟨q, h1, h2⟩ := (reachG_all s h).linv.got c t r hg
  rcases h2 with rfl | ⟨h2, v, rfl⟩
  · exact .inl h1
  · exact .inr ⟨h2, v, h1⟩

/-- Programs that also call `get` never make the library use a destroyed frame, and frames are destroyed at most once. -/
theorem c153_no_ub (s : State) (h : ReachG s) : (∀ o, Structured s o → step s o ≠ .ub) ∧
    (∀ x, isReady s x ≠ .ub) ∧ ∀ t, s.log.count (.destroyed t) ≤ 1 := by
  have hi := (reachG_all s h).inv
  refine ⟨fun o hs => (step_safe s o hi hs).1, fun x hx => ?_, fun t => ?_⟩
  · unfold isReady at hx
    split at hx
    · cases hx
    rename_i v hl
    split at hx
    · cases hx
    rename_i t ht
    split at hx
    · rename_i hf
      obtain ⟨fr, h1, _⟩ := held_none s hi v (lookup_mem s x v hl).1 t ht
      rw [hf] at h1; cases h1
    · split at hx
      · cases hx
      · split at hx <;> cases hx
  · rw [hi.log t]; split <;> omega

/-- A task without a coroutine ends the program. -/
theorem c153_empty (s : State) (v : Var) (c : Nat) (h : ReachG s) (hv : v ∈ s.vars) (hn : v.handle = none) :
    isReady s v.name = .throw .general ∧ get s c v.name = .throw .general := by
  obtain ⟨w, hl⟩ := lookup_of_mem s v.name v hv rfl
  obtain ⟨hw, hwx⟩ := lookup_mem s v.name w hl
  have e := name_inj _ (reachG_all s h).inv.names w v hw hv hwx
  subst e
  simp [isReady, get, hl, hn]

/-! ## Examples -/

/-- A program that gets the value of a task, and one where a coroutine awaited it first. -/
def direct : List Op := [.start .process 10 none, .suspend 0, .resume 0, .finish 0 (.value 7)]

theorem reachG_of (s : State) (h : Reach s) : ReachG s := by
  induction h with
  | init => exact .init
  | step s s' o _ hs ho ih => exact .step s s' ih (.op o hs ho)

example : ∃ s, ReachG s ∧ Holds s 10 0 ∧ isReady s 10 = .ok .yes ∧ fins 0 s.log = [.value 7] ∧ reads 0 s.log = [] ∧
    ∃ s', get s 99 10 = .ok s' ∧ ReachG s' ∧ isReady s' 10 = .ok .yes ∧
      (∃ s'', get s' 99 10 = .ok s'' ∧ s''.log = [.got 99 0 .moved, .got 99 0 (.value 7), .finished 0 (.value 7)]) := by
  have h : ReachG ((play init direct).get rfl) := reachG_of _ (reach_play direct init _ .init rfl)
  refine ⟨_, h, ⟨⟨10, none, some 0⟩, by decide, rfl, rfl, _, rfl, rfl⟩, rfl, rfl, rfl, _, rfl, ?_, rfl, _, rfl, rfl⟩
  exact .step _ _ h (.get 99 10 (accessible_sound _ _ rfl) rfl)

/-- Before the body ends, and with an exception. -/
example : (play init [.start .process 10 none, .suspend 0]).map (fun s => (isReady s 10, match get s 99 10 with | .ub => true | _ => false)) =
    some (.ok .no, true) := by decide

example : (play init [.start .process 10 none, .finish 0 (.exc 4)]).map (fun s => isReady s 10) = some (.ok (.throws 4)) := by decide

/-- The hypotheses of `c153_empty`. -/
example : ∃ s v, ReachG s ∧ v ∈ s.vars ∧ v.handle = none :=
  ⟨_, ⟨10, none, none⟩, reachG_of _ (reach_play [.declare 10 none] init _ .init rfl), by decide, rfl⟩

end Verif.Coro
