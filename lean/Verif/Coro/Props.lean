import Verif.Coro.Leak
import Verif.Coro.Check

/-!
# Tasks (C58)
-/

namespace Verif.Coro

/-! ## No use of destroyed frames -/

/-- Structured programs never make the library use a destroyed frame or resume a coroutine that does not wait. -/
theorem c58_no_ub (s : State) (o : Op) (h : Reach s) (hs : Structured s o) : step s o ≠ .ub :=
  (step_safe s o (reach_inv s h) hs).1

/-- A frame is destroyed at most once; it is destroyed exactly when it was created and is not alive. -/
theorem c58_destroyed_once (s : State) (h : Reach s) (t : Nat) :
    s.log.count (.destroyed t) ≤ 1 ∧ (Alive s t → s.log.count (.destroyed t) = 0) ∧
    (t < s.next → ¬ Alive s t → s.log.count (.destroyed t) = 1) := by
  have h1 := (reach_inv s h).log t
  refine ⟨?_, ?_, ?_⟩
  · rw [h1]; split <;> omega
  · intro ha
    rw [h1, if_neg]
    rintro ⟨_, h2⟩
    exact ha (by simpa using h2)
  · intro hn ha
    rw [h1, if_pos]
    exact ⟨hn, by simpa [Alive] using ha⟩

/-! ## The awaiter is resumed exactly once, with the result -/

/-- When the task finishes the coroutine that waits for it runs again and gets the result. -/
theorem c58_resumed (s s' : State) (c t : Nat) (r : Result) (h : Reach s) (hw : Waits s c t)
    (hs : step s (.finish t r) = .ok s') : Runs s' c ∧ gots s'.log = (c, t, r) :: gots s.log := by
  have hi := reach_inv s h
  rcases finish_cases s t r with ⟨e, he⟩ | ⟨tr, ht, hp, hv, ha⟩
  · rw [he] at hs; cases hs
  obtain ⟨S, h1, h2, h3, h4, h5, h6, h7, h8⟩ := finish_spec s t tr r hi ht hp hv ha
  rw [h1] at hs; cases hs
  obtain ⟨cr, hc, hw⟩ := hw
  obtain ⟨⟨tr', h9, h10, _⟩, _⟩ := hi.waits c cr t hc hw
  rw [ht] at h9; cases h9
  obtain ⟨_, ar, h11, h12, h13⟩ := h5 c h10
  refine ⟨⟨_, h13, rfl⟩, ?_⟩
  rw [h8, h10]
  show (c, t, r) :: gots ((if tr.owned = true then [] else [Event.destroyed t]) ++ _) = _
  split <;> rfl

/-- A body can end: a task with a value by a value, by nothing or by an exception, a task without one by nothing; an exception
that leaves an `UpdateTask` ends the program. -/
theorem c58_finishes (s : State) (t : Nat) (fr : Frame) (h : Reach s) (ht : s.frames t = some fr) (hp : fr.phase = .running)
    (hv : ∀ v ∈ s.vars, v.owner ≠ some t) :
    (fr.kind = .process → ∀ v e, (∃ s', step s (.finish t (.value v)) = .ok s') ∧ (∃ s', step s (.finish t (.exc e)) = .ok s')) ∧
    (∃ s', step s (.finish t .unit) = .ok s') ∧
    (fr.kind = .update → ∀ e, step s (.finish t (.exc e)) = .throw .general) := by
  have hi := reach_inv s h
  have key : ∀ r, accepts fr.kind r = .ok () → ∃ s', step s (.finish t r) = .ok s' := by
    intro r ha
    obtain ⟨S, h1, _⟩ := finish_spec s t fr r hi ht hp hv ha
    exact ⟨S, h1⟩
  refine ⟨?_, ?_, ?_⟩
  · intro hk v e
    exact ⟨key _ (by rw [hk]; rfl), key _ (by rw [hk]; rfl)⟩
  · cases hk : fr.kind <;> exact key _ (by rw [hk]; rfl)
  · intro hk e
    have hany : s.vars.any (fun v => v.owner == some t) = false := by
      rw [List.any_eq_false]
      intro v hv'
      simpa using hv v hv'
    simp only [step, ht, hany, hk]
    rw [if_neg (by simp [hp])]
    rfl

/-- A coroutine that awaits a task of its own that nobody awaited before goes on at once when the task finished, and waits for
it otherwise. -/
theorem c58_await (s : State) (c t : Nat) (v : Var) (tr : Frame) (h : Reach s) (hr : Runs s c) (hv : v ∈ s.vars)
    (ho : v.owner = some c) (hh : v.handle = some t) (ht : s.frames t = some tr) (ha : tr.awaiting = none) :
    ∃ s', step s (.await c v.name) = .ok s' ∧
      (Finished s t → Runs s' c ∧ ∃ r, gots s'.log = (c, t, r) :: gots s.log) ∧
      (¬ Finished s t → Waits s' c t ∧ gots s'.log = gots s.log) := by
  have hi := reach_inv s h
  obtain ⟨cr, hc, hp⟩ := hr
  have hst : Structured s (.await c v.name) := by
    intro w hw hwn
    rw [name_inj _ hi.names w v hw hv hwn]; exact ho
  have hsafe := step_safe s (.await c v.name) hi hst
  obtain ⟨w, hl⟩ := lookup_of_mem s v.name v hv rfl
  obtain ⟨hw1, hw2⟩ := lookup_mem s v.name w hl
  have hwv := name_inj _ hi.names w v hw1 hv hw2
  subst hwv
  have hok : ∃ s', step s (.await c w.name) = .ok s' := by
    have hst' : step s (.await c w.name) = (if tr.phase = .final then deliver s c t tr.kind
        else step s (.await c w.name)) := by
      split
      · rename_i hf
        simp only [step, hc, hp, hl, hh, ht, ha, hf]
        rfl
      · rfl
    by_cases hf : tr.phase = .final
    · rw [if_pos hf] at hst'
      rw [hst'] at hsafe ⊢
      have hne := hsafe.1
      unfold deliver at hne ⊢
      cases hk : tr.kind with
      | update => exact ⟨_, rfl⟩
      | process =>
        rw [hk] at hne
        simp only [ht] at hne ⊢
        cases hres : tr.result with
        | none => exact absurd hres (hi.results t tr ht hf)
        | some r => cases r <;> exact ⟨_, rfl⟩
    · simp only [step, hc, hp, hl, hh, ht, ha, hf]
      by_cases e : c = t
      · subst e; simp [setFrame]
      · simp [setFrame, e, hc]
  obtain ⟨s', hs⟩ := hok
  refine ⟨s', hs, ?_⟩
  obtain ⟨cr', v', t', tr', hc', hp', hv', hvx, hvt, ht', haw, h1⟩ := await_spec s c w.name s' hs
  have hvw := name_inj _ hi.names v' w hv' hv hvx
  subst hvw
  rw [hh] at hvt; cases hvt
  rw [ht] at ht'; cases ht'
  rw [hc] at hc'; cases hc'
  rcases h1 with ⟨h1, h2⟩ | ⟨h1, h2, h3, h4, h5, h6, h7⟩
  · refine ⟨fun _ => ?_, fun hn => absurd ⟨tr, ht, h1⟩ hn⟩
    obtain ⟨_, h3, h4⟩ := deliver_spec s c t tr.kind s' h2
    have e : c ≠ t := by rintro rfl; rw [hc] at ht; cases ht; rw [hp] at h1; cases h1
    rcases h4 with ⟨_, h4, h5⟩ | ⟨_, fr', r, h5, _, h5', h6, h7⟩
    · exact ⟨⟨cr, by rw [h4]; exact hc, hp⟩, .unit, by rw [h5]; rfl⟩
    · exact ⟨⟨cr, by rw [h6 c e]; exact hc, hp⟩, r, by rw [h5']; rfl⟩
  · refine ⟨?_, fun _ => ⟨?_, by rw [h4]⟩⟩
    · rintro ⟨fr, h8, h9⟩
      rw [ht] at h8; cases h8; exact absurd h9 h1
    · by_cases e : c = t
      · exact ⟨_, h7 e, rfl⟩
      · exact ⟨_, (h6 e).2, rfl⟩

/-- Nothing else resumes it: it waits until the task finishes, or is destroyed. -/
theorem c58_waits (s s' : State) (o : Op) (c t : Nat) (h : Reach s) (hw : Waits s c t) (ho : ∀ r, o ≠ .finish t r)
    (hs : step s o = .ok s') : Waits s' c t ∨ ¬ Alive s' c := by
  have hi := reach_inv s h
  obtain ⟨fr, hc, hw⟩ := hw
  have hevo : Evo s s' → Waits s' c t ∨ ¬ Alive s' c := by
    intro he
    rcases he.frames c with h1 | ⟨h1, _⟩
    · exact .inl ⟨fr, by rw [h1]; exact hc, hw⟩
    · exact .inr (by simp [Alive, h1])
  cases o with
  | declare x o => exact hevo (plain_evo s _ s' (by trivial) hs)
  | moveCtor x o y => exact hevo (plain_evo s _ s' (by trivial) hs)
  | moveAssign x y => exact hevo (plain_evo s _ s' (by trivial) hs)
  | free x => exact hevo (plain_evo s _ s' (by trivial) hs)
  | drop x => exact hevo (plain_evo s _ s' (by trivial) hs)
  | start k x o =>
    obtain ⟨h1, h2, h3, h4, h5⟩ := start_spec s k x o s' hs
    have := hi.bound c fr hc
    exact .inl ⟨fr, by rw [h2 c (by omega)]; exact hc, hw⟩
  | release x =>
    obtain ⟨h1, h2, h3⟩ := release_spec s x s' hs
    rcases h3 with rfl | ⟨v, hv, hvx, f, fr', hvf, hfr, _, h4, h5, h6⟩
    · exact .inl ⟨fr, hc, hw⟩
    · by_cases e : c = f
      · subst e
        rw [hc] at hfr; cases hfr
        exact .inl ⟨_, h4, hw⟩
      · exact .inl ⟨fr, by rw [h5 c e]; exact hc, hw⟩
  | suspend d =>
    obtain ⟨cr, h1, h2, rfl⟩ := suspend_spec s d s' hs
    have e : c ≠ d := by rintro rfl; rw [hc] at h1; cases h1; rw [hw] at h2; cases h2
    exact .inl ⟨fr, by simp only [setFrame, if_neg e]; exact hc, hw⟩
  | resume d =>
    obtain ⟨cr, h1, h2, rfl⟩ := resume_spec s d s' hs
    have e : c ≠ d := by rintro rfl; rw [hc] at h1; cases h1; rw [hw] at h2; cases h2
    exact .inl ⟨fr, by simp only [setFrame, if_neg e]; exact hc, hw⟩
  | await d x =>
    obtain ⟨cr, v, u, tr, hd, hpd, hv, hvx, hvt, hu, haw, h1⟩ := await_spec s d x s' hs
    have e : c ≠ d := by rintro rfl; rw [hc] at hd; cases hd; rw [hw] at hpd; cases hpd
    left
    rcases h1 with ⟨h1, h2⟩ | ⟨h1, h2, h3, h4, h5, h6, h7⟩
    · have e2 : c ≠ u := by rintro rfl; rw [hc] at hu; cases hu; rw [hw] at h1; cases h1
      obtain ⟨_, h3, h4⟩ := deliver_spec s d u tr.kind s' h2
      rcases h4 with ⟨_, h4, _⟩ | ⟨_, fr', r, h5, _, _, h6, h7⟩
      · exact ⟨fr, by rw [h4]; exact hc, hw⟩
      · exact ⟨fr, by rw [h6 c e2]; exact hc, hw⟩
    · by_cases e2 : c = u
      · subst e2
        rw [hc] at hu; cases hu
        exact ⟨_, (h6 (fun e' => e e'.symm)).1, hw⟩
      · exact ⟨fr, by rw [h5 c e e2]; exact hc, hw⟩
  | finish d r =>
    rcases finish_cases s d r with ⟨e, he⟩ | ⟨cr, hd, hpd, hv, ha⟩
    · rw [he] at hs; cases hs
    obtain ⟨S, h1, h2, h3, h4, h5, h6, h7, h8⟩ := finish_spec s d cr r hi hd hpd hv ha
    rw [h1] at hs; cases hs
    have e : c ≠ d := by rintro rfl; rw [hc] at hd; cases hd; rw [hw] at hpd; cases hpd
    have e3 : cr.awaiting ≠ some c := by
      intro ea
      obtain ⟨_, ar, h9, h10, h11⟩ := h5 c ea
      rw [hc] at h9; cases h9; rw [hw] at h10; cases h10
      exact ho r rfl
    exact .inl ⟨fr, by rw [h4 c e e3]; exact hc, hw⟩

/-- An awaiter gets something only when the task finishes and it waits for it, or when it awaits a task that already finished;
every operation gives at most one result to one awaiter. -/
theorem c58_got (s s' : State) (o : Op) (h : Reach s) (hs : step s o = .ok s') :
    gots s'.log = gots s.log ∨ ∃ c t r, gots s'.log = (c, t, r) :: gots s.log ∧ Runs s' c ∧
      ((o = .finish t r ∧ Waits s c t) ∨
       (∃ x, o = .await c x ∧ Finished s t ∧ ∃ v ∈ s.vars, v.name = x ∧ v.handle = some t)) := by
  have hi := reach_inv s h
  have hevo : Evo s s' → gots s'.log = gots s.log := by
    intro he
    obtain ⟨ds, hd⟩ := he.log
    rw [hd, gots_destroyed]
  cases o with
  | declare x o => exact .inl (hevo (plain_evo s _ s' (by trivial) hs))
  | moveCtor x o y => exact .inl (hevo (plain_evo s _ s' (by trivial) hs))
  | moveAssign x y => exact .inl (hevo (plain_evo s _ s' (by trivial) hs))
  | free x => exact .inl (hevo (plain_evo s _ s' (by trivial) hs))
  | drop x => exact .inl (hevo (plain_evo s _ s' (by trivial) hs))
  | start k x o =>
    obtain ⟨h1, h2, h3, h4, h5⟩ := start_spec s k x o s' hs
    exact .inl (by rw [h4])
  | release x =>
    obtain ⟨h1, h2, h3⟩ := release_spec s x s' hs
    exact .inl (by rw [h2])
  | suspend d => obtain ⟨cr, h1, h2, rfl⟩ := suspend_spec s d s' hs; exact .inl rfl
  | resume d => obtain ⟨cr, h1, h2, rfl⟩ := resume_spec s d s' hs; exact .inl rfl
  | await c x =>
    obtain ⟨cr, v, t, tr, hc, hp, hv, hvx, hvt, ht, haw, h1⟩ := await_spec s c x s' hs
    rcases h1 with ⟨h1, h2⟩ | ⟨h1, h2, h3, h4, h5, h6, h7⟩
    · right
      obtain ⟨_, h3, h4⟩ := deliver_spec s c t tr.kind s' h2
      have e : c ≠ t := by rintro rfl; rw [hc] at ht; cases ht; rw [hp] at h1; cases h1
      rcases h4 with ⟨_, h4, h5⟩ | ⟨_, fr', r, h5, _, h5', h6, h7⟩
      · exact ⟨c, t, .unit, by rw [h5]; rfl, ⟨cr, by rw [h4]; exact hc, hp⟩, .inr ⟨x, rfl, ⟨tr, ht, h1⟩, v, hv, hvx, hvt⟩⟩
      · exact ⟨c, t, r, by rw [h5']; rfl, ⟨cr, by rw [h6 c e]; exact hc, hp⟩, .inr ⟨x, rfl, ⟨tr, ht, h1⟩, v, hv, hvx, hvt⟩⟩
    · exact .inl (by rw [h4])
  | finish t r =>
    by_cases hw : ∃ c, Waits s c t
    · obtain ⟨c, hw⟩ := hw
      obtain ⟨h1, h2⟩ := c58_resumed s s' c t r h hw hs
      exact .inr ⟨c, t, r, h2, h1, .inl ⟨rfl, hw⟩⟩
    · left
      rcases finish_cases s t r with ⟨e, he⟩ | ⟨tr, ht, hp, hv, ha⟩
      · rw [he] at hs; cases hs
      obtain ⟨S, h1, h2, h3, h4, h5, h6, h7, h8⟩ := finish_spec s t tr r hi ht hp hv ha
      rw [h1] at hs; cases hs
      cases haw : tr.awaiting with
      | none =>
        rw [h8, haw]
        show gots ((if tr.owned = true then [] else [Event.destroyed t]) ++ _) = _
        split <;> rfl
      | some a =>
        obtain ⟨_, ar, h9, h10, _⟩ := h5 a haw
        exact absurd ⟨a, ar, h9, h10⟩ hw

/-- What an awaiter gets is what the task finished with, its value, its exception or nothing; the one other case is a value
that was already moved out. -/
theorem c58_result (s : State) (c t : Nat) (r : Result) (h : Reach s) (hg : (c, t, r) ∈ gots s.log) :
    fins t s.log = [r] ∨ r = .moved ∧ ∃ v, fins t s.log = [.value v] := by
  obtain ⟨q, h1, h2⟩ := (reach_linv s h).got c t r hg
  rcases h2 with rfl | ⟨h2, v, rfl⟩
  · exact .inl h1
  · exact .inr ⟨h2, v, h1⟩

/-- A task finishes at most once, and its value is given away at most once. -/
theorem c58_once (s : State) (t : Nat) (h : Reach s) : (fins t s.log).length ≤ 1 ∧ (reads t s.log).length ≤ 1 := by
  refine ⟨?_, (reach_linv s h).reads t⟩
  rcases (reach_linv s h).once t with h1 | ⟨_, ⟨r, h1, _⟩, _⟩ <;> rw [h1] <;> simp

/-! ## Nothing is left behind -/

/-- Without `release` of finished tasks: every frame that is alive is held by a variable, or belongs to a released task that
has not finished.  Missing: tasks released after they finished, see `c58_late_release_violated`. -/
theorem c58_no_leak_partial (s : State) (h : ReachRelease s) (t : Nat) (ht : Alive s t) :
    (∃ v ∈ s.vars, v.handle = some t) ∨ ¬ Finished s t := by
  obtain ⟨_, hk⟩ := reach_release s h
  cases hf : s.frames t with
  | none => exact absurd hf ht
  | some fr =>
    rcases hk t fr hf with h1 | ⟨_, h1⟩
    · exact .inl h1
    · refine .inr ?_
      rintro ⟨fr', h2, h3⟩
      rw [hf] at h2; cases h2
      exact h1 h3

/-- When no variable is left, a task that finished is destroyed, and was destroyed once. -/
theorem c58_all_destroyed_partial (s : State) (h : ReachRelease s) (hv : s.vars = []) (t : Nat) (r : Result)
    (hf : .finished t r ∈ s.log) : ¬ Alive s t ∧ s.log.count (.destroyed t) = 1 := by
  obtain ⟨hr, _⟩ := reach_release s h
  have h1 : t < s.next ∧ ∀ fr, s.frames t = some fr → fr.phase = .final := by
    rcases (reach_linv s hr).once t with h1 | ⟨h1, _, h2⟩
    · have := (mem_fins t r s.log).2 hf
      rw [h1] at this; cases this
    · exact ⟨h1, h2⟩
  have h2 : ¬ Alive s t := by
    intro ha
    rcases c58_no_leak_partial s h t ha with ⟨v, hv', _⟩ | h3
    · rw [hv] at hv'; cases hv'
    · cases hfr : s.frames t with
      | none => exact ha hfr
      | some fr => exact h3 ⟨fr, hfr, h1.2 fr hfr⟩
  exact ⟨h2, (c58_destroyed_once s hr t).2.2 h1.1 h2⟩

/-- A task released after it finished is never destroyed, whatever the program does. -/
theorem c58_late_release_violated (s s' : State) (x t : Nat) (v : Var) (h : Reach s) (hs : Structured s (.release x))
    (hv : v ∈ s.vars) (hx : v.name = x) (ht : v.handle = some t) (hf : Finished s t)
    (hr : step s (.release x) = .ok s') (s'' : State) (ha : After s' s'') : Alive s'' t ∧ s''.log.count (.destroyed t) = 0 := by
  have hi := reach_inv s h
  obtain ⟨fr, hfr, hp⟩ := hf
  have h1 : ∃ fr', s'.frames t = some fr' ∧ fr'.phase = .final ∧ fr'.owned = false := by
    obtain ⟨_, _, h3⟩ := release_spec s x s' hr
    have hl : ∃ u, lookup s x = some u := lookup_of_mem s x v hv hx
    obtain ⟨u, hu⟩ := hl
    obtain ⟨hu1, hu2⟩ := lookup_mem s x u hu
    have e := name_inj _ hi.names u v hu1 hv (hu2.trans hx.symm)
    subst e
    simp only [step, hu, ht, hfr] at hr
    split at hr
    · cases hr
      exact ⟨{ fr with owned := false }, by simp [setHandle, setFrame], hp, rfl⟩
    · cases hr
  have h2 : Reach s'' ∧ ∃ fr', s''.frames t = some fr' ∧ fr'.phase = .final ∧ fr'.owned = false := by
    induction ha with
    | refl => exact ⟨.step s s' _ h hs hr, h1⟩
    | step s1 s2 o _ h3 h4 ih =>
      obtain ⟨ih1, fr', ih2, ih3, ih4⟩ := ih
      exact ⟨.step s1 s2 o ih1 h3 h4, stays s1 s2 o t fr' (reach_inv s1 ih1) ih2 ih3 ih4 h4⟩
  obtain ⟨h3, fr', h4, _⟩ := h2
  have : Alive s'' t := by simp [Alive, h4]
  exact ⟨this, (c58_destroyed_once s'' h3 t).2.1 this⟩

/-! ## Programs that are not structured -/

/-- Frames that a step of any program leaves alone. -/
theorem lost_step (s s' : State) (o : Op) (c t : Nat) (hc : c < s.next) (ht : t < s.next)
    (hw : Waits s c t ∨ ¬ Alive s c) (hn : ¬ Alive s t) (hs : step s o = .ok s') :
    c < s'.next ∧ t < s'.next ∧ (Waits s' c t ∨ ¬ Alive s' c) ∧ ¬ Alive s' t := by
  have hn : s.frames t = none := by simpa [Alive] using hn
  -- enough to know where a frame comes from
  suffices hk : s.next ≤ s'.next ∧ ∀ g, g < s.next → s'.frames g = s.frames g ∨ s'.frames g = none ∨
      ∃ fr fr', s.frames g = some fr ∧ s'.frames g = some fr' ∧
        (fr'.phase = fr.phase ∨ ∀ u, fr.phase = .waiting u → ∃ ur, s.frames u = some ur) by
    obtain ⟨h1, h2⟩ := hk
    refine ⟨by omega, by omega, ?_, ?_⟩
    · rcases hw with ⟨fr, hw1, hw2⟩ | hw
      · rcases h2 c hc with h3 | h3 | ⟨f, f', h3, h4, h5⟩
        · exact .inl ⟨fr, by rw [h3]; exact hw1, hw2⟩
        · exact .inr (by simp [Alive, h3])
        · rw [hw1] at h3; cases h3
          rcases h5 with h5 | h5
          · exact .inl ⟨f', h4, h5.trans hw2⟩
          · obtain ⟨ur, h6⟩ := h5 t hw2
            rw [hn] at h6; cases h6
      · have hw : s.frames c = none := by simpa [Alive] using hw
        rcases h2 c hc with h3 | h3 | ⟨f, f', h3, h4, h5⟩
        · exact .inr (by simp [Alive, h3, hw])
        · exact .inr (by simp [Alive, h3])
        · rw [hw] at h3; cases h3
    · rcases h2 t ht with h3 | h3 | ⟨f, f', h3, h4, h5⟩
      · simp [Alive, h3, hn]
      · simp [Alive, h3]
      · rw [hn] at h3; cases h3
  have hevo : Evo s s' → s.next ≤ s'.next ∧ ∀ g, g < s.next → s'.frames g = s.frames g ∨ s'.frames g = none ∨
      ∃ fr fr', s.frames g = some fr ∧ s'.frames g = some fr' ∧
        (fr'.phase = fr.phase ∨ ∀ u, fr.phase = .waiting u → ∃ ur, s.frames u = some ur) := by
    intro he
    refine ⟨by rw [he.next]; exact Nat.le_refl _, fun g _ => ?_⟩
    rcases he.frames g with h1 | ⟨h1, _⟩
    · exact .inl h1
    · exact .inr (.inl h1)
  have hdel : ∀ (s1 : State) (a u : Nat) (k : Kind), deliver s1 a u k = .ok s' → s'.next = s1.next ∧ ∀ g,
      s'.frames g = s1.frames g ∨ ∃ fr fr', s1.frames g = some fr ∧ s'.frames g = some fr' ∧ fr'.phase = fr.phase := by
    intro s1 a u k hd
    obtain ⟨h3, _, h4⟩ := deliver_spec s1 a u k s' hd
    refine ⟨h3, fun g => ?_⟩
    rcases h4 with ⟨_, h4, _⟩ | ⟨_, fr', r, h5, _, _, h6, h7⟩
    · exact .inl (by rw [h4])
    · by_cases e : g = u
      · rw [e]
        rcases h7 with ⟨_, h7⟩ | ⟨_, h7⟩
        · exact .inr ⟨_, _, h5, h7, rfl⟩
        · exact .inl (by rw [h7, h5])
      · exact .inl (h6 g e)
  cases o with
  | declare x o => exact hevo (plain_evo s _ s' (by trivial) hs)
  | moveCtor x o y => exact hevo (plain_evo s _ s' (by trivial) hs)
  | moveAssign x y => exact hevo (plain_evo s _ s' (by trivial) hs)
  | free x => exact hevo (plain_evo s _ s' (by trivial) hs)
  | drop x => exact hevo (plain_evo s _ s' (by trivial) hs)
  | start k x o =>
    obtain ⟨h1, h2, h3, h4, h5⟩ := start_spec s k x o s' hs
    exact ⟨by omega, fun g hg => .inl (h2 g (by omega))⟩
  | release x =>
    obtain ⟨h1, h2, h3⟩ := release_spec s x s' hs
    refine ⟨by omega, fun g _ => ?_⟩
    rcases h3 with rfl | ⟨v, hv, hvx, f, fr', hvf, hfr, _, h4, h5, h6⟩
    · exact .inl rfl
    · by_cases e : g = f
      · rw [e]; exact .inr (.inr ⟨_, _, hfr, h4, .inl rfl⟩)
      · exact .inl (h5 g e)
  | suspend d =>
    obtain ⟨cr, h1, h2, rfl⟩ := suspend_spec s d s' hs
    refine ⟨Nat.le_refl _, fun g _ => ?_⟩
    by_cases e : g = d
    · rw [e]
      exact .inr (.inr ⟨cr, { cr with phase := .suspended }, h1, by simp [setFrame], .inr (fun u hu => by rw [h2] at hu; cases hu)⟩)
    · exact .inl (by simp [setFrame, e])
  | resume d =>
    obtain ⟨cr, h1, h2, rfl⟩ := resume_spec s d s' hs
    refine ⟨Nat.le_refl _, fun g _ => ?_⟩
    by_cases e : g = d
    · rw [e]
      exact .inr (.inr ⟨cr, { cr with phase := .running }, h1, by simp [setFrame], .inr (fun u hu => by rw [h2] at hu; cases hu)⟩)
    · exact .inl (by simp [setFrame, e])
  | await d x =>
    obtain ⟨cr, v, u, tr, hd, hpd, hv, hvx, hvt, hu, haw, h1⟩ := await_spec s d x s' hs
    rcases h1 with ⟨h1, h2⟩ | ⟨h1, h2, h3, h4, h5, h6, h7⟩
    · obtain ⟨h3, h4⟩ := hdel s d u tr.kind h2
      refine ⟨by omega, fun g _ => ?_⟩
      rcases h4 g with h4 | ⟨f, f', h4, h5, h6⟩
      · exact .inl h4
      · exact .inr (.inr ⟨f, f', h4, h5, .inl h6⟩)
    · refine ⟨by omega, fun g _ => ?_⟩
      by_cases e1 : g = d
      · rw [e1]
        right; right
        by_cases e : d = u
        · exact ⟨_, _, hd, h7 e, .inr (fun u hu => by rw [hpd] at hu; cases hu)⟩
        · exact ⟨_, _, hd, (h6 e).2, .inr (fun u hu => by rw [hpd] at hu; cases hu)⟩
      · by_cases e2 : g = u
        · have e : d ≠ u := fun e => e1 (e2.trans e.symm)
          rw [e2]
          exact .inr (.inr ⟨_, _, hu, (h6 e).1, .inl rfl⟩)
        · exact .inl (h5 g e1 e2)
  | finish d r =>
    simp only [step] at hs
    split at hs
    · cases hs
    rename_i dr hd
    split at hs
    · cases hs
    rename_i hpd
    simp only [not_or, ne_eq, Classical.not_not] at hpd
    have hpd := hpd.1
    simp only [Res.bind_eq_ok] at hs
    obtain ⟨_, _, hs⟩ := hs
    simp only [finalSuspend, Res.bind_eq_ok] at hs
    obtain ⟨s2, h2, hs⟩ := hs
    -- the frames after a possible destruction
    have h3 : s2.next = s.next ∧ ∀ g, g ≠ d → s2.frames g = s.frames g ∨ s2.frames g = none := by
      split at h2
      · cases h2
        exact ⟨rfl, fun g hg => .inl (by simp [setFrame, hg])⟩
      · obtain ⟨h4, h5, _⟩ := destroy_evo _ _ _ _ h2
        refine ⟨h4, fun g hg => ?_⟩
        rcases h5 g with h6 | ⟨h6, _⟩
        · exact .inl (by rw [h6]; simp [setFrame, hg])
        · exact .inr h6
    obtain ⟨h3, h4⟩ := h3
    have hown : ∀ f', s'.frames d = some f' → ∃ fr fr', s.frames d = some fr ∧ s'.frames d = some fr' ∧
        (fr'.phase = fr.phase ∨ ∀ u, fr.phase = .waiting u → ∃ ur, s.frames u = some ur) := by
      intro f' hf'
      exact ⟨dr, f', hd, hf', .inr (fun u hu => by rw [hpd] at hu; cases hu)⟩
    have hd' : s'.frames d = s.frames d ∨ s'.frames d = none ∨ ∃ fr fr', s.frames d = some fr ∧ s'.frames d = some fr' ∧
        (fr'.phase = fr.phase ∨ ∀ u, fr.phase = .waiting u → ∃ ur, s.frames u = some ur) := by
      cases hx : s'.frames d with
      | none => exact .inr (.inl rfl)
      | some f' =>
        obtain ⟨fr, fr', h5, h6, h7⟩ := hown f' hx
        rw [hx] at h6
        exact .inr (.inr ⟨fr, fr', h5, h6, h7⟩)
    split at hs
    · cases hs
      refine ⟨by omega, fun g _ => ?_⟩
      by_cases e : g = d
      · rw [e]; exact hd'
      · rcases h4 g e with h5 | h5
        · exact .inl h5
        · exact .inr (.inl h5)
    · rename_i a ha
      split at hs
      · cases hs
      rename_i ar har
      split at hs
      · rename_i hwa
        obtain ⟨h5, h6⟩ := hdel _ a d dr.kind hs
        refine ⟨by rw [h5]; show s.next ≤ s2.next; omega, fun g _ => ?_⟩
        by_cases e : g = d
        · rw [e]; exact hd'
        · by_cases ea : g = a
          · rw [ea] at e ⊢
            have har' : s.frames a = some ar := by
              rcases h4 a e with h7 | h7
              · rw [← h7]; exact har
              · rw [h7] at har; cases har
            have hsome : ∃ f', s'.frames a = some f' := by
              rcases h6 a with h7 | ⟨f, f', _, h7, _⟩
              · exact ⟨{ ar with phase := .running }, by rw [h7]; simp [setFrame]⟩
              · exact ⟨f', h7⟩
            obtain ⟨f', hf'⟩ := hsome
            refine .inr (.inr ⟨ar, f', har', hf', .inr ?_⟩)
            intro u hu
            rw [hwa] at hu; cases hu
            exact ⟨dr, hd⟩
          · have h7 : (setFrame s2 a (some { ar with phase := .running })).frames g = s2.frames g := by simp [setFrame, ea]
            rcases h6 g with h8 | ⟨f, f', h8, h9, h10⟩
            · rw [h8, h7]
              rcases h4 g e with h9 | h9
              · exact .inl h9
              · exact .inr (.inl h9)
            · rw [h7] at h8
              rcases h4 g e with h11 | h11
              · exact .inr (.inr ⟨f, f', by rw [← h11]; exact h8, h9, .inl h10⟩)
              · rw [h11] at h8; cases h8
      · cases hs

/-- A coroutine that waits for a task that is destroyed never runs again, in any program. -/
theorem c58_lost_violated (s s' : State) (os : List Op) (c t : Nat) (hc : c < s.next) (ht : t < s.next) (hw : Waits s c t)
    (hn : ¬ Alive s t) (hs : run s os = .ok s') : ¬ Runs s' c := by
  suffices h : ∀ s, c < s.next → t < s.next → (Waits s c t ∨ ¬ Alive s c) → ¬ Alive s t → run s os = .ok s' →
      Waits s' c t ∨ ¬ Alive s' c by
    rintro ⟨fr, h1, h2⟩
    rcases h s hc ht (.inl hw) hn hs with ⟨fr', h3, h4⟩ | h3
    · rw [h1] at h3; cases h3; rw [h2] at h4; cases h4
    · exact h3 (by simp [Alive, h1])
  clear hc ht hw hn hs s
  induction os with
  | nil => intro s _ _ hw _ hs; cases hs; exact hw
  | cons o os ih =>
    intro s hc ht hw hn hs
    simp only [run, Res.bind_eq_ok] at hs
    obtain ⟨s1, h1, h2⟩ := hs
    obtain ⟨h3, h4, h5, h6⟩ := lost_step s s1 o c t hc ht hw hn h1
    exact ih s1 h3 h4 h5 h6 h2

/-- The coroutine 0 awaits the task 1, which belongs to somebody else. -/
def foreign : List Op := [.start .update 10 none, .start .update 11 none, .suspend 1, .await 0 11]

/-- A coroutine that awaits a task of somebody else and is destroyed: when the task finishes, the library resumes a frame that
is gone. -/
theorem c58_dangling_violated : (∃ s, run init (foreign ++ [.drop 10, .resume 1]) = .ok s ∧ ¬ Alive s 0 ∧ Runs s 1) ∧
    run init (foreign ++ [.drop 10, .resume 1, .finish 1 .unit]) = .ub :=
  ⟨⟨_, rfl, fun h => h rfl, ⟨_, rfl, rfl⟩⟩, rfl⟩

/-- Such a coroutine waits for ever when the task is destroyed first. -/
example : ∃ s, run init (foreign ++ [.drop 11]) = .ok s ∧ 0 < s.next ∧ 1 < s.next ∧ Waits s 0 1 ∧ ¬ Alive s 1 :=
  ⟨_, rfl, by decide, by decide, ⟨_, rfl, rfl⟩, fun h => h rfl⟩

/-- A task that finished can be awaited again, but its value is gone; a task that was awaited while it ran cannot, the program
ends. -/
theorem c58_second_await_violated :
    (∃ s, play init [.start .update 10 none, .start .process 11 (some 0), .finish 1 (.value 7), .await 0 11, .await 0 11] = some s ∧
      s.log = [.got 0 1 .moved, .got 0 1 (.value 7), .finished 1 (.value 7)]) ∧
    ∃ s, play init [.start .update 10 none, .start .process 11 (some 0), .suspend 1, .await 0 11, .resume 1,
      .finish 1 (.value 7)] = some s ∧ s.log = [.got 0 1 (.value 7), .finished 1 (.value 7)] ∧
      step s (.await 0 11) = .throw .general :=
  ⟨⟨_, rfl, rfl⟩, ⟨_, rfl, rfl, rfl⟩⟩

/-! ## Examples -/

/-- A coroutine (0) that starts a task (1) and awaits it; the task is suspended meanwhile and resumed. -/
def nested : List Op :=
  [.start .update 10 none, .start .process 11 (some 0), .suspend 1, .await 0 11, .resume 1]

example : (play init nested).map (fun s => (s.next, (s.frames 0).map (·.phase), (s.frames 1).map (·.phase), s.log)) =
    some (2, some (.waiting 1), some .running, []) := by decide

example : (play init (nested ++ [.finish 1 (.value 7)])).map (fun s => ((s.frames 0).map (·.phase), (s.frames 1).map (·.result), s.log)) =
    some (some .running, some (some .moved), [.got 0 1 (.value 7), .finished 1 (.value 7)]) := by decide

example : (play init (nested ++ [.finish 1 (.exc 7), .drop 11, .finish 0 .unit, .drop 10])).map (fun s => (s.vars, s.log)) =
    some ([], [.destroyed 0, .finished 0 .unit, .destroyed 1, .got 0 1 (.exc 7), .finished 1 (.exc 7)]) := by decide

/-- A released task that finishes later is destroyed by itself. -/
example : (play init [.start .update 10 none, .suspend 0, .release 10, .drop 10, .resume 0, .finish 0 .unit]).map
    (fun s => (s.vars, s.log)) = some ([], [.destroyed 0, .finished 0 .unit]) := by decide

/-- The hypotheses of `c58_resumed` and `c58_waits`. -/
example : ∃ s s', Reach s ∧ Waits s 0 1 ∧ step s (.finish 1 (.value 7)) = .ok s' :=
  ⟨_, _, reach_play nested init _ .init rfl, ⟨_, rfl, rfl⟩, rfl⟩

/-- The hypotheses of `c58_all_destroyed_partial`. -/
example : ∃ s, ReachRelease s ∧ s.vars = [] ∧ .finished 1 (.exc 7) ∈ s.log :=
  ⟨_, reachRelease_play (nested ++ [.finish 1 (.exc 7), .drop 11, .finish 0 .unit, .drop 10]) init _ .init rfl
    (by simp [nested]), rfl, by decide⟩

/-- The hypotheses of `c58_late_release_violated`: `auto t = f(); t.release();` where `f` does not suspend. -/
example : ∃ s s' v, Reach s ∧ Structured s (.release 10) ∧ v ∈ s.vars ∧ v.name = 10 ∧ v.handle = some 0 ∧ Finished s 0 ∧
    step s (.release 10) = .ok s' :=
  ⟨_, _, ⟨10, none, some 0⟩, reach_play [.start .update 10 none, .finish 0 .unit] init _ .init rfl,
    structured_sound _ _ rfl, List.mem_cons_self, rfl, rfl, ⟨_, rfl, rfl⟩, rfl⟩

/-- The hypotheses of `c58_finishes` and `c58_await`. -/
example : ∃ s, Reach s ∧ Runs s 0 ∧ (⟨11, some 0, some 1⟩ : Var) ∈ s.vars ∧
    s.frames 1 = some ⟨.process, .running, none, true, none⟩ ∧ ∀ v ∈ s.vars, v.owner ≠ some 1 :=
  ⟨_, reach_play [.start .update 10 none, .start .process 11 (some 0)] init _ .init rfl, ⟨_, rfl, rfl⟩, List.mem_cons_self, rfl,
    by decide⟩

end Verif.Coro
