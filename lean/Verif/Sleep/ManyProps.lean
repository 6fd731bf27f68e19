import Verif.Sleep.ManySim

/-! # C187: one stop request ends the sleep of all threads -/

namespace Verif.Sleep.Many

/-! ### Lemmas -/

theorem relist_listed {s : State} (g : Glob s) (i : Nat) (w : Thread) (k : Nat) :
    k ∈ relist i (s.thr i).cb w.cb s.list ↔ (upd s.thr i w k).cb = .listed := by
  have hl := g.listed
  have hn := g.nodup
  unfold relist
  by_cases hk : k = i
  · subst hk
    rw [upd_self]
    have := hl k
    split
    · rename_i h; simp [h.1]
    · split
      · rename_i h; simp [hn.mem_erase_iff, h.2]
      · grind
  · rw [upd_ne _ _ hk]
    split
    · simp [hk, hl]
    · split
      · rw [List.mem_erase_of_ne hk]; exact hl k
      · exact hl k

theorem relist_nodup {s : State} (g : Glob s) (i : Nat) (c : Cb) : (relist i (s.thr i).cb c s.list).Nodup := by
  unfold relist
  split
  · rename_i h
    exact List.nodup_cons.2 ⟨fun e => h.2 ((g.listed i).1 e), g.nodup⟩
  · split
    · exact g.nodup.erase i
    · exact g.nodup

theorem one_upd {s : State} (g : Glob s) {j : Nat} {x : StopPc} (h : Won x → Won (s.stp j)) :
    ∀ k k', Won (upd s.stp j x k) → Won (upd s.stp j x k') → k = k' := by
  intro k k' h1 h2
  have t : ∀ k, Won (upd s.stp j x k) → Won (s.stp k) := by
    intro k hk
    by_cases e : k = j
    · subst e; rw [upd_self] at hk; exact h hk
    · rwa [upd_ne _ _ e] at hk
  exact g.one k k' (t k h1) (t k' h2)

theorem listed_upd {s : State} (g : Glob s) (i : Nat) (w : Thread) (h : w.cb = .listed ↔ (s.thr i).cb = .listed) (k : Nat) :
    k ∈ s.list ↔ (upd s.thr i w k).cb = .listed := by
  by_cases e : k = i
  · subst e; rw [upd_self, h]; exact g.listed k
  · rw [upd_ne _ _ e]; exact g.listed k

theorem glob_step {d : Nat → Nat} {s s' : State} {a : Act} (g : Glob s) (hall : ∀ i, ∃ v, Inv (d i) v ∧ Sim s i v) (hs : step d s a = .ok s') : Glob s' := by
  cases a with
  | sleeper i =>
    obtain ⟨w, hw, he⟩ := Res.bind_eq_ok.1 hs
    cases he
    exact ⟨g.idle, g.one, fun k => relist_listed g i (thread w) k, relist_nodup g i _⟩
  | tick => cases hs; exact ⟨g.idle, g.one, g.listed, g.nodup⟩
  | spurious i =>
    simp only [step] at hs
    split at hs
    · cases hs
      exact ⟨g.idle, g.one, fun k => listed_upd g i _ (by simp) k, g.nodup⟩
    · cases hs
  | stopper j =>
    simp only [step, stopper] at hs
    split at hs
    · rename_i hj
      split at hs
      · rename_i hst
        cases hs
        exact ⟨fun e => (by simp only at e; rw [hst] at e; exact Bool.noConfusion e), one_upd g (fun h => absurd rfl h.2), g.listed, g.nodup⟩
      · rename_i hst
        cases hs
        have hall := g.idle (by simpa using hst)
        refine ⟨fun e => Bool.noConfusion e, fun k k' h1 h2 => ?_, g.listed, g.nodup⟩
        have t : ∀ k, Won (upd s.stp j .loop k) → k = j := by
          intro k hk
          apply Classical.byContradiction
          intro e
          rw [upd_ne _ _ e, hall] at hk
          exact hk.1 rfl
        rw [t k h1, t k' h2]
    all_goals rename_i hj
    all_goals have hst : s.stop ≠ false := fun e => by have := g.idle e j; rw [hj] at this; cases this
    · split at hs
      · cases hs
        exact ⟨fun e => absurd e hst, one_upd g (by rw [hj]; simp [Won]), g.listed, g.nodup⟩
      · rename_i i rest hl
        cases hs
        have hn := g.nodup
        rw [hl] at hn
        have hn := List.nodup_cons.1 hn
        refine ⟨fun e => absurd e hst, one_upd g (by rw [hj]; simp [Won]), fun k => ?_, hn.2⟩
        by_cases e : k = i
        · subst e
          simp only [upd_self, reduceCtorEq, iff_false]
          exact hn.1
        · simp only [upd_ne _ _ e]
          rw [← g.listed k, hl]
          simp [e]
    · split at hs
      · cases hs
        exact ⟨fun e => absurd e hst, one_upd g (by rw [hj]; simp [Won]), fun k => listed_upd g _ _ (by simp) k, g.nodup⟩
      · cases hs
    · rename_i i
      cases hs
      obtain ⟨v, hv, h⟩ := hall i
      have ht : (s.thr i).cb = .taken := by
        rw [← h.thr]
        exact hv.taken.2 (.inr (h.called.2 ⟨j, hj⟩))
      exact ⟨fun e => absurd e hst, one_upd g (by rw [hj]; simp [Won]), fun k => listed_upd g i _ (by simp [ht]) k, g.nodup⟩
    · cases hs

/-- Each call of `sleep_for` makes the steps of a single one. -/
theorem sim_run {d : Nat → Nat} (l : List Act) : ∀ {s s' : State}, Glob s → (∀ i, ∃ v, Inv (d i) v ∧ Sim s i v) → run d s l = .ok s' →
    Glob s' ∧ (∀ i, ∃ v, Inv (d i) v ∧ Sim s' i v) ∧
    ∀ i v, Inv (d i) v → Sim s i v → ∃ lv v', Sleep.run (d i) v lv = .ok v' ∧ Sim s' i v' ∧ (Sleep.Act.spurious ∈ lv → Act.spurious i ∈ l) := by
  induction l with
  | nil => intro s s' g hall h; cases h; exact ⟨g, hall, fun i v _ h => ⟨[], v, rfl, h, by simp⟩⟩
  | cons a l ih =>
    intro s s' g hall h
    obtain ⟨s1, h1, h2⟩ := Res.bind_eq_ok.1 h
    have g1 := glob_step g hall h1
    have one : ∀ i v, Inv (d i) v → Sim s i v → ∃ lv v', Sleep.run (d i) v lv = .ok v' ∧ Inv (d i) v' ∧ Sim s1 i v' ∧ (Sleep.Act.spurious ∈ lv → a = .spurious i) := by
      intro i v hv hsim
      obtain ⟨lv, v', hr, hs', hx⟩ := sim_step g hv hsim h1
      exact ⟨lv, v', hr, inv_run _ lv _ _ hv hr, hs', hx⟩
    obtain ⟨g', hall', hseg⟩ := ih g1 (fun i => by
      obtain ⟨v, hv, hsim⟩ := hall i
      obtain ⟨_, v', _, h3, h4, _⟩ := one i v hv hsim
      exact ⟨v', h3, h4⟩) h2
    refine ⟨g', hall', fun i v hv hsim => ?_⟩
    obtain ⟨lv, v1, hr, hi1, hs1, hx⟩ := one i v hv hsim
    obtain ⟨lv', v', hr', hs', hx'⟩ := hseg i v1 hi1 hs1
    refine ⟨lv ++ lv', v', by rw [run_append, hr]; exact hr', hs', fun hm => ?_⟩
    rcases List.mem_append.1 hm with hm | hm
    · rw [hx hm]; simp
    · exact List.mem_cons_of_mem _ (hx' hm)

theorem sim_init {d : Nat → Nat} {l : List Act} {s : State} (h : run d init l = .ok s) :
    Glob s ∧ (∀ i, ∃ v, Inv (d i) v ∧ Sim s i v) ∧ ∀ i, ∃ lv v, Sleep.run (d i) Sleep.init lv = .ok v ∧ Sim s i v := by
  obtain ⟨g, hall, hseg⟩ := sim_run l glob_init (fun i => ⟨_, inv_init (d i), same_init i⟩) h
  refine ⟨g, hall, fun i => ?_⟩
  obtain ⟨lv, v, h1, h2, _⟩ := hseg i _ (inv_init (d i)) (same_init i)
  exact ⟨lv, v, h1, h2⟩

theorem Same.pc {s : State} {i : Nat} {v : Sleep.State} (h : Same s i v) : (s.thr i).pc = v.pc := by rw [← h.thr]; rfl

theorem Same.ret {s : State} {i : Nat} {v : Sleep.State} (h : Same s i v) : (s.thr i).ret = v.ret := by rw [← h.thr]; rfl

/-! ### The property -/

/-- **C187.**  No condition variable and no callback is used after its destruction, whatever the threads do. -/
theorem c187_no_ub (d : Nat → Nat) (l : List Act) : run d init l ≠ .ub := by
  have key : ∀ l s, Glob s → (∀ i, ∃ v, Inv (d i) v ∧ Sim s i v) → run d s l ≠ .ub := by
    intro l
    induction l with
    | nil => intro s _ _ h; cases h
    | cons a l ih =>
      intro s g hall h
      rw [run] at h
      cases e : step d s a with
      | ok s1 =>
        rw [e] at h
        refine ih s1 (glob_step g hall e) (fun i => ?_) h
        obtain ⟨v, hv, hsim⟩ := hall i
        obtain ⟨lv, v', hr, hs', _⟩ := sim_step g hv hsim e
        exact ⟨v', inv_run _ lv _ _ hv hr, hs'⟩
      | throw x => rw [e] at h; cases h
      | ub =>
        cases a with
        | tick => cases e
        | spurious i => simp only [step] at e; split at e <;> cases e
        | sleeper i =>
          obtain ⟨v, hv, hsim⟩ := hall i
          simp only [step, sleeper] at e
          cases hw : Sleep.sleeper (d i) (s.view i) with
          | ok w => rw [hw] at e; cases e
          | throw x => rw [hw] at e; cases e
          | ub =>
            have hcv := hv.cv
            have h1 : (s.view i).pc = v.pc := by rw [view_same hsim.toSame]
            have h2 : (s.view i).cv = v.cv := by rw [view_same hsim.toSame]
            rw [← h1, ← h2] at hcv
            cases hp : (s.view i).pc <;> simp [Sleep.sleeper, notify, hp] at hw hcv <;> (repeat' split at hw) <;> simp_all
        | stopper j =>
          simp only [step, stopper] at e
          split at e
          · split at e <;> cases e
          · split at e <;> cases e
          · rename_i i hj
            obtain ⟨v, hv, hsim⟩ := hall i
            split at e
            · cases e
            · rename_i hcv
              have h2 : (s.thr i).cv = v.cv := by rw [← hsim.thr]; rfl
              have ht := hv.taken.2 (.inl (hsim.calling.2 ⟨j, hj⟩))
              have h3 := hv.early
              have h4 := hv.gone
              have h5 := hv.cv
              rw [h2] at hcv
              rw [ht] at h3 h4
              grind
          · cases e
          · cases e
  exact key l init glob_init (fun i => ⟨_, inv_init (d i), same_init i⟩)

/-- **C187.**  At most one of the calls of `request_stop` returns true. -/
theorem c187_one (d : Nat → Nat) (l : List Act) (s : State) (h : run d init l = .ok s) (j j' : Nat) (h1 : s.stp j = .returned true) (h2 : s.stp j' = .returned true) :
    j = j' :=
  (sim_init h).1.one j j' (by rw [h1]; simp [Won]) (by rw [h2]; simp [Won])

/-- **C187.**  And if one has returned false, there is one that has set the flag. -/
theorem c187_some (d : Nat → Nat) (l : List Act) (s : State) (h : run d init l = .ok s) (j : Nat) (hj : s.stp j = .returned false) :
    ∃ k, Won (s.stp k) := by
  have keep : ∀ {s : State} {j : Nat} {x : StopPc}, (Won (s.stp j) → Won x) → (∃ k, Won (s.stp k)) → ∃ k, Won (upd s.stp j x k) := by
    rintro s j x hx ⟨k, hk⟩
    by_cases e : k = j
    · subst e; exact ⟨k, by rw [upd_self]; exact hx hk⟩
    · exact ⟨k, by rw [upd_ne _ _ e]; exact hk⟩
  have step' : ∀ {s s' : State} {a : Act}, (s.stop = true → ∃ k, Won (s.stp k)) → step d s a = .ok s' → s'.stop = true → ∃ k, Won (s'.stp k) := by
    intro s s' a hi hs hst
    cases a with
    | sleeper i =>
      obtain ⟨w, _, he⟩ := Res.bind_eq_ok.1 hs
      cases he
      exact hi hst
    | tick => cases hs; exact hi hst
    | spurious i =>
      simp only [step] at hs
      split at hs
      · cases hs; exact hi hst
      · cases hs
    | stopper q =>
      simp only [step, stopper] at hs
      split at hs
      · rename_i hq
        split at hs
        · cases hs; exact keep (fun h => absurd hq h.1) (hi hst)
        · cases hs; exact ⟨q, by simp only [upd_self]; simp [Won]⟩
      · split at hs
        · cases hs; exact keep (fun _ => by simp [Won]) (hi hst)
        · cases hs; exact keep (fun _ => by simp [Won]) (hi hst)
      · split at hs
        · cases hs; exact keep (fun _ => by simp [Won]) (hi hst)
        · cases hs
      · cases hs; exact keep (fun _ => by simp [Won]) (hi hst)
      · cases hs
  have all : ∀ (l : List Act) (s s' : State), (s.stop = true → ∃ k, Won (s.stp k)) → run d s l = .ok s' → s'.stop = true → ∃ k, Won (s'.stp k) := by
    intro l
    induction l with
    | nil => intro s s' hi h; cases h; exact hi
    | cons a l ih =>
      intro s s' hi h
      obtain ⟨s1, h1, h2⟩ := Res.bind_eq_ok.1 h
      exact ih s1 s' (step' hi h1) h2
  have hst : s.stop = true := by
    cases hs : s.stop with
    | true => rfl
    | false => have := (sim_init h).1.idle hs j; rw [hj] at this; cases this
  exact all l init s (fun e => Bool.noConfusion e) h hst

/-- **C187.**  Every call of `sleep_for` returns only when its duration has passed since it was called, or a stop was requested. -/
theorem c187_not_early (d : Nat → Nat) (l : List Act) (s : State) (h : run d init l = .ok s) (i t : Nat) (b : Bool) (hr : (s.thr i).ret = some (t, b)) :
    b = true ∨ (s.thr i).start + d i ≤ t := by
  obtain ⟨lv, v, h1, h2⟩ := (sim_init h).2.2 i
  rw [h2.toSame.ret] at hr
  have := c57_not_early (d i) lv v h1 t b hr
  rw [← h2.thr]
  exact this

/-- **C187.**  When the first `request_stop` has returned, no thread is blocked in `sleep_for`, except those that were, at the moment of the request, between their test of the flag
and the beginning of the wait.  Missing: these, see `c187_lost_violated`. -/
theorem c187_all_wake_partial (d : Nat → Nat) (l l' : List Act) (s s0 s' : State) (j : Nat) (h : run d init l = .ok s) (hj : s.stop = false) (hs : step d s (.stopper j) = .ok s0)
    (h' : run d s0 l' = .ok s') (hr : s'.stp j = .returned true) (i : Nat) (hp : (s.thr i).pc ≠ .toBlock) :
    (s'.thr i).pc ≠ .toBlock ∧ (s'.thr i).pc ≠ .blocked := by
  obtain ⟨g, hall, hone⟩ := sim_init h
  obtain ⟨lv, v, hv, hsim⟩ := hone i
  have hvi := inv_run _ lv _ _ (inv_init (d i)) hv
  have hidle : v.stopper = .idle := hsim.idle.2 hj
  have hsj := g.idle hj j
  -- the request itself
  have hv0 : Sleep.step (d i) v .stopper = .ok { v with stopper := .signalled, stop := true } := by simp [Sleep.step, Sleep.stopper, hidle]
  have e0 : s0 = { s with stop := true, stp := upd s.stp j .loop } := by
    simp only [step, stopper, hsj, hj] at hs
    cases hs
    rfl
  have hno : ∀ y, y = .calling i ∨ y = .called i ∨ y = .returned true → ¬ ∃ k, upd s.stp j .loop k = y := by
    rintro y hy ⟨k, hk⟩
    by_cases e : k = j
    · subst e; rw [upd_self] at hk; subst hk; simp at hy
    · rw [upd_ne _ _ e, g.idle hj] at hk; subst hk; simp at hy
  have hsim0 : Sim s0 i { v with stopper := .signalled, stop := true } := by
    subst e0
    refine ⟨⟨hsim.now, rfl, hsim.thr⟩, by simp, ?_, ?_, fun hx => absurd hx (hno _ (by simp))⟩
    · simp only [reduceCtorEq, false_iff]; exact hno _ (by simp)
    · simp only [reduceCtorEq, false_iff]; exact hno _ (by simp)
  have g0 := glob_step g hall hs
  have hall0 : ∀ k, ∃ v, Inv (d k) v ∧ Sim s0 k v := by
    intro k
    obtain ⟨v, hv, hsim⟩ := hall k
    obtain ⟨lv, v', hr, hs', _⟩ := sim_step g hv hsim hs
    exact ⟨v', inv_run _ lv _ _ hv hr, hs'⟩
  obtain ⟨lv', v', hr', hs', _⟩ := (sim_run l' g0 hall0 h').2.2 i _ (inv_step _ _ _ _ hvi hv0) hsim0
  rw [hs'.toSame.pc]
  exact c57_wakes_partial (d i) lv lv' v _ v' hv hidle (by rw [← hsim.toSame.pc]; exact hp) hv0 hr' (hs'.ret ⟨j, hr⟩)

/-- **C187.**  And every call that is in progress and not blocked returns after at most six more steps of its thread, whatever the others do. -/
theorem c187_returns (d : Nat → Nat) (l : List Act) (s : State) (h : run d init l = .ok s) (j : Nat) (hr : s.stp j = .returned true) (i : Nat)
    (h1 : (s.thr i).pc ≠ .toBlock) (h2 : (s.thr i).pc ≠ .blocked) (h3 : (s.thr i).pc ≠ .before) (h4 : (s.thr i).pc ≠ .done) :
    ∃ n s', n ≤ 6 ∧ run d s (List.replicate n (.sleeper i)) = .ok s' ∧ (s'.thr i).ret = some (s.now, true) := by
  obtain ⟨lv, v, hv, hsim⟩ := (sim_init h).2.2 i
  rw [hsim.toSame.pc] at h1 h2 h3 h4
  obtain ⟨n, v', hn, hr', hret⟩ := c57_returns (d i) lv v hv (hsim.ret ⟨j, hr⟩) h1 h2 h3 h4
  have lift : ∀ n s v, Same s i v → Sleep.run (d i) v (List.replicate n .sleeper) = .ok v' →
      ∃ s', run d s (List.replicate n (.sleeper i)) = .ok s' ∧ Same s' i v' := by
    intro n
    induction n with
    | zero => intro s v hs h; cases h; exact ⟨s, rfl, hs⟩
    | succ n ih =>
      intro s v hs h
      obtain ⟨v1, e1, e2⟩ := Res.bind_eq_ok.1 h
      obtain ⟨s1, e3, e4, _⟩ := sleeper_same hs e1
      obtain ⟨s', e5, e6⟩ := ih s1 v1 e4 e2
      exact ⟨s', by rw [List.replicate_succ, run, e3]; exact e5, e6⟩
  obtain ⟨s', e1, e2⟩ := lift n s v hsim.toSame hr'
  exact ⟨n, s', hn, e1, by rw [e2.ret, hret, hsim.now]⟩

theorem runs_append (d : Nat → Nat) (l l' : List Act) : ∀ s : State, run d s (l ++ l') = (run d s l >>= fun s => run d s l') := by
  induction l with
  | nil => intro s; rfl
  | cons a l ih =>
    intro s
    simp only [List.cons_append, run]
    cases step d s a with
    | ok s1 => simp only [Res.ok_bind, ih]
    | throw e => rfl
    | ub => rfl

/-- **C187.**  The call of `request_stop` that has set the flag waits for nothing: it calls the functions of the threads that are in the list, with three steps for each, and returns true. -/
theorem c187_request_ends (d : Nat → Nat) (l : List Act) (s : State) (j : Nat) (h : run d init l = .ok s) (hj : s.stp j = .loop) :
    ∃ s', run d s (List.replicate (3 * s.list.length + 1) (.stopper j)) = .ok s' ∧ s'.stp j = .returned true := by
  generalize hn : s.list.length = n
  induction n generalizing l s with
  | zero =>
    have hl : s.list = [] := List.eq_nil_of_length_eq_zero hn
    exact ⟨{ s with stp := upd s.stp j (.returned true) }, by simp [run, step, stopper, hj, hl], upd_self _ _ _⟩
  | succ n ih =>
    obtain ⟨i, rest, hl⟩ : ∃ i rest, s.list = i :: rest := by
      cases hx : s.list with
      | nil => rw [hx] at hn; simp at hn
      | cons i rest => exact ⟨i, rest, rfl⟩
    -- the function is taken
    have e1 : step d s (.stopper j) = .ok { s with list := rest, thr := upd s.thr i { s.thr i with cb := .taken }, stp := upd s.stp j (.calling i) } := by
      simp [step, stopper, hj, hl]
    -- it is called
    have hcv : (s.thr i).cv = true := by
      apply Classical.byContradiction
      intro hc
      refine c187_no_ub d (l ++ [.stopper j, .stopper j]) ?_
      rw [runs_append, h]
      simp only [Res.ok_bind, run, e1]
      simp only [step, stopper, upd_self, hc]
      rfl
    obtain ⟨s3, e3, h3, h4⟩ : ∃ s3, run d s [.stopper j, .stopper j, .stopper j] = .ok s3 ∧ s3.stp j = .loop ∧ s3.list = rest := by
      obtain ⟨s2, e2, h2, h2'⟩ : ∃ s2, step d { s with list := rest, thr := upd s.thr i { s.thr i with cb := .taken }, stp := upd s.stp j (.calling i) } (.stopper j) = .ok s2 ∧
          s2.stp j = .called i ∧ s2.list = rest := by
        simp only [step, stopper, upd_self, hcv, if_true]
        exact ⟨_, rfl, upd_self _ _ _, rfl⟩
      refine ⟨{ s2 with thr := upd s2.thr i { s2.thr i with cb := .finished }, stp := upd s2.stp j .loop }, ?_, upd_self _ _ _, h2'⟩
      have e5 : step d s2 (.stopper j) = .ok { s2 with thr := upd s2.thr i { s2.thr i with cb := .finished }, stp := upd s2.stp j .loop } := by
        simp only [step, stopper, h2]
      rw [run, e1, Res.ok_bind, run, e2, Res.ok_bind, run, e5, Res.ok_bind, run]
    obtain ⟨s', e4, h5⟩ := ih (l ++ [.stopper j, .stopper j, .stopper j]) s3 (by rw [runs_append, h]; exact e3) h3 (by rw [h4]; rw [hl] at hn; simpa using hn)
    refine ⟨s', ?_, h5⟩
    have hrep : List.replicate (3 * (n + 1) + 1) (Act.stopper j) = [.stopper j, .stopper j, .stopper j] ++ List.replicate (3 * n + 1) (.stopper j) := by
      rw [show 3 * (n + 1) + 1 = 3 + (3 * n + 1) by omega, ← List.replicate_append_replicate]
      rfl
    rw [hrep, runs_append, e3]
    exact e4

/-- **C187 is violated** by a thread that has tested the flag and is about to wait when the stop is requested: it sleeps on for its whole duration after the request has woken the other one
and has returned true, unless it is woken spuriously. -/
theorem c187_lost_violated (d : Nat → Nat) : ∃ l s, run d init l = .ok s ∧ s.now = 0 ∧ s.stp 0 = .returned true ∧ (s.thr 0).pc = .woken ∧
    ∀ l' s', Act.spurious 1 ∉ l' → run d s l' = .ok s' → s'.now < d 1 → (s'.thr 1).pc = .blocked ∧ (s'.thr 1).ret = none := by
  -- thread 0 blocks, thread 1 is about to, the request calls both functions
  obtain ⟨s, h, h1, h2, h3, h4, h5, h6⟩ : ∃ s, run d init [.sleeper 0, .sleeper 0, .sleeper 0, .sleeper 0, .sleeper 0, .sleeper 1, .sleeper 1, .sleeper 1, .sleeper 1,
      .stopper 0, .stopper 0, .stopper 0, .stopper 0, .stopper 0, .stopper 0, .stopper 0, .stopper 0, .sleeper 1] = .ok s ∧
      s.now = 0 ∧ s.stp 0 = .returned true ∧ (s.thr 0).pc = .woken ∧ (s.thr 1).pc = .blocked ∧ (s.thr 1).deadline = 0 + d 1 ∧ (s.thr 1).ret = none :=
    ⟨_, rfl, rfl, rfl, rfl, rfl, rfl, rfl⟩
  refine ⟨_, s, h, h1, h2, h3, fun l' s' hl hr hn => ?_⟩
  obtain ⟨g, hall, hone⟩ := sim_init h
  obtain ⟨v, hv, hsim⟩ := hall 1
  obtain ⟨lv, v', hr', hs', hx⟩ := (sim_run l' g hall hr).2.2 1 v hv hsim
  rw [hs'.toSame.pc, hs'.toSame.ret]
  refine lost_stays (d 1) (d 1) lv v v' ?_ (hsim.ret ⟨0, h2⟩) ?_ ?_ (fun e => hl (hx e)) hr' (by rw [hs'.now]; exact hn)
  · rw [← hsim.toSame.pc]; exact h4
  · rw [← hsim.thr] at h5; exact h5.trans (Nat.zero_add _)
  · rw [← hsim.toSame.ret]; exact h6

/-! ### Cases -/

/-- Two threads are blocked when the third requests the stop; the fourth asks too late. -/
example : ∃ s s0 s', run (fun _ => 5) init [.sleeper 0, .sleeper 0, .sleeper 0, .sleeper 0, .sleeper 0, .sleeper 1, .sleeper 1, .sleeper 1, .sleeper 1, .sleeper 1, .tick] = .ok s ∧
    s.stop = false ∧ (s.thr 0).pc = .blocked ∧ (s.thr 1).pc = .blocked ∧ step (fun _ => 5) s (.stopper 2) = .ok s0 ∧
    run (fun _ => 5) s0 [.stopper 2, .stopper 3, .stopper 2, .stopper 2, .stopper 2, .stopper 2, .stopper 2, .stopper 2, .sleeper 0, .sleeper 0, .sleeper 0, .sleeper 0] = .ok s' ∧
    s'.stp 2 = .returned true ∧ s'.stp 3 = .returned false ∧ (s'.thr 0).ret = some (1, true) ∧ (s'.thr 1).pc = .woken :=
  ⟨_, _, _, rfl, rfl, rfl, rfl, rfl, rfl, rfl, rfl, rfl, rfl⟩

/-- A thread whose time is over while others sleep on. -/
example : ∃ s, run (fun i => i) init [.sleeper 1, .sleeper 1, .sleeper 1, .sleeper 1, .sleeper 1, .sleeper 7, .sleeper 7, .tick, .sleeper 1, .sleeper 1, .sleeper 1, .sleeper 1, .sleeper 1] = .ok s ∧
    (s.thr 1).ret = some (1, false) ∧ s.list = [7] :=
  ⟨_, rfl, rfl, rfl⟩

end Verif.Sleep.Many
