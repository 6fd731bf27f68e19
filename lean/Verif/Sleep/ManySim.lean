import Verif.Sleep.ManyModel
import Verif.Sleep.Props

/-! # Each of many sleeping threads makes the steps of a single one -/

namespace Verif.Sleep.Many

/-- The call of `request_stop` was the first. -/
def Won (p : StopPc) : Prop := p ≠ .idle ∧ p ≠ .returned false

/-- The stop state. -/
structure Glob (s : State) : Prop where
  idle : s.stop = false → ∀ j, s.stp j = .idle
  one : ∀ j j', Won (s.stp j) → Won (s.stp j') → j = j'
  listed : ∀ i, i ∈ s.list ↔ (s.thr i).cb = .listed
  nodup : s.list.Nodup

/-- What a call shares with a single sleeping thread. -/
structure Same (s : State) (i : Nat) (v : Sleep.State) : Prop where
  now : v.now = s.now
  stop : v.stop = s.stop
  thr : thread v = s.thr i

/-- Call `i` and a single sleeping thread. -/
structure Sim (s : State) (i : Nat) (v : Sleep.State) : Prop extends Same s i v where
  idle : v.stopper = .idle ↔ s.stop = false
  calling : v.stopper = .calling ↔ ∃ j, s.stp j = .calling i
  called : v.stopper = .called ↔ ∃ j, s.stp j = .called i
  ret : (∃ j, s.stp j = .returned true) → v.stopper = .returned

/-- The step of a sleeping thread does not depend on the stopping thread, and does not change it. -/
theorem sleeper_stopper (d : Nat) (v : Sleep.State) (x : Stopper) :
    Sleep.sleeper d { v with stopper := x } = (Sleep.sleeper d v >>= fun w => .ok { w with stopper := x }) := by
  obtain ⟨now, stop, pc, st, cb, cv, start, dl, ret⟩ := v
  cases pc <;> simp only [Sleep.sleeper, notify, Res.ok_bind] <;> (repeat' split) <;> rfl

theorem sleeper_keeps (d : Nat) (v v' : Sleep.State) (h : Sleep.sleeper d v = .ok v') : v'.now = v.now ∧ v'.stop = v.stop ∧ v'.stopper = v.stopper ∧ v'.cb ≠ .taken ∨ v'.now = v.now ∧ v'.stop = v.stop ∧ v'.stopper = v.stopper ∧ v'.cb = v.cb := by
  obtain ⟨now, stop, pc, st, cb, cv, start, dl, ret⟩ := v
  cases pc <;> simp only [Sleep.sleeper, notify] at h <;> (repeat' split at h) <;> simp at h <;> (try subst h) <;> simp

theorem view_same {s : State} {i : Nat} {v : Sleep.State} (h : Same s i v) : v = { s.view i with stopper := v.stopper } := by
  obtain ⟨h1, h2, h3⟩ := h
  obtain ⟨now, stop, pc, st, cb, cv, start, dl, ret⟩ := v
  simp only [thread] at h1 h2 h3
  simp only [State.view, ← h3, h1, h2]

theorem same_init (i : Nat) : Sim init i Sleep.init := by
  refine ⟨⟨rfl, rfl, rfl⟩, ?_, ?_, ?_, ?_⟩ <;> simp [init, Sleep.init]

theorem glob_init : Glob init := by
  refine ⟨fun _ _ => rfl, fun j j' h => ?_, fun i => ?_, ?_⟩ <;> simp [init] at *
  exact absurd rfl h.1

/-- The steps of a sleeping thread. -/
theorem sleeper_view {d : Nat → Nat} {s : State} {i : Nat} {v w : Sleep.State} (h : Same s i v) (hw : Sleep.sleeper (d i) (s.view i) = .ok w) :
    Sleep.sleeper (d i) v = .ok { w with stopper := v.stopper } ∧
      Same { s with thr := upd s.thr i (thread w), list := relist i (s.thr i).cb w.cb s.list } i { w with stopper := v.stopper } := by
  have e := view_same h
  refine ⟨by rw [e, sleeper_stopper, hw]; rfl, ?_, ?_, ?_⟩
  · rcases sleeper_keeps _ _ _ hw with h | h <;> exact h.1
  · rcases sleeper_keeps _ _ _ hw with h | h <;> exact h.2.1
  · simp [upd, thread]

theorem sleeper_same {d : Nat → Nat} {s : State} {i : Nat} {v v' : Sleep.State} (h : Same s i v) (hv : Sleep.sleeper (d i) v = .ok v') :
    ∃ s', step d s (.sleeper i) = .ok s' ∧ Same s' i v' ∧ s'.stp = s.stp := by
  have e := view_same h
  have hv0 := hv
  rw [e, sleeper_stopper] at hv0
  obtain ⟨w, hw, _⟩ := Res.bind_eq_ok.1 hv0
  obtain ⟨h1, h2⟩ := sleeper_view h hw
  rw [h1] at hv
  cases hv
  exact ⟨{ s with thr := upd s.thr i (thread w), list := relist i (s.thr i).cb w.cb s.list }, by simp only [step, sleeper, hw, Res.ok_bind], h2, rfl⟩

theorem upd_self {α : Type} (f : Nat → α) (i : Nat) (x : α) : upd f i x i = x := by simp [upd]

theorem upd_ne {α : Type} (f : Nat → α) {i k : Nat} (x : α) (h : k ≠ i) : upd f i x k = f k := by simp [upd, h]

theorem ex_upd_other {f : Nat → StopPc} {j : Nat} {x y : StopPc} (hx : x ≠ y) (hf : f j ≠ y) : (∃ k, upd f j x k = y) ↔ ∃ k, f k = y := by
  constructor
  · rintro ⟨k, h⟩
    by_cases hk : k = j
    · subst hk; rw [upd_self] at h; exact absurd h hx
    · rw [upd_ne f x hk] at h; exact ⟨k, h⟩
  · rintro ⟨k, h⟩
    by_cases hk : k = j
    · subst hk; exact absurd h hf
    · exact ⟨k, by rw [upd_ne f x hk]; exact h⟩

theorem Sim.of_stp {s s' : State} {i : Nat} {v : Sleep.State} (h : Sim s i v) (h1 : s'.now = s.now) (h2 : s'.stop = s.stop) (h3 : s'.thr i = s.thr i)
    (h4 : ∀ y, y = .calling i ∨ y = .called i ∨ y = .returned true → ((∃ k, s'.stp k = y) ↔ ∃ k, s.stp k = y)) : Sim s' i v :=
  ⟨⟨by rw [h1]; exact h.now, by rw [h2]; exact h.stop, by rw [h3]; exact h.thr⟩, by rw [h2]; exact h.idle, by rw [h4 _ (by simp)]; exact h.calling,
   by rw [h4 _ (by simp)]; exact h.called, by rw [h4 _ (by simp)]; exact h.ret⟩

theorem run_one (d : Nat) (v v' : Sleep.State) (a : Sleep.Act) (h : Sleep.step d v a = .ok v') : Sleep.run d v [a] = .ok v' := by
  simp only [Sleep.run, h, Res.ok_bind]

/-- Each step of the system is one step of the single thread or none. -/
theorem sim_step {d : Nat → Nat} {s s' : State} {a : Act} (g : Glob s) {i : Nat} {v : Sleep.State} (hv : Inv (d i) v) (h : Sim s i v) (hs : step d s a = .ok s') :
    ∃ lv v', Sleep.run (d i) v lv = .ok v' ∧ Sim s' i v' ∧ (Sleep.Act.spurious ∈ lv → a = .spurious i) := by
  cases a with
  | sleeper k =>
    obtain ⟨w, hw, he⟩ := Res.bind_eq_ok.1 hs
    cases he
    by_cases hk : k = i
    · subst hk
      obtain ⟨h1, h2⟩ := sleeper_view h.toSame hw
      exact ⟨[.sleeper], _, run_one _ _ _ _ h1, ⟨h2, h.idle, h.calling, h.called, h.ret⟩, by simp⟩
    · exact ⟨[], v, rfl, h.of_stp rfl rfl (upd_ne _ _ (Ne.symm hk)) (fun _ _ => Iff.rfl), by simp⟩
  | tick =>
    cases hs
    refine ⟨[.tick], _, run_one _ _ _ _ rfl, ⟨⟨?_, h.stop, h.thr⟩, h.idle, h.calling, h.called, h.ret⟩, by simp⟩
    simp only [h.now]
  | spurious k =>
    simp only [step] at hs
    split at hs
    · rename_i hb
      cases hs
      by_cases hk : k = i
      · subst hk
        have hp : v.pc = .blocked := by rw [← hb, ← h.thr]; rfl
        refine ⟨[.spurious], { v with pc := .woken }, run_one _ _ _ _ (by simp [Sleep.step, hp]), ⟨⟨h.now, h.stop, ?_⟩, h.idle, h.calling, h.called, h.ret⟩, by simp⟩
        simp only [upd_self, ← h.thr, thread]
      · exact ⟨[], v, rfl, h.of_stp rfl rfl (upd_ne _ _ (Ne.symm hk)) (fun _ _ => Iff.rfl), by simp⟩
    · cases hs
  | stopper j =>
    simp only [step, stopper] at hs
    split at hs
    · rename_i hj
      split at hs
      · cases hs
        refine ⟨[], v, rfl, h.of_stp rfl rfl rfl (fun y hy => ex_upd_other ?_ ?_), by simp⟩
        · rcases hy with rfl | rfl | rfl <;> simp
        · rw [hj]; rcases hy with rfl | rfl | rfl <;> simp
      · rename_i hst
        cases hs
        have hst : s.stop = false := by simpa using hst
        have hi := h.idle.2 hst
        have hall := g.idle hst
        have hno : ∀ y, y = .calling i ∨ y = .called i ∨ y = .returned true → ¬ ∃ k, upd s.stp j .loop k = y := by
          rintro y hy ⟨k, hk⟩
          by_cases e : k = j
          · subst e; rw [upd_self] at hk; subst hk; simp at hy
          · rw [upd_ne _ _ e, hall] at hk; subst hk; simp at hy
        refine ⟨[.stopper], { v with stopper := .signalled, stop := true }, run_one _ _ _ _ (by simp [Sleep.step, Sleep.stopper, hi]),
          ⟨⟨h.now, rfl, h.thr⟩, by simp, ?_, ?_, ?_⟩, by simp⟩
        · simp only [reduceCtorEq, false_iff]; exact hno _ (by simp)
        · simp only [reduceCtorEq, false_iff]; exact hno _ (by simp)
        · intro hx; exact absurd hx (hno _ (by simp))
    · rename_i hj
      have hw : Won (s.stp j) := by rw [hj]; simp [Won]
      have hst : s.stop ≠ false := fun e => by have := g.idle e j; rw [hj] at this; cases this
      have only : ∀ y, y = .calling i ∨ y = .called i ∨ y = .returned true → ¬ ∃ k, s.stp k = y := by
        rintro y hy ⟨k, hk⟩
        have : k = j := g.one k j (by rw [hk]; rcases hy with rfl | rfl | rfl <;> simp [Won]) hw
        subst this
        rw [hj] at hk
        subst hk
        simp at hy
      have hn1 : v.stopper ≠ .idle := fun e => hst (h.idle.1 e)
      have hn2 : v.stopper ≠ .calling := fun e => only _ (by simp) (h.calling.1 e)
      have hn3 : v.stopper ≠ .called := fun e => only _ (by simp) (h.called.1 e)
      split at hs
      · rename_i hl
        cases hs
        have hcb : v.cb ≠ .listed := by
          intro e
          have : (s.thr i).cb = .listed := by rw [← h.thr]; exact e
          have := (g.listed i).2 this
          rw [hl] at this
          simp at this
        have fin : ∀ v' : Sleep.State, Same s i v' → v'.stopper = .returned → Sim { s with stp := upd s.stp j (.returned true) } i v' := by
          intro v' hs' hr
          refine ⟨⟨hs'.now, hs'.stop, hs'.thr⟩, ?_, ?_, ?_, fun _ => hr⟩
          · rw [hr]; simp only [reduceCtorEq, false_iff]; exact hst
          · rw [hr, ex_upd_other (by simp) (by rw [hj]; simp)]; simp only [reduceCtorEq, false_iff]; exact only _ (by simp)
          · rw [hr, ex_upd_other (by simp) (by rw [hj]; simp)]; simp only [reduceCtorEq, false_iff]; exact only _ (by simp)
        cases hvs : v.stopper with
        | signalled =>
          exact ⟨[.stopper], { v with stopper := .returned }, run_one _ _ _ _ (by simp [Sleep.step, Sleep.stopper, hvs, hcb]), fin _ ⟨h.now, h.stop, h.thr⟩ rfl, by simp⟩
        | returned => exact ⟨[], v, rfl, fin v h.toSame hvs, by simp⟩
        | idle => exact absurd hvs hn1
        | calling => exact absurd hvs hn2
        | called => exact absurd hvs hn3
      · rename_i k rest hl
        cases hs
        by_cases hk : k = i
        · subst hk
          have hc : v.cb = .listed := by
            have := (g.listed k).1 (by rw [hl]; simp)
            rw [← h.thr] at this
            exact this
          have hsig : v.stopper = .signalled := (hv.listed hc).resolve_left hn1
          refine ⟨[.stopper], { v with stopper := .calling, cb := .taken }, run_one _ _ _ _ (by simp [Sleep.step, Sleep.stopper, hsig, hc]),
            ⟨⟨h.now, h.stop, ?_⟩, ?_, ?_, ?_, ?_⟩, by simp⟩
          · simp only [upd_self, ← h.thr, thread]
          · simp only [reduceCtorEq, false_iff]; exact hst
          · simp only [true_iff]; exact ⟨j, upd_self _ _ _⟩
          · simp only [reduceCtorEq, false_iff]; rw [ex_upd_other (by simp) (by rw [hj]; simp)]; exact only _ (by simp)
          · rw [ex_upd_other (by simp) (by rw [hj]; simp)]; exact fun e => absurd e (only _ (by simp))
        · refine ⟨[], v, rfl, h.of_stp rfl rfl (upd_ne _ _ (Ne.symm hk)) (fun y hy => ex_upd_other ?_ ?_), by simp⟩
          · rcases hy with rfl | rfl | rfl <;> simp [hk]
          · rw [hj]; rcases hy with rfl | rfl | rfl <;> simp
    · rename_i k hj
      split at hs
      · rename_i hcv
        cases hs
        by_cases hk : k = i
        · subst hk
          have hc : v.stopper = .calling := h.calling.2 ⟨j, hj⟩
          have hst : s.stop ≠ false := fun e => by have := g.idle e j; rw [hj] at this; cases this
          have hw : Won (s.stp j) := by rw [hj]; simp [Won]
          have only : ∀ y x, y = .calling k ∨ y = .returned true → y ≠ x → ¬ ∃ q, upd s.stp j x q = y := by
            rintro y x hy hx ⟨q, hq⟩
            by_cases e : q = j
            · subst e; rw [upd_self] at hq; exact hx hq.symm
            · rw [upd_ne _ _ e] at hq
              exact e (g.one q j (by rw [hq]; rcases hy with rfl | rfl <;> simp [Won]) hw)
          have hcv' : v.cv = true := by rw [← hcv, ← h.thr]; rfl
          have hpc : (s.thr k).pc = v.pc := by rw [← h.thr]; rfl
          refine ⟨[.stopper], { v with stopper := .called, pc := if v.pc = .blocked then .woken else v.pc },
            run_one _ _ _ _ ?_, ⟨⟨h.now, h.stop, ?_⟩, ?_, ?_, ?_, ?_⟩, by simp⟩
          · simp only [Sleep.step, Sleep.stopper, hc, notify, hcv', if_true, Res.ok_bind]
            split <;> simp_all
          · simp only [upd_self, hpc]
            rw [← h.thr]
            simp only [thread]
          · simp only [reduceCtorEq, false_iff]; exact hst
          · simp only [reduceCtorEq, false_iff]; exact only _ _ (by simp) (by simp)
          · simp only [true_iff]; exact ⟨j, upd_self _ _ _⟩
          · exact fun e => absurd e (only _ _ (by simp) (by simp))
        · refine ⟨[], v, rfl, h.of_stp rfl rfl (upd_ne _ _ (Ne.symm hk)) (fun y hy => ex_upd_other ?_ ?_), by simp⟩
          · rcases hy with rfl | rfl | rfl <;> simp [hk]
          · rw [hj]; rcases hy with rfl | rfl | rfl <;> simp [hk]
      · cases hs
    · rename_i k hj
      cases hs
      by_cases hk : k = i
      · subst hk
        have hc : v.stopper = .called := h.called.2 ⟨j, hj⟩
        have hst : s.stop ≠ false := fun e => by have := g.idle e j; rw [hj] at this; cases this
        have hw : Won (s.stp j) := by rw [hj]; simp [Won]
        have only : ∀ y, y = .calling k ∨ y = .called k ∨ y = .returned true → ¬ ∃ q, upd s.stp j .loop q = y := by
          rintro y hy ⟨q, hq⟩
          by_cases e : q = j
          · subst e; rw [upd_self] at hq; subst hq; simp at hy
          · rw [upd_ne _ _ e] at hq
            exact e (g.one q j (by rw [hq]; rcases hy with rfl | rfl | rfl <;> simp [Won]) hw)
        refine ⟨[.stopper], { v with stopper := .returned, cb := .finished },
          run_one _ _ _ _ (by simp [Sleep.step, Sleep.stopper, hc]), ⟨⟨h.now, h.stop, ?_⟩, ?_, ?_, ?_, fun _ => rfl⟩, by simp⟩
        · simp only [upd_self, ← h.thr, thread]
        · simp only [reduceCtorEq, false_iff]; exact hst
        · simp only [reduceCtorEq, false_iff]; exact only _ (by simp)
        · simp only [reduceCtorEq, false_iff]; exact only _ (by simp)
      · refine ⟨[], v, rfl, h.of_stp rfl rfl (upd_ne _ _ (Ne.symm hk)) (fun y hy => ex_upd_other ?_ ?_), by simp⟩
        · rcases hy with rfl | rfl | rfl <;> simp
        · rw [hj]; rcases hy with rfl | rfl | rfl <;> simp [hk]
    · cases hs

end Verif.Sleep.Many
