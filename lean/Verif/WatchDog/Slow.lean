import Verif.Sleep.Props
import Verif.WatchDog.Props

/-!
# C103: how long the destruction of a watch dog takes

The destructor of `m_thread` requests the stop of the thread and joins it (WatchDog.h:63; `jthread`, C102), and the thread is in `sleep_for` (WatchDog.h:40).  Here `sleep_for` is
the model of C57 and not its specification: `Sleep.Stopper` is the destructor, and it can join the thread when `sleep_for` has returned.
-/

namespace Verif.WatchDog

/-- The destructor of `m_thread` (WatchDog.h:63; jthread.hpp, C102) has requested the stop and can join the thread.  Simplified: what the thread does after `sleep_for` (WatchDog.h:42-48) takes no time. -/
def Joinable (s : Sleep.State) : Prop := s.stopper = .returned ∧ s.pc = .done

/-- **C103.**  If the thread is not between its test of the flag and the beginning of its wait when the destructor requests the stop, and `sleep_for` was called, then the thread can be
joined at once: after at most six steps of the thread, at the time at which the request has returned. -/
theorem c103_quick_partial (d : Nat) (l l' : List Sleep.Act) (s s0 s1 : Sleep.State) (h : Sleep.run d Sleep.init l = .ok s) (hi : s.stopper = .idle) (hp : s.pc ≠ .toBlock)
    (hs : Sleep.step d s .stopper = .ok s0) (h' : Sleep.run d s0 l' = .ok s1) (hr : s1.stopper = .returned) (hb : s1.pc ≠ .before) :
    ∃ n s', n ≤ 6 ∧ Sleep.run d s1 (List.replicate n .sleeper) = .ok s' ∧ Joinable s' ∧ s'.now = s1.now := by
  have hrun : Sleep.run d Sleep.init (l ++ .stopper :: l') = .ok s1 := by
    rw [Sleep.run_append, h]
    simp only [Res.ok_bind, Sleep.run, hs]
    exact h'
  have keep : ∀ n s s', Sleep.run d s (List.replicate n .sleeper) = .ok s' → s'.stopper = s.stopper ∧ s'.now = s.now := by
    intro n
    induction n with
    | zero => intro s s' h; cases h; exact ⟨rfl, rfl⟩
    | succ n ih =>
      intro s s' h
      obtain ⟨t, h1, h2⟩ := Res.bind_eq_ok.1 h
      obtain ⟨h3, h4⟩ := ih t s' h2
      have : t.stopper = s.stopper ∧ t.now = s.now := by
        cases hp : s.pc <;> simp only [Sleep.step, Sleep.sleeper, Sleep.notify, hp] at h1 <;> (repeat' split at h1) <;> (try simp at h1) <;> (try subst h1) <;> simp
      exact ⟨h3.trans this.1, h4.trans this.2⟩
  by_cases hd : s1.pc = .done
  · exact ⟨0, s1, by decide, rfl, ⟨hr, hd⟩, rfl⟩
  · obtain ⟨w1, w2⟩ := Sleep.c57_wakes_partial d l l' s s0 s1 h hi hp hs h' hr
    obtain ⟨n, s', hn, h1, h2⟩ := Sleep.c57_returns d _ s1 hrun hr w1 w2 hb hd
    obtain ⟨h3, h4⟩ := keep n s1 s' h1
    have hinv : Sleep.Inv d s' := Sleep.inv_run d _ _ _ (Sleep.inv_run d _ _ _ (Sleep.inv_init d) hrun) h1
    exact ⟨n, s', hn, h1, ⟨h3.trans hr, (hinv.ret _ _ h2).1⟩, h4⟩

/-- **C103 is violated** in that window: the watch dog of a test that has passed at once is destroyed at time 0, and its destructor does not return before the whole timeout has passed (unless
the thread is woken spuriously). -/
theorem c103_slow_violated (d : Nat) : ∃ l s, Sleep.run d Sleep.init l = .ok s ∧ s.now = 0 ∧ s.stopper = .returned ∧
    ∀ l' s', Sleep.Act.spurious ∉ l' → Sleep.run d s l' = .ok s' → Joinable s' → d ≤ s'.now := by
  obtain ⟨s, h, h1, _, h3, h4⟩ := Sleep.c57_lost_violated d
  refine ⟨_, s, h, h1, h3, fun l' s' hl hr hj => ?_⟩
  apply Classical.byContradiction
  intro hn
  have := (h4 l' s' hl hr (by omega)).1
  rw [hj.2] at this
  cases this

/-- A timeout of 1000: the thread is blocked when the destructor requests the stop at time 1, and can be joined at time 1. -/
example : ∃ s s0 s1, Sleep.run 1000 Sleep.init [.sleeper, .sleeper, .sleeper, .sleeper, .sleeper, .tick] = .ok s ∧ s.stopper = .idle ∧ s.pc = .blocked ∧ Sleep.step 1000 s .stopper = .ok s0 ∧
    Sleep.run 1000 s0 [.stopper, .stopper, .stopper] = .ok s1 ∧ s1.stopper = .returned ∧ s1.pc = .woken ∧
    ∃ s', Sleep.run 1000 s1 [.sleeper, .sleeper, .sleeper, .sleeper] = .ok s' ∧ Joinable s' ∧ s'.now = 1 :=
  ⟨_, _, _, rfl, rfl, rfl, rfl, rfl, rfl, rfl, _, rfl, ⟨rfl, rfl⟩, rfl⟩

end Verif.WatchDog
