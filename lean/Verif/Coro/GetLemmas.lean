import Verif.Coro.GetSpec
import Verif.Coro.Leak
import Verif.Coro.LogInv

namespace Verif.Coro

/-- A task that did not finish has no result. -/
def Bare (s : State) : Prop := ∀ f fr, s.frames f = some fr → fr.phase ≠ .final → fr.result = none

theorem bare_set (s : State) (f : Nat) (fr : Frame) (h : Bare s) (hf : fr.phase ≠ .final → fr.result = none) :
    Bare (setFrame s f (some fr)) := by
  intro g gr hg hp
  by_cases e : g = f
  · simp only [setFrame, if_pos e] at hg; cases hg; exact hf hp
  · simp only [setFrame, if_neg e] at hg; exact h g gr hg hp

theorem bare_deliver (s s' : State) (c t : Nat) (k : Kind) (h : Bare s) (hd : deliver s c t k = .ok s') : Bare s' := by
  obtain ⟨_, _, h3⟩ := deliver_spec s c t k s' hd
  rcases h3 with ⟨_, hf, _⟩ | ⟨_, fr, q, hfr, hq, _, hne, hcase⟩
  · intro g gr hg; rw [hf] at hg; exact h g gr hg
  · intro g gr hg hp
    by_cases e : g = t
    · rw [e] at hg
      rcases hcase with ⟨_, h4⟩ | ⟨_, h4⟩
      · rw [h4] at hg; cases hg
        have := h t fr hfr hp
        rw [hq] at this; cases this
      · rw [h4] at hg; cases hg; exact h t fr hfr hp
    · rw [hne g e] at hg; exact h g gr hg hp

theorem bare_step (s s' : State) (o : Op) (hi : Inv s [] none) (h : Bare s) (hs : step s o = .ok s') : Bare s' := by
  have hevo : Evo s s' → Bare s' := by
    intro he g gr hg hp
    rcases he.frames g with h1 | ⟨h1, _⟩
    · rw [h1] at hg; exact h g gr hg hp
    · rw [h1] at hg; cases hg
  cases o with
  | declare x o => exact hevo (plain_evo s _ s' (by trivial) hs)
  | moveCtor x o y => exact hevo (plain_evo s _ s' (by trivial) hs)
  | moveAssign x y => exact hevo (plain_evo s _ s' (by trivial) hs)
  | free x => exact hevo (plain_evo s _ s' (by trivial) hs)
  | drop x => exact hevo (plain_evo s _ s' (by trivial) hs)
  | start k x o =>
    obtain ⟨_, h2, h3, _⟩ := start_spec s k x o s' hs
    intro g gr hg hp
    by_cases e : g = s.next
    · rw [e, h3] at hg; cases hg; rfl
    · rw [h2 g e] at hg; exact h g gr hg hp
  | release x =>
    obtain ⟨_, _, h3⟩ := release_spec s x s' hs
    rcases h3 with rfl | ⟨v, _, _, f, fr, _, hfr, _, h4, h5, _⟩
    · exact h
    · intro g gr hg hp
      by_cases e : g = f
      · rw [e, h4] at hg; cases hg; exact h f fr hfr hp
      · rw [h5 g e] at hg; exact h g gr hg hp
  | suspend c =>
    obtain ⟨fr, h1, h2, rfl⟩ := suspend_spec s c s' hs
    exact bare_set s c _ h (fun _ => h c fr h1 (by rw [h2]; simp))
  | resume c =>
    obtain ⟨fr, h1, h2, rfl⟩ := resume_spec s c s' hs
    exact bare_set s c _ h (fun _ => h c fr h1 (by rw [h2]; simp))
  | await c x =>
    obtain ⟨cr, v, t, tr, hc, hp, hv, hvx, hvt, ht, haw, h1⟩ := await_spec s c x s' hs
    rcases h1 with ⟨_, h2⟩ | ⟨h1, h2, h3, h4, h5, h6, h7⟩
    · exact bare_deliver s s' c t tr.kind h h2
    · have hcr : cr.result = none := h c cr hc (by rw [hp]; simp)
      intro g gr hg hpg
      by_cases e1 : g = c
      · rw [e1] at hg
        by_cases e : c = t
        · rw [h7 e] at hg; cases hg; exact hcr
        · rw [(h6 e).2] at hg; cases hg; exact hcr
      · by_cases e2 : g = t
        · have e : c ≠ t := fun e => e1 (e2.trans e.symm)
          rw [e2, (h6 e).1] at hg; cases hg
          exact h t tr ht h1
        · rw [h5 g e1 e2] at hg; exact h g gr hg hpg
  | finish c r =>
    rcases finish_cases s c r with ⟨e, he⟩ | ⟨cr, hc, hp, hv, ha⟩
    · rw [he] at hs; cases hs
    obtain ⟨S, h1, h2, h3, h4, h5, h6, h7, h8⟩ := finish_spec s c cr r hi hc hp hv ha
    rw [h1] at hs; cases hs
    intro g gr hg hpg
    by_cases e : g = c
    · rw [e] at hg
      cases ho : cr.owned with
      | false => rw [h6 ho] at hg; cases hg
      | true =>
        obtain ⟨q, h9, _⟩ := h7 ho
        rw [h9] at hg; cases hg; exact absurd rfl hpg
    · by_cases ea : cr.awaiting = some g
      · obtain ⟨_, ar, h9, h10, h11⟩ := h5 g ea
        rw [h11] at hg; cases hg
        exact h g ar h9 (by rw [h10]; simp)
      · rw [h4 g e ea] at hg; exact h g gr hg hpg

/-- What was observed stays. -/
theorem log_step (s s' : State) (o : Op) (hi : Inv s [] none) (hs : step s o = .ok s') : ∃ l, s'.log = l ++ s.log := by
  have hevo : Evo s s' → ∃ l, s'.log = l ++ s.log := fun he => ⟨_, he.log.choose_spec⟩
  cases o with
  | declare x o => exact hevo (plain_evo s _ s' (by trivial) hs)
  | moveCtor x o y => exact hevo (plain_evo s _ s' (by trivial) hs)
  | moveAssign x y => exact hevo (plain_evo s _ s' (by trivial) hs)
  | free x => exact hevo (plain_evo s _ s' (by trivial) hs)
  | drop x => exact hevo (plain_evo s _ s' (by trivial) hs)
  | start k x o => obtain ⟨_, _, _, h4, _⟩ := start_spec s k x o s' hs; exact ⟨[], h4⟩
  | release x => obtain ⟨_, h2, _⟩ := release_spec s x s' hs; exact ⟨[], h2⟩
  | suspend c => obtain ⟨fr, _, _, rfl⟩ := suspend_spec s c s' hs; exact ⟨[], rfl⟩
  | resume c => obtain ⟨fr, _, _, rfl⟩ := resume_spec s c s' hs; exact ⟨[], rfl⟩
  | await c x =>
    obtain ⟨cr, v, t, tr, hc, hp, hv, hvx, hvt, ht, haw, h1⟩ := await_spec s c x s' hs
    rcases h1 with ⟨_, h2⟩ | ⟨h1, h2, h3, h4, _⟩
    · obtain ⟨_, _, h3⟩ := deliver_spec s c t tr.kind s' h2
      rcases h3 with ⟨_, _, hl⟩ | ⟨_, fr, q, _, _, hl, _⟩
      · exact ⟨[_], hl⟩
      · exact ⟨[_], hl⟩
    · exact ⟨[], h4⟩
  | finish c r =>
    rcases finish_cases s c r with ⟨e, he⟩ | ⟨cr, hc, hp, hv, ha⟩
    · rw [he] at hs; cases hs
    obtain ⟨S, h1, h2, h3, h4, h5, h6, h7, h8⟩ := finish_spec s c cr r hi hc hp hv ha
    rw [h1] at hs; cases hs
    refine ⟨(cr.awaiting.toList.map (fun a => .got a c r)) ++ ((if cr.owned = true then [] else [.destroyed c]) ++
        [.finished c r]), ?_⟩
    rw [h8]; simp [List.append_assoc]

/-- `get` that does not fail reads a finished task, as `co_await` does. -/
theorem get_spec (s s' : State) (c x : Nat) (hb : Bare s) (h : get s c x = .ok s') :
    ∃ v ∈ s.vars, v.name = x ∧ ∃ t fr, v.handle = some t ∧ s.frames t = some fr ∧ fr.kind = .process ∧ fr.phase = .final ∧
      deliver s c t fr.kind = .ok s' := by
  unfold get at h
  split at h
  · cases h
  rename_i v hl
  obtain ⟨hv, hvx⟩ := lookup_mem s x v hl
  split at h
  · cases h
  rename_i t ht
  split at h
  · cases h
  rename_i fr hfr
  split at h
  · cases h
  rename_i hk
  have hk : fr.kind = .process := by cases h1 : fr.kind with | update => exact absurd h1 hk | process => rfl
  refine ⟨v, hv, hvx, t, fr, ht, hfr, hk, ?_, ?_⟩
  · by_cases hp : fr.phase = .final
    · exact hp
    · rw [hb t fr hfr hp] at h; cases h
  · rw [hk]
    unfold deliver
    simp only [hfr]
    split at h
    · cases h
    · cases h
    · rename_i e he; cases h; simp only [he]
    · rename_i e he; cases h; simp only [he]
    · rename_i he; cases h; simp only [he]

structure All (s : State) : Prop where
  inv : Inv s [] none
  linv : LInv s
  bare : Bare s

theorem all_moves (s s' : State) (h : All s) (hm : Moves s s') : All s' ∧ ∃ l, s'.log = l ++ s.log := by
  cases hm with
  | op o hs ho =>
    exact ⟨⟨(step_safe s o h.inv hs).2 s' ho, linv_step s s' o h.inv h.linv ho, bare_step s s' o h.inv h.bare ho⟩,
      log_step s s' o h.inv ho⟩
  | get c x ha hg =>
    obtain ⟨v, hv, hx, t, fr, ht, hfr, hk, hp, hd⟩ := get_spec s s' c x h.bare hg
    refine ⟨⟨(safe_deliver s c t fr h.inv hfr hp).2 s' hd, linv_read s s' c t fr h.linv hfr hp hd,
      bare_deliver s s' c t fr.kind h.bare hd⟩, ?_⟩
    obtain ⟨_, _, h3⟩ := deliver_spec s c t fr.kind s' hd
    rcases h3 with ⟨_, _, hl⟩ | ⟨_, fr, q, _, _, hl, _⟩
    · exact ⟨[_], hl⟩
    · exact ⟨[_], hl⟩

theorem reachG_all (s : State) (h : ReachG s) : All s := by
  induction h with
  | init => exact ⟨inv_init, linv_init, fun f fr h => by cases h⟩
  | step s s' _ hm ih => exact (all_moves s s' ih hm).1

theorem fins_append (t : Nat) (l m : List Event) : fins t (l ++ m) = fins t l ++ fins t m := by
  simp [fins, List.filterMap_append]

/-- A result stays the result. -/
theorem fins_moves (s s' : State) (t : Nat) (r : Result) (h : All s) (hm : Moves s s') (hf : fins t s.log = [r]) :
    fins t s'.log = [r] := by
  obtain ⟨h', l, hl⟩ := all_moves s s' h hm
  have h1 : fins t s'.log = fins t l ++ [r] := by rw [hl, fins_append, hf]
  rcases h'.linv.once t with h2 | ⟨_, ⟨q, h2, _⟩, _⟩
  · rw [h1] at h2; simp at h2
  · have : (fins t s'.log).length = 1 := by rw [h2]; rfl
    rw [h1] at this
    simp at this
    rw [h1, this]; rfl

/-- What a task that can have a value has in its frame. -/
theorem holds_frame (s : State) (x t : Nat) (h : All s) (hh : Holds s x t) :
    ∃ v fr, lookup s x = some v ∧ v.handle = some t ∧ s.frames t = some fr ∧ fr.kind = .process ∧
      (fins t s.log = [] ∧ fr.result = none ∨ ∃ r, fins t s.log = [r] ∧ r ≠ .moved ∧
        (fr.result = some r ∧ reads t s.log = [] ∨ ∃ u, r = .value u ∧ fr.result = some .moved ∧ reads t s.log = [u])) := by
  obtain ⟨v, hv, hx, ht, fr, hfr, hk⟩ := hh
  obtain ⟨w, hl⟩ := lookup_of_mem s x v hv hx
  obtain ⟨hw, hwx⟩ := lookup_mem s x w hl
  have e := name_inj _ h.inv.names w v hw hv (hwx.trans hx.symm)
  subst e
  refine ⟨w, fr, hl, ht, hfr, hk, ?_⟩
  by_cases hp : fr.phase = .final
  · obtain ⟨r, h1, _, h2⟩ := h.linv.fin t fr hfr hp
    rcases h.linv.once t with h3 | ⟨_, ⟨q, h3, h4⟩, _⟩
    · rw [h1] at h3; cases h3
    · rw [h1] at h3; cases h3
      exact .inr ⟨r, h1, h4, h2⟩
  · left
    refine ⟨?_, h.bare t fr hfr hp⟩
    rcases h.linv.once t with h3 | ⟨_, _, h4⟩
    · exact h3
    · exact absurd (h4 fr hfr) hp

end Verif.Coro
