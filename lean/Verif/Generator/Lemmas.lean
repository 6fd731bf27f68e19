import Verif.Generator.Spec

namespace Verif.Generator

variable {σ α β : Type}

def alive : Frame σ α → Bool
  | .dead => false
  | _ => true

theorem seen_cons (log : List (Nat × Ans α)) (h k : Nat) (a : Ans α) :
    seen ((h, a) :: log) k = if h = k then seen log k ++ [a] else seen log k := by
  simp only [seen, List.filter_cons]
  split <;> simp_all

/-- From `x`, after the answers `l`, the coroutine is at `f`. -/
def Fits (body : σ → Next σ α) (x : σ) (l : List (Ans α)) (f : Frame σ α) : Prop :=
  match f with
  | .susp v s => (∀ n, trace body (l.length + n) x = l ++ trace body n s) ∧ l.getLast? = v.map .got
  | .done e => (∀ n, trace body (l.length + n) x = l) ∧ l.getLast? = some (answer (.done e : Frame σ α))
  | .dead => trace body l.length x = l

theorem fits_dead (body : σ → Next σ α) (x : σ) (l : List (Ans α)) (f : Frame σ α) (h : Fits body x l f) : trace body l.length x = l := by
  cases f with
  | susp v s => have := h.1 0; simpa [trace] using this
  | done e => have := h.1 0; simpa using this
  | dead => exact h

theorem fits_resume (body : σ → Next σ α) (x : σ) (l : List (Ans α)) (f f' : Frame σ α) (h : Fits body x l f) (hr : resume body f = .ok f') :
    Fits body x (l ++ [answer f']) f' := by
  cases f with
  | done e => cases hr
  | dead => cases hr
  | susp v s =>
    have h1 := h.1
    have h2 : ∀ n, trace body (l.length + 1 + n) x = l ++ trace body (n + 1) s := by
      intro n; rw [show l.length + 1 + n = l.length + (n + 1) by omega]; exact h1 (n + 1)
    simp only [resume] at hr
    cases hb : body s with
    | yield a s' =>
      rw [hb] at hr; cases hr
      refine ⟨fun n => ?_, by simp [answer]⟩
      simp only [List.length_append, List.length_singleton]
      rw [h2 n]; simp [trace, hb, answer]
    | ret =>
      rw [hb] at hr; cases hr
      refine ⟨fun n => ?_, by simp⟩
      simp only [List.length_append, List.length_singleton]
      rw [h2 n]; simp [trace, hb, answer]
    | throw e =>
      rw [hb] at hr; cases hr
      refine ⟨fun n => ?_, by simp⟩
      simp only [List.length_append, List.length_singleton]
      rw [h2 n]; simp [trace, hb, answer]
    | ub => rw [hb] at hr; cases hr

theorem resume_alive (body : σ → Next σ α) (f f' : Frame σ α) (hr : resume body f = .ok f') : alive f = true ∧ alive f' = true := by
  cases f with
  | done e => cases hr
  | dead => cases hr
  | susp v s =>
    simp only [resume] at hr
    split at hr <;> cases hr <;> exact ⟨rfl, rfl⟩

structure Inv (body : σ → Next σ α) (s : State σ α) : Prop where
  fresh : ∀ h, s.count ≤ h → alive (s.frames h) = false ∧ seen s.log h = []
  fits : ∀ h, h < s.count → ∃ x, s.start h = some x ∧ Fits body x (seen s.log h) (s.frames h)
  own : ∀ g h, s.gens g = some (some h) → h < s.count ∧ alive (s.frames h) = true
  uniq : ∀ g g' h, s.gens g = some (some h) → s.gens g' = some (some h) → g = g'
  all : ∀ h, alive (s.frames h) = true → ∃ g, s.gens g = some (some h)
  it : ∀ i h, s.iters i = some (some h) → h < s.count ∧ seen s.log h ≠ []

theorem inv_init (body : σ → Next σ α) : Inv body (init : State σ α) := by
  constructor
  · intro h _; exact ⟨rfl, rfl⟩
  · intro h hh; exact absurd hh (Nat.not_lt_zero h)
  · intro g h hh; cases hh
  · intro g g' h hh; cases hh
  · intro h hh; cases hh
  · intro i h hh; cases hh

theorem inv_advance (body : σ → Next σ α) (s s' : State σ α) (h : Nat) (a : Ans α) (hi : Inv body s) (hs : advance body s h = .ok (s', a)) :
    Inv body s' ∧ s'.gens = s.gens ∧ s'.iters = s.iters ∧ s'.count = s.count ∧ h < s'.count ∧ s'.log = (h, a) :: s.log ∧ last s'.log h = some a := by
  simp only [advance] at hs
  cases hr : resume body (s.frames h) with
  | ub => rw [hr] at hs; cases hs
  | throw e => rw [hr] at hs; cases hs
  | ok f =>
    rw [hr] at hs; simp only [Res.ok_bind] at hs; cases hs
    have hal := resume_alive body _ _ hr
    have hlt : h < s.count := by
      rcases Nat.lt_or_ge h s.count with h1 | h1
      · exact h1
      · have := (hi.fresh h h1).1; rw [hal.1] at this; cases this
    refine ⟨⟨?_, ?_, ?_, hi.uniq, ?_, ?_⟩, rfl, rfl, rfl, hlt, rfl, ?_⟩
    · intro k hk
      have hne : ¬ h = k := by simp only at hk; omega
      have hne' : ¬ k = h := fun e => hne e.symm
      simp only [upd, seen_cons, if_neg hne, if_neg hne']
      exact hi.fresh k hk
    · intro k hk
      simp only [upd, seen_cons]
      obtain ⟨x, h1, h2⟩ := hi.fits k hk
      refine ⟨x, h1, ?_⟩
      by_cases e : h = k
      · subst e; simp only [if_true]; exact fits_resume body x _ _ _ h2 hr
      · rw [if_neg e, if_neg (fun e' => e e'.symm)]; exact h2
    · intro g k hg
      have := hi.own g k hg
      simp only [upd]
      split
      · exact ⟨this.1, hal.2⟩
      · exact this
    · intro k hk
      simp only [upd] at hk
      by_cases e : k = h
      · subst e; exact hi.all k hal.1
      · rw [if_neg e] at hk; exact hi.all k hk
    · intro i k hk
      have := hi.it i k hk
      refine ⟨this.1, ?_⟩
      simp only [seen_cons]; split
      · simp
      · exact this.2
    · simp [last, seen_cons]

theorem inv_release (body : σ → Next σ α) (s s' : State σ α) (c : Option Nat)
    (fresh : ∀ h, s.count ≤ h → alive (s.frames h) = false ∧ seen s.log h = [])
    (fits : ∀ h, h < s.count → ∃ x, s.start h = some x ∧ Fits body x (seen s.log h) (s.frames h))
    (own : ∀ g h, s.gens g = some (some h) → h < s.count ∧ alive (s.frames h) = true)
    (uniq : ∀ g g' h, s.gens g = some (some h) → s.gens g' = some (some h) → g = g')
    (all : ∀ h, alive (s.frames h) = true → c = some h ∨ ∃ g, s.gens g = some (some h))
    (it : ∀ i h, s.iters i = some (some h) → h < s.count ∧ seen s.log h ≠ [])
    (mine : ∀ h, c = some h → ∀ g, s.gens g ≠ some (some h))
    (hs : release s c = .ok s') : Inv body s' := by
  cases c with
  | none =>
    cases hs
    exact ⟨fresh, fits, own, uniq, fun h ha => (all h ha).resolve_left (by simp), it⟩
  | some h =>
    simp only [release] at hs
    have hs' : { s with frames := upd s.frames h .dead } = s' := by
      split at hs <;> cases hs; rfl
    subst hs'
    have hd : alive (.dead : Frame σ α) = false := rfl
    refine ⟨?_, ?_, ?_, uniq, ?_, it⟩
    · intro k hk
      simp only [upd]; split
      · exact ⟨rfl, (fresh k hk).2⟩
      · exact fresh k hk
    · intro k hk
      obtain ⟨x, h1, h2⟩ := fits k hk
      refine ⟨x, h1, ?_⟩
      simp only [upd]; split
      · exact fits_dead body x _ _ h2
      · exact h2
    · intro g k hg
      have h1 := own g k hg
      have h2 : k ≠ h := by rintro rfl; exact mine k rfl g hg
      simp only [upd, if_neg h2]; exact h1
    · intro k hk
      simp only [upd] at hk
      by_cases e : k = h
      · rw [if_pos e] at hk; cases hk
      · rw [if_neg e] at hk
        rcases all k hk with h1 | h1
        · injection h1 with h1; exact absurd h1.symm e
        · exact h1

theorem inv_gens (body : σ → Next σ α) (s : State σ α) (gens : Nat → Option (Option Nat)) (hi : Inv body s)
    (own : ∀ g h, gens g = some (some h) → h < s.count ∧ alive (s.frames h) = true)
    (uniq : ∀ g g' h, gens g = some (some h) → gens g' = some (some h) → g = g')
    (all : ∀ h, alive (s.frames h) = true → ∃ g, gens g = some (some h)) : Inv body { s with gens := gens } :=
  ⟨hi.fresh, hi.fits, own, uniq, all, hi.it⟩

theorem inv_step (body : σ → Next σ α) (s s' : State σ α) (a : Act σ) (r : Ans α) (hi : Inv body s) (hs : step body s a = .ok (s', r)) : Inv body s' := by
  cases a with
  | create g x =>
    simp only [step] at hs
    split at hs
    · rename_i hg; cases hs
      refine ⟨?_, ?_, ?_, ?_, ?_, ?_⟩
      · intro h hh
        have : h ≠ s.count := by simp only at hh; omega
        simp only [upd, if_neg this]
        exact hi.fresh h (by simp only at hh; omega)
      · intro h hh
        by_cases e : h = s.count
        · subst e
          refine ⟨x, by simp [upd], ?_⟩
          simp only [upd, if_true, (hi.fresh _ (Nat.le_refl _)).2]
          exact ⟨fun n => by simp, rfl⟩
        · simp only [upd, if_neg e]; exact hi.fits h (by simp only at hh; omega)
      · intro k h hk
        simp only [upd] at hk ⊢
        split at hk
        · cases hk; simp [alive]
        · have := hi.own k h hk
          rw [if_neg (by omega)]; exact ⟨by omega, this.2⟩
      · intro k k' h h1 h2
        simp only [upd] at h1 h2
        have e1 := hi.own k h
        have e2 := hi.own k' h
        have e3 := hi.uniq k k' h
        grind
      · intro h hh
        simp only [upd] at hh ⊢
        by_cases e : h = s.count
        · exact ⟨g, by simp [e]⟩
        · rw [if_neg e] at hh
          obtain ⟨k, hk⟩ := hi.all h hh
          refine ⟨k, ?_⟩
          rw [if_neg (by rintro rfl; rw [hg] at hk; cases hk)]; exact hk
      · intro i h hh
        have := hi.it i h hh
        exact ⟨by simp only; omega, this.2⟩
    · cases hs
  | empty g =>
    simp only [step] at hs
    split at hs
    · rename_i hg; cases hs
      refine inv_gens body s _ hi ?_ ?_ ?_
      · intro k h; have := hi.own k h; simp only [upd]; grind
      · intro k k' h; have := hi.uniq k k' h; simp only [upd]; grind
      · intro h hh
        obtain ⟨k, hk⟩ := hi.all h hh
        exact ⟨k, by simp only [upd]; rw [if_neg (by rintro rfl; rw [hg] at hk; cases hk)]; exact hk⟩
    · cases hs
  | move g h =>
    simp only [step] at hs
    split at hs
    · rename_i c hg hh; cases hs
      have hgh : g ≠ h := by rintro rfl; rw [hg] at hh; cases hh
      refine inv_gens body s _ hi ?_ ?_ ?_
      · intro k x; have := hi.own k x; have := hi.own h x; simp only [upd]; grind
      · intro k k' x; have := hi.uniq k k' x; have := hi.uniq h k x; have := hi.uniq h k' x; simp only [upd]; grind
      · intro x hx
        obtain ⟨k, hk⟩ := hi.all x hx
        by_cases e : k = h
        · subst e; exact ⟨g, by simp only [upd]; rw [if_neg hgh, if_pos trivial, ← hh, hk]⟩
        · exact ⟨k, by simp only [upd]; rw [if_neg e, if_neg (by rintro rfl; rw [hg] at hk; cases hk)]; exact hk⟩
    · cases hs
  | swap g h =>
    simp only [step] at hs
    split at hs
    · rename_i c d hg hh; cases hs
      refine inv_gens body s _ hi ?_ ?_ ?_
      · intro k x; have := hi.own k x; have := hi.own h x; have := hi.own g x; simp only [upd]; grind
      · intro k k' x
        have := hi.uniq k k' x; have := hi.uniq h k x; have := hi.uniq h k' x; have := hi.uniq g k x; have := hi.uniq g k' x
        have := hi.uniq g h x
        simp only [upd]; grind
      · intro x hx
        obtain ⟨k, hk⟩ := hi.all x hx
        by_cases e : k = h
        · subst e
          by_cases e2 : g = k
          · subst e2; exact ⟨g, by simp only [upd]; grind⟩
          · exact ⟨g, by simp only [upd]; grind⟩
        · by_cases e2 : k = g
          · subst e2; exact ⟨h, by simp only [upd]; grind⟩
          · exact ⟨k, by simp only [upd]; grind⟩
    · cases hs
  | assign g h =>
    simp only [step] at hs
    split at hs
    · rename_i b c hg hh
      by_cases e : g = h
      · subst e
        simp only [upd, if_true, release, Res.ok_bind] at hs
        cases hs
        refine inv_gens body s _ hi ?_ ?_ ?_
        · intro k x; have := hi.own k x; simp only [upd]; grind
        · intro k k' x; have := hi.uniq k k' x; simp only [upd]; grind
        · intro x hx
          obtain ⟨k, hk⟩ := hi.all x hx
          exact ⟨k, by simp only [upd]; grind⟩
      · have e' : ¬ h = g := fun x => e x.symm
        simp only [upd, if_neg e, hg] at hs
        rw [Res.bind_eq_ok] at hs
        obtain ⟨s2, h1, h2⟩ := hs
        cases h2
        refine inv_release body _ _ _ ?_ ?_ ?_ ?_ ?_ ?_ ?_ h1
        · exact hi.fresh
        · exact hi.fits
        · intro k x; have := hi.own k x; have := hi.own h x; simp only [upd]; grind
        · intro k k' x; have := hi.uniq k k' x; have := hi.uniq h k x; have := hi.uniq h k' x; simp only [upd]; grind
        · intro x hx
          obtain ⟨k, hk⟩ := hi.all x hx
          by_cases e2 : k = g
          · left; subst e2; rw [hg] at hk; injection hk
          · right
            by_cases e3 : k = h
            · exact ⟨g, by simp only [upd]; grind⟩
            · exact ⟨k, by simp only [upd]; grind⟩
        · exact hi.it
        · intro x hx k hk
          have := hi.uniq g k x; have := hi.uniq g h x
          simp only [upd] at hk; grind
    · cases hs
  | destroy g =>
    simp only [step] at hs
    split at hs
    · rename_i c hg
      rw [Res.bind_eq_ok] at hs
      obtain ⟨s2, h1, h2⟩ := hs
      cases h2
      refine inv_release body _ _ _ ?_ ?_ ?_ ?_ ?_ ?_ ?_ h1
      · exact hi.fresh
      · exact hi.fits
      · intro k x; have := hi.own k x; simp only [upd]; grind
      · intro k k' x; have := hi.uniq k k' x; simp only [upd]; grind
      · intro x hx
        obtain ⟨k, hk⟩ := hi.all x hx
        by_cases e2 : k = g
        · left; subst e2; rw [hg] at hk; injection hk
        · right; exact ⟨k, by simp only [upd]; grind⟩
      · exact hi.it
      · intro x hx k hk
        have := hi.uniq g k x
        simp only [upd] at hk; grind
    · cases hs
  | begin g i =>
    simp only [step] at hs
    split at hs
    · cases hs
      refine ⟨hi.fresh, hi.fits, hi.own, hi.uniq, hi.all, ?_⟩
      intro j h hj
      simp only [upd] at hj
      split at hj
      · cases hj
      · exact hi.it j h hj
    · rename_i h hg
      rw [Res.bind_eq_ok] at hs
      obtain ⟨⟨s1, b⟩, h1, h2⟩ := hs
      obtain ⟨i1, -, -, -, hlt, hlog, hlast⟩ := inv_advance body s s1 h b hi h1
      simp only at h2
      split at h2
      · cases h2; exact i1
      · cases h2
        refine ⟨i1.fresh, i1.fits, i1.own, i1.uniq, i1.all, ?_⟩
        intro j k hj
        simp only [upd] at hj
        split at hj
        · cases hj
          refine ⟨hlt, ?_⟩
          simp only [hlog, seen_cons, if_true]; simp
        · exact i1.it j k hj
    · cases hs
  | inc i =>
    simp only [step] at hs
    split at hs
    · exact (inv_advance body s s' _ r hi hs).1
    · cases hs
    · cases hs
  | deref i =>
    simp only [step] at hs
    (repeat' split at hs) <;> cases hs; exact hi
  | atEnd i =>
    simp only [step] at hs
    (repeat' split at hs) <;> cases hs <;> exact hi

theorem inv_run (body : σ → Next σ α) (l : List (Act σ)) : ∀ (s s' : State σ α), Inv body s → run body s l = .ok s' → Inv body s' := by
  induction l with
  | nil => intro s s' hi h; cases h; exact hi
  | cons a l ih =>
    intro s s' hi h
    rw [run, Res.bind_eq_ok] at h
    obtain ⟨⟨s1, r⟩, h1, h2⟩ := h
    exact ih s1 s' (inv_step body s s1 a r hi h1) h2

end Verif.Generator
