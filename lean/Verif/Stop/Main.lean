import Verif.Stop.Log2
import Verif.Stop.Spec

namespace Verif.Stop

structure Inv (s : State) : Prop where
  i1 : Inv1 s
  i2 : Inv2 s
  i3 : Inv3 s
  i4 : Inv4 s

theorem inv_init : Inv init := ⟨inv1_init, inv2_init, inv3_init, inv4_init⟩

theorem inv_tr (s s' : State) (t : Nat) (h : Inv s) (hs : Tr s t s') : Inv s' :=
  ⟨inv1_step s s' t h.i1 hs, inv2_step s s' t h.i1 h.i2 hs, inv3_step s s' t h.i1 h.i2 h.i3 hs, inv4_step s s' t h.i1 h.i2 h.i3 h.i4 hs⟩

theorem inv_run (l : List (Nat × Act)) (s s' : State) (h : Inv s) (hr : run s l = .ok s') : Inv s' := by
  induction l generalizing s with
  | nil => cases hr; exact h
  | cons x l ih =>
    obtain ⟨t, a⟩ := x
    obtain ⟨s1, h1, h2⟩ := Res.bind_eq_ok.1 hr
    exact ih s1 (inv_tr s s1 t h (step_tr s s1 t a h1)) h2

theorem listed_ok (s : State) (h : Inv s) : listed s = true := by
  simp only [listed, List.all_eq_true]
  intro c hc
  obtain ⟨r, hr, _⟩ := h.i2.q c hc
  simp [hr]

theorem markRemoved_some (c : Nat) (st : List UFrame) (m b : Bool) (h : .call c m b ∈ st) : markRemoved c st ≠ none := by
  induction st with
  | nil => cases h
  | cons f st ih =>
    cases f with
    | inline d =>
      simp only [List.mem_cons, reduceCtorEq, false_or] at h
      simp [markRemoved, ih h]
    | call d m' b' =>
      simp only [markRemoved]
      split
      · simp
      · rcases List.mem_cons.1 h with e | h
        · cases e; contradiction
        · simp [ih h]

theorem mark_stack (s : State) (h : Inv s) (t c : Nat) (r : Rec) (hp : (s.threads t).pc = .remCheck c) (hs : s.sig = some t)
    (hc : s.cbs c = some r) (hm : r.mark = true) : ∃ m b, .call c m b ∈ (s.threads t).stack := by
  obtain ⟨w, m, hw⟩ := h.i2.mark c r hc hm
  have h1 := h.i1.sig t hs
  have h2 : w = t := by
    rcases hw with hw | hw | hw
    · have := (call_win s h.i1 w c m false hw).1; grind
    · have := h.i1.win w (by rw [hw]; rfl); grind
    · have := (call_win s h.i1 w c m true hw.1).1; grind
  subst h2
  rcases hw with hw | hw | hw
  · exact ⟨m, false, hw⟩
  · rw [hp] at hw; cases hw
  · exact ⟨m, true, hw.1⟩

theorem go_no_ub (s : State) (t : Nat) (p : Pc) (h : Inv s) (hp : (s.threads t).pc = p) : advance s t p ≠ .ub := by
  have hl := listed_ok s h
  cases p with
  | stopTry => 
    simp only [advance]
    repeat' split
    all_goals simp
  | stopHead => simp only [advance, hl, if_true]; split <;> simp
  | stopMark c m =>
    obtain ⟨r, hr, _⟩ := h.i2.take t c (by rw [hp]; rfl)
    simp [advance, hr]
  | stopAfter c m b =>
    simp only [advance]
    cases b with
    | true => simp
    | false =>
      obtain ⟨r, hr, _⟩ := h.i2.run t c m (.inr hp)
      simp [hr]
  | stopRelock => simp only [advance]; split <;> simp
  | addTry c =>
    obtain ⟨r, hr, _⟩ := h.i2.tries t c (by rw [hp]; rfl)
    simp only [advance, hr]
    repeat' split
    all_goals simp
  | addPush c =>
    obtain ⟨r, hr, _⟩ := h.i2.tries t c (by rw [hp]; rfl)
    simp [advance, hr, hl]
  | addRet c =>
    obtain ⟨r, hr, _⟩ := h.i2.pushes t c (by rw [hp]; rfl)
    simp [advance, hr]
  | remLock c => simp only [advance]; split <;> simp
  | remHave c =>
    obtain ⟨r, hr, _⟩ := h.i2.rem t c (by rw [hp]; rfl)
    simp only [advance, hr, hl]
    split <;> simp
  | remCheck c =>
    obtain ⟨r, hr, _⟩ := h.i2.rem t c (by rw [hp]; rfl)
    simp only [advance, hr]
    split
    · rename_i e
      split
      · rename_i em
        obtain ⟨m, b, hm⟩ := mark_stack s h t c r hp e hr em
        have := markRemoved_some c _ m b hm
        split
        · contradiction
        · simp
      · simp
    · simp
  | remWait c =>
    obtain ⟨r, hr, _⟩ := h.i2.rem t c (by rw [hp]; rfl)
    simp only [advance, hr]
    split <;> simp
  | _ => simp [advance]

theorem step_no_ub (s : State) (t : Nat) (a : Act) (h : Inv s) : step s t a ≠ .ub := by
  cases a with
  | go => exact go_no_ub s t _ h rfl
  | ret =>
    simp only [step]
    split
    · split
      · simp
      · simp
      · rename_i c st e
        obtain ⟨r, hr, _⟩ := h.i2.inl t c (by rw [e]; simp)
        simp [hr]
    · simp
  | destroy c =>
    simp only [step]
    repeat' split
    all_goals simp
  | _ => simp only [step]; split <;> simp

theorem wins_eq (s : State) : wins s = s.log.countP isWon := by
  rw [wins, List.countP_eq_length_filter]
  rfl

theorem calls_eq (s : State) (c : Nat) : calls s c = s.log.countP (isStart c) := by
  rw [calls, List.countP_eq_length_filter]
  rfl

theorem dead_tr (s s' : State) (t c : Nat) (h : Inv s) (hs : Tr s t s') (hn : s.cbs c = none) (hl : c < s.next) :
    s'.cbs c = none ∧ c < s'.next ∧ ∀ v, .started c v ∈ s'.log → .started c v ∈ s.log := by
  have h1 := h.i2.take t
  have h2 := h.i2.tries t
  refine ⟨?_, ?_, ?_⟩
  · cases hs <;> grind
  · cases hs <;> grind
  · intro v
    cases hs <;> (known t at h1 h2) <;> grind

end Verif.Stop
