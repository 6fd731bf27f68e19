import Verif.StopCount.HandleCan

/-! # C142: copies of stop tokens and sources refer to the same stop state -/

namespace Verif.Stop.Handle

open Count (State Op)

theorem inv_init : Inv init := ⟨⟨rfl, by intro p s h; simp [init] at h⟩, by intro i h p hi; simp [init] at hi⟩

theorem inv_run {w w' : World} {l : List Call} (hw : Inv w) (h : run w l = .ok w') : Inv w' ∧ specRun (abs w) l = some (abs w') := by
  induction l generalizing w with
  | nil => cases h; exact ⟨hw, rfl⟩
  | cons c l ih =>
    obtain ⟨⟨w1, a⟩, h1, h2⟩ := Res.bind_eq_ok.1 h
    obtain ⟨i1, e1⟩ := step_spec hw h1
    obtain ⟨i2, e2⟩ := ih i1 h2
    exact ⟨i2, by simp [specRun, e1, e2]⟩

/-- **C142.**  Sources and tokens are values that name a flag: whatever a program does with them, copying, moving, assigning to
others or to themselves, swapping, comparing, requesting, destroying, the next call does and answers what it does with plain values. -/
theorem c142_values (l : List Call) (w w' : World) (c : Call) (a : Option Bool) (h : run init l = .ok w) (hc : step w c = .ok (w', a)) :
    spec (abs w) c = some (abs w', a) :=
  (step_spec (inv_run inv_init h).1 hc).2

/-- **C142.**  The whole program, too. -/
theorem c142_program (l : List Call) (w : World) (h : run init l = .ok w) : specRun ⟨[], []⟩ l = some (abs w) :=
  (inv_run inv_init h).2

/-- **C142.**  The counts of a stop state are the numbers of its sources and of its tokens and registered callbacks; so it is not
deleted while a source exists, and is deleted when nothing refers to it. -/
theorem c142_counts (l : List Call) (w : World) (p : Nat) (s : State) (h : run init l = .ok w) (hp : w.st[p]? = some s) :
    s.sources = sources w.hs p ∧ s.refs = refs w.hs p ∧
    s.word = (if (abs w).raised p then 1 else 0) + 4 * refs w.hs p + 2 ^ 33 * sources w.hs p ∧
    (sources w.hs p ≠ 0 → s.freed = false) ∧ (sources w.hs p = 0 → refs w.hs p = 0 → s.freed = true) := by
  have hw := (inv_run inv_init h).1
  have hg := hw.good.2 p s hp
  refine ⟨hg.src, hg.ref, ?_, ?_, ?_⟩
  · have := hg.inv.word
    rw [raised_of hp, ← hg.src, ← hg.ref, this]
    simp only [Count.code, hg.held]
    cases s.stop <;> simp
  · rw [← hg.src]; exact hg.keeps
  · intro h1 h2
    cases e : s.freed
    · have := hg.inv.some e
      rw [hg.src, hg.ref] at this
      omega
    · rfl

/-- **C142.**  A callback that is registered was called once if a stop was requested, and not at all otherwise. -/
theorem c142_callbacks (l : List Call) (w : World) (i p n : Nat) (h : run init l = .ok w) (hi : w.hs[i]? = some (some (.cb (some p) n))) :
    n = if (abs w).raised p then 1 else 0 := by
  have hw := (inv_run inv_init h).1
  obtain ⟨b, hb, hn⟩ := hw.named i _ p hi rfl
  have : (abs w).raised p = b := by
    show ((w.st.map (·.stop))[p]? == some true) = b
    rw [hb]; cases b <;> rfl
  rw [this]
  exact hn n rfl

/-- **C142.**  A request that succeeds is seen by all sources and tokens of this stop state at once and by no others, calls its registered
callbacks and no others, and every later request fails. -/
theorem c142_request (l : List Call) (w w' : World) (i p : Nat) (h : run init l = .ok w) (hi : w.hs[i]? = some (some (.src (some p))))
    (hr : step w (.request i) = .ok (w', some true)) :
    (abs w).raised p = false ∧ (∀ q, (abs w').raised q = ((abs w).raised q || q == p)) ∧
    (∀ (j : Nat) (k : Hd), w.hs[j]? = some (some k) → k.ptr = some p → (∃ q n, k = .cb q n) → w'.hs[j]? = some (some (.cb (some p) 1))) ∧
    (∀ (j : Nat) (k : Option Hd), w.hs[j]? = some k → (∀ n, k ≠ some (.cb (some p) n)) → w'.hs[j]? = some k) ∧
    (∀ (j : Nat) w'' a, w'.hs[j]? = some (some (.src (some p))) → step w' (.request j) = .ok (w'', a) → a = some false ∧ abs w'' = abs w') := by
  have hw := (inv_run inv_init h).1
  obtain ⟨hw', e⟩ := step_spec hw hr
  simp only [spec, at_of hi, Option.bind_some] at e
  by_cases hrr : (abs w).raised p = true
  · simp [hrr] at e
  have hrr : (abs w).raised p = false := by simpa using hrr
  simp [hrr] at e
  have hfl : (abs w').flag = (abs w).flag.set p true := by rw [← e]
  have hhs : w'.hs = w.hs.map (View.tell p) := by
    have : (abs w').hs = (abs w).hs.map (View.tell p) := by rw [← e]
    exact this
  obtain ⟨s, hs⟩ := names hw hi (p := p) rfl
  have hlen : p < (abs w).flag.length := by
    have := (List.getElem?_eq_some_iff.1 hs).1
    simpa [abs] using this
  have hraise : ∀ q, (abs w').raised q = ((abs w).raised q || q == p) := by
    intro q
    unfold View.raised
    rw [hfl]
    by_cases eq : q = p
    · subst eq; simp [hlen]
    · rw [List.getElem?_set_ne (by omega)]
      simp [eq]
  refine ⟨hrr, hraise, ?_, ?_, ?_⟩
  · intro j k hj hk hcb
    obtain ⟨q, n, rfl⟩ := hcb
    simp only [Hd.ptr] at hk
    subst hk
    have hn := c142_callbacks l w j p n h hj
    rw [hrr] at hn
    simp at hn
    subst hn
    rw [hhs, List.getElem?_map, hj]
    simp [View.tell]
  · intro j k hj hk
    rw [hhs, List.getElem?_map, hj]
    match k, hk with
    | none, _ => rfl
    | some (.src _), _ => rfl
    | some (.tok _), _ => rfl
    | some (.cb q n), hk =>
      have : q ≠ some p := by intro e; subst e; exact hk n rfl
      simp [View.tell, this]
  · intro j w'' a hj hst
    obtain ⟨_, e2⟩ := step_spec hw' hst
    simp only [spec, at_of hj, Option.bind_some] at e2
    rw [hraise p] at e2
    simp at e2
    exact ⟨e2.2.symm, e2.1.symm⟩

/-- **C142 (partial).**  Every program on existing objects succeeds, without undefined behaviour and with the meaning of plain values, as
long as a token, or a callback that was called, is given up only while a source exists or as the last reference, and fewer than
2^31 - 1 objects exist.  What is missing: without that care there is undefined behaviour (`c142_copies_violated`). -/
theorem c142_no_ub_partial (l : List Call) (v : View) (hc : carefulRun init l = true) (hs : specRun ⟨[], []⟩ l = some v) :
    ∃ w, run init l = .ok w ∧ abs w = v := by
  have key : ∀ l w, Inv w → Live w.st → carefulRun w l = true → specRun (abs w) l = some v → ∃ w', run w l = .ok w' ∧ abs w' = v := by
    intro l
    induction l with
    | nil => intro w _ _ _ h; exact ⟨w, rfl, by simpa [specRun] using h⟩
    | cons c l ih =>
      intro w hw hv hc hs
      simp only [specRun] at hs
      cases e : spec (abs w) c with
      | none => simp [e] at hs
      | some r =>
        simp only [carefulRun, Bool.and_eq_true] at hc
        obtain ⟨⟨w1, a⟩, h1, h2⟩ := step_can hw hv hc.1.1 hc.1.2 e
        obtain ⟨hw1, e1⟩ := step_spec hw h1
        rw [e1] at hs
        obtain ⟨w', h3, h4⟩ := ih w1 hw1 h2 (by have := hc.2; rw [h1] at this; exact this) hs
        exact ⟨w', by simp [run, h1, h3], h4⟩
  exact key l init inv_init (by intro p s h; simp [init] at h) hc hs

/-- **C142 (violated).**  A copy of a token is not independent of the other one: two tokens outlive their source, one of them is
destroyed, and the other one cannot be asked any more. -/
theorem c142_copies_violated : run init [.source, .token 0, .copy 1, .destroy 0, .destroy 1, .requested 2] = .ub := by decide +kernel

/-- **C142 (violated).**  So it is after every program: if two tokens refer to a state that has no source, then destroying one of them and asking the other one is undefined. -/
theorem c142_every_copy_violated (l : List Call) (w : World) (h : run init l = .ok w) (i j p : Nat) (hij : i ≠ j) (hi : w.hs[i]? = some (some (.tok (some p))))
    (hj : w.hs[j]? = some (some (.tok (some p)))) (hs : sources w.hs p = 0) : run w [.destroy i, .requested j] = .ub := by
  have hw := (inv_run inv_init h).1
  obtain ⟨s, hp⟩ := names hw hi rfl
  obtain ⟨h1, h2, h3, _, _⟩ := c142_counts l w p s h hp
  have hg := hw.good.2 p s hp
  have hr : 2 ≤ refs w.hs p := by
    have e1 := refs_set w.hs i _ none p hi
    have e2 : (w.hs.set i none)[j]? = some (some (.tok (some p))) := by rw [List.getElem?_set_ne hij, hj]
    have e3 := (sources_has e2 p).2
    simp [rc, orc] at e1 e3
    omega
  rw [hs] at h1 h3
  have hst : run w [.destroy i, .requested j] = (step w (.destroy i) >>= fun x => run x.1 [.requested j]) := rfl
  rw [hst]
  cases hf : s.freed with
  | true =>
    have : Count.step s .dropToken = .ub := by
      simp only [Count.step, hf, if_true]
      rw [if_neg (by omega)]
    simp [step, get, hi, dropRef, acc, hp, this]
  | false =>
    have hlim := hg.inv.refs
    let s' : State := { s with word := Count.fetchSub s.word Count.tokenInc, freed := Count.less s.word (Count.tokenInc + Count.sourceInc), refs := s.refs - 1 }
    have hl : Count.less s.word (Count.tokenInc + Count.sourceInc) = true := by
      have hb : (if (abs w).raised p = true then 1 else 0) ≤ 1 := by split <;> omega
      exact decide_eq_true (by rw [h3]; simp only [Count.tokenInc, Count.sourceInc]; omega)
    have h4 : Count.step s .dropToken = .ok s' := by
      simp only [Count.step, hf, Bool.false_eq_true, if_false]
      rw [if_pos ⟨by omega, by simp [Count.lastOne, hg.held]⟩]
    have h5 : step w (.destroy i) = .ok ({ st := w.st.set p s', hs := w.hs.set i none }, none) := by
      simp [step, get, hi, dropRef, acc, hp, h4, put]
    have h6 : (w.st.set p s')[p]? = some s' := get_set_self hp
    have h7 : (w.hs.set i none)[j]? = some (some (.tok (some p))) := by rw [List.getElem?_set_ne hij, hj]
    have h8 : Count.step s' .ask = .ub := by
      have : s'.freed = true := hl
      simp only [Count.step, this, if_true]
      rw [if_neg]
      intro hc
      have : s.refs - 1 = 0 := hc.2.1
      omega
    rw [h5]
    simp [run, step, get, h7, word, acc, h6, h8]

-- Non-vacuity: three tokens, of which one is registered with a callback; the source has requested a stop and is destroyed.
example : ∃ w, run init [.source, .token 0, .copy 1, .copy 2, .request 0, .callback 3 false, .destroy 0] = .ok w ∧ w.hs[1]? = some (some (.tok (some 0))) ∧ w.hs[3]? = some (some (.tok (some 0))) ∧
    sources w.hs 0 = 0 := ⟨_, rfl, by decide +kernel, by decide +kernel, by decide +kernel⟩

/-- **C142 (violated).**  The same happens when a token is assigned by a move from a copy of itself, and when it is assigned another value. -/
theorem c142_assign_violated :
    run init [.source, .token 0, .copy 1, .destroy 0, .moveAssign 1 2, .requested 1] = .ub ∧
    run init [.source, .token 0, .copy 1, .destroy 0, .noToken, .assign 1 3, .requested 2] = .ub := by decide +kernel

-- copies, moves and assignments among two stop states, callbacks of both kinds, a request through a copy, and everything is destroyed
def sampleCalls : List Call :=
  [.source, .source, .token 0, .copy 2, .token 1, .callback 2 false, .callback 4 true, .copy 0, .moveAssign 1 7, .swap 2 3, .assign 2 2, .moveAssign 3 3,
   .request 1, .request 0, .requested 2, .same 2 3, .callback 3 false]

example : carefulRun init sampleCalls = true := by decide +kernel

-- objects 5 and 8 were called once (the second at once), object 6 belongs to the second stop state and was not
example : (specRun ⟨[], []⟩ sampleCalls).map (fun v => (v.flag, v.hs)) =
    some ([true, false], [some (.src (some 0)), some (.src (some 0)), some (.tok (some 0)), some (.tok (some 0)), some (.tok none), some (.cb (some 0) 1),
      some (.cb (some 1) 0), some (.src none), some (.cb none 1)]) := by decide +kernel

-- after the destruction of all objects both stop states are deleted
example : (match run init (sampleCalls ++ [.destroy 8, .destroy 7, .destroy 6, .destroy 5, .destroy 4, .destroy 3, .destroy 2, .destroy 1, .destroy 0]) with
    | .ok w => w.st.map (·.freed)
    | _ => []) = [true, true] := by decide +kernel

-- the state of the example of the request
example : ∃ w w', run init [.source, .token 0, .callback 1 false, .source] = .ok w ∧ w.hs[0]? = some (some (.src (some 0))) ∧
    step w (.request 0) = .ok (w', some true) := by
  refine ⟨⟨[⟨2 ^ 33 + 8, false, 1, 2, false, false⟩, Count.init], [some (.src (some 0)), some (.tok (some 0)), some (.cb (some 0) 0), some (.src (some 1))]⟩,
    ⟨[⟨2 ^ 33 + 9, false, 1, 2, false, true⟩, Count.init], [some (.src (some 0)), some (.tok (some 0)), some (.cb (some 0) 1), some (.src (some 1))]⟩, ?_, rfl, ?_⟩ <;>
  decide +kernel

end Verif.Stop.Handle
