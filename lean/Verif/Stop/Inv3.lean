import Verif.Stop.Inv2

namespace Verif.Stop

theorem gone_step (s s' : State) (t : Nat) (k : Inv1 s) (h : Inv2 s) (hs : Tr s t s') :
    ∀ t c m, .call c m true ∈ (s'.threads t).stack → s'.cbs c = none ∨ (s'.threads t).pc = .remRet c := by
  intro u d m hd
  have h1 := h.gone u d m
  have h2 := h.tries t
  have h3 := h.lt u d m true
  have h4 := h.take t
  have h7 := h.pushes t
  have hi := h.inl t
  have hv := call_win s k u d m
  have hw' := k.win t
  have h5 := h.run t
  have h9 := h.rem u d
  have hm := mark_call s t
  have h0 := h.rem t
  have h00 := h.dying d
  cases hs <;> (known t at h2 h4 h7 h0) <;> by_cases e : u = t <;> grind

theorem gone'_step (s s' : State) (t : Nat) (k : Inv1 s) (h : Inv2 s) (hs : Tr s t s') :
    ∀ t c m, (s'.threads t).pc = .stopAfter c m true → s'.cbs c = none := by
  intro u d m hd
  have h1 := h.gone' u d m
  have h0 := h.gone t d m
  have h2 := h.tries t
  have h3 := h.lt u d m true
  have h4 := h.take t
  have h7 := h.pushes t
  have hi := h.inl t
  have hw := k.win u
  have h5 := h.run t
  have h9 := h.rem t
  cases hs <;> (known t at h2 h4 h7 h9) <;> by_cases e : u = t <;> grind

theorem lt_step (s s' : State) (t : Nat) (k : Inv1 s) (h : Inv2 s) (hs : Tr s t s') :
    ∀ t c m b, .call c m b ∈ (s'.threads t).stack ∨ (s'.threads t).pc = .stopAfter c m b → c < s'.next := by
  intro u d m b hd
  have h1 := h.lt u d m
  have h3 := h.bound d
  have h4 := h.take t
  have hm := mark_call s t
  cases hs <;> (known t at h4) <;> by_cases e : u = t <;> grind

theorem mark_step (s s' : State) (t : Nat) (k : Inv1 s) (h : Inv2 s) (hs : Tr s t s') :
    ∀ c r, s'.cbs c = some r → r.mark = true → ∃ t m, .call c m false ∈ (s'.threads t).stack ∨ (s'.threads t).pc = .stopAfter c m false ∨ .call c m true ∈ (s'.threads t).stack ∧ (s'.threads t).pc = .remRet c := by
  intro d x hd hr
  have h1 := h.mark d
  have h4 := h.take t
  have h5 := h.run t
  have hm := mark_call s t
  have h2 := h.tries t
  have hi := h.inl t
  have h7 := h.pushes t
  have h0 := h.unreg d
  cases hs with
  | start c m r a1 a2 =>
    by_cases e : d = c
    · exact ⟨t, m, by grind⟩
    · obtain ⟨w, m', hw⟩ := h1 x (by grind) hr
      exact ⟨w, m', by grind⟩
  | self c r st a1 a2 a3 a4 a5 =>
    obtain ⟨w, m, hw⟩ := h1 x hd hr
    obtain ⟨⟨m', b', c1, c2⟩, c3⟩ := hm c st k a5
    by_cases e : d = c
    · exact ⟨t, m', by grind⟩
    · have := call_win s k w d m
      have := call_win s k t c m'
      have := call_one _ (k.count t) c d m' m
      have := k.win w
      exact ⟨w, m, by grind⟩
  | _ =>
    rcases hy : s.cbs d with _ | y
    · exfalso; (known t at h2 h4 h7); grind
    · have hz : y.mark = true := by (known t at h2 h4 h7); grind
      obtain ⟨w, m, hw⟩ := h1 y hy hz
      refine ⟨w, m, ?_⟩
      have := call_win s k w d m
      (known t at h2 h4 h7)
      by_cases e : w = t <;> grind

theorem sure_off (p : Pc) (c : Nat) (h : sure p = some c) : offList p = some c := by
  cases p <;> simp_all [sure, offList]

theorem sure_step1 (s s' : State) (t : Nat) (k : Inv1 s) (h : Inv2 s) (hs : Tr s t s') :
    ∀ t c, sure (s'.threads t).pc = some c → ∀ u, taken (s'.threads u).pc ≠ some c := by
  intro u d hd u'
  have h1 := fun e => h.sure u d e u' true
  have hr := sure_off (s.threads u).pc d
  have h2 := h.off u d
  have h3 := h.take u' d
  have h4 := h.run u' d true
  have hm := mark_call s t
  have h6 := call_win s k u' d true
  have h7 := h.off t
  have h8 := k.sig t
  have h9 := k.win u'
  have h10 := taken_win (s.threads u').pc d
  cases hs <;> (known t at h7) <;> by_cases e : u = t <;> by_cases e' : u' = t <;> grind

theorem sure_step2 (s s' : State) (t : Nat) (k : Inv1 s) (h : Inv2 s) (hs : Tr s t s') :
    ∀ t c, sure (s'.threads t).pc = some c → ∀ u m, (s'.threads u).pc ≠ .stopAfter c m false := by
  intro u d hd u' m
  have h1 := fun e => h.sure u d e u' m
  have hr := sure_off (s.threads u).pc d
  have h2 := h.off u d
  have h3 := h.take u' d
  have h4 := h.run u' d m
  have hm := mark_call s t
  have h6 := call_win s k u' d m
  have h7 := h.off t
  have h8 := k.sig t
  have h9 := k.win u'
  have h10 := taken_win (s.threads u').pc d
  cases hs <;> (known t at h7) <;> by_cases e : u = t <;> by_cases e' : u' = t <;> grind

theorem sure_step3 (s s' : State) (t : Nat) (k : Inv1 s) (h : Inv2 s) (hs : Tr s t s') :
    ∀ t c, sure (s'.threads t).pc = some c → ∀ u m, .call c m false ∉ (s'.threads u).stack := by
  intro u d hd u' m
  have h1 := fun e => h.sure u d e u' m
  have hr := sure_off (s.threads u).pc d
  have h2 := h.off u d
  have h3 := h.take u' d
  have h4 := h.run u' d m
  have hm := mark_call s t
  have h6 := call_win s k u' d m
  have h7 := h.off t
  have h8 := k.sig t
  have h9 := k.win u'
  have h10 := taken_win (s.threads u').pc d
  cases hs <;> (known t at h7) <;> by_cases e : u = t <;> by_cases e' : u' = t <;> grind

theorem inv2_step (s s' : State) (t : Nat) (k : Inv1 s) (h : Inv2 s) (hs : Tr s t s') : Inv2 s' where
  nodup := nodup_step s s' t h hs
  bound := bound_step s s' t h hs
  q := q_step s s' t h hs
  tries := tries_step s s' t h hs
  pushes := pushes_step s s' t h hs
  inl := inl_step s s' t k h hs
  inl1 := inl1_step s s' t k h hs
  unreg := unreg_step s s' t h hs
  dying := dying_step s s' t h hs
  rem := rem_step s s' t h hs
  off := off_step s s' t h hs
  take := take_step s s' t k h hs
  run := by
    intro u d m hd
    rcases hx : s'.cbs d with _ | x
    · exact absurd hx (run_step_none s s' t k h hs u d m hd)
    · exact ⟨x, rfl, run_step_some s s' t k h hs u d m hd x hx⟩
  gone := gone_step s s' t k h hs
  gone' := gone'_step s s' t k h hs
  lt := lt_step s s' t k h hs
  mark := mark_step s s' t k h hs
  sure := fun u d hd v m => ⟨sure_step1 s s' t k h hs u d hd v, sure_step2 s s' t k h hs u d hd v m, sure_step3 s s' t k h hs u d hd v m⟩

theorem inv2_init : Inv2 init := by
  constructor <;> simp [init, trying, pushed, removing, offList, taken, sure]

end Verif.Stop
