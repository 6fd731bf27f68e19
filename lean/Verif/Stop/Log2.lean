import Verif.Stop.Log

namespace Verif.Stop

/-- Taken from the list or being called. -/
def Handling (x : Thread) (c : Nat) : Prop := taken x.pc = some c ∨ ∃ m b, .call c m b ∈ x.stack

/-- Taken from the list, being called, or about to be marked as finished. -/
def Serving (x : Thread) (c : Nat) : Prop :=
  taken x.pc = some c ∨ ∃ m, .call c m false ∈ x.stack ∨ x.pc = .stopAfter c m false

/-- Which callbacks are called. -/
structure Inv4 (s : State) : Prop where
  ran : ∀ t c m b, .call c m b ∈ (s.threads t).stack → .started c t ∈ s.log
  ran' : ∀ t c, .inline c ∈ (s.threads t).stack → .started c t ∈ s.log
  ended : ∀ c t, .ended c t ∈ s.log → .started c t ∈ s.log
  reg : ∀ c, .registered c ∈ s.log → c ∈ s.queue ∨ .unlinked c ∈ s.log ∨ (∃ u, .ended c u ∈ s.log) ∨
    ∃ w, s.winner = some w ∧ Handling (s.threads w) c
  built : ∀ c r, s.cbs c = some r → r.stage = .pushed ∨ r.reg = true → .registered c ∈ s.log
  noReg : ∀ c r, s.cbs c = some r → r.stage = .built → r.reg = false → (∃ t, .ended c t ∈ s.log) ∨ s.stop = false ∧ s.sources = 0
  regB : ∀ c r, s.cbs c = some r → r.reg = true → r.stage = .built
  noSrc : s.sources = 0 → s.busy = []
  first : ∀ t, (s.threads t).pc = .stopSig → s.sig = none
  off : ∀ c r, s.cbs c = some r → Reg r → c ∉ s.queue → (∃ t, sure (s.threads t).pc = some c) ∨
    s.sig ≠ none ∧ (r.fin = true ∨ ∃ w, s.winner = some w ∧ Serving (s.threads w) c)
  waits : ∀ t c, (s.threads t).pc = .remWait c → s.sig ≠ none ∧ s.sig ≠ some t
  unl : ∀ c r, .unlinked c ∈ s.log → s.cbs c = some r → r.dying ≠ none

theorem ran_step (s s' : State) (t : Nat) (k : Inv1 s) (q : Inv4 s) (hs : Tr s t s') :
    ∀ t c m b, .call c m b ∈ (s'.threads t).stack → .started c t ∈ s'.log := by
  intro u d m b hd
  have h1 := q.ran u d
  have hm := mark_call s t
  have h2 := k
  cases hs <;> by_cases e : u = t <;> grind

theorem ran'_step (s s' : State) (t : Nat) (k : Inv1 s) (q : Inv4 s) (hs : Tr s t s') :
    ∀ t c, .inline c ∈ (s'.threads t).stack → .started c t ∈ s'.log := by
  intro u d hd
  have h1 := q.ran' u d
  have hm := inl_mem s t
  have h2 := k
  cases hs <;> by_cases e : u = t <;> grind

theorem ended_step (s s' : State) (t : Nat) (q : Inv4 s) (hs : Tr s t s') :
    ∀ c t, .ended c t ∈ s'.log → .started c t ∈ s'.log := by
  intro d u hd
  have h1 := q.ended d u
  have h2 := q.ran t d
  have h3 := q.ran' t d
  cases hs <;> grind

theorem built_step (s s' : State) (t : Nat) (h : Inv2 s) (q : Inv4 s) (hs : Tr s t s') :
    ∀ c r, s'.cbs c = some r → r.stage = .pushed ∨ r.reg = true → .registered c ∈ s'.log := by
  intro d x hd hr
  have h1 := q.built d
  have h2 := h.tries t
  have h3 := h.pushes t
  have h4 := h.take t
  have h5 := h.inl t
  have h6 := h.dying d
  cases hs <;> (known t at h2 h3 h4) <;> grind

theorem noReg_step (s s' : State) (t : Nat) (h : Inv2 s) (l : Inv3 s) (q : Inv4 s) (hs : Tr s t s') :
    ∀ c r, s'.cbs c = some r → r.stage = .built → r.reg = false → (∃ t, .ended c t ∈ s'.log) ∨ s'.stop = false ∧ s'.sources = 0 := by
  intro d x hd hb hr
  have h1 := q.noReg d
  have h2 := h.tries t
  have h3 := h.pushes t
  have h4 := h.take t
  have h5 := h.inl t
  have h6 := q.noSrc
  have h7 := l.busy t
  have h8 := h.run t
  cases hs with
  | ret' c r st a1 a2 a3 =>
    by_cases e : d = c
    · exact .inl ⟨t, by simp [e]⟩
    · rcases h1 x (by simpa [upd_apply, e] using hd) hb hr with ⟨u, hu⟩ | hu
      · exact .inl ⟨u, by simp [hu]⟩
      · exact .inr hu
  | _ =>
    (known t at h2 h3 h4)
    rcases hy : s.cbs d with _ | y
    · exfalso; grind
    · by_cases e : y.stage = .built
      · rcases h1 y hy e (by grind) with ⟨u, hu⟩ | hu
        · exact .inl ⟨u, by simp [hu]⟩
        · right; grind
      · right; grind

theorem regB_step (s s' : State) (t : Nat) (h : Inv2 s) (q : Inv4 s) (hs : Tr s t s') :
    ∀ c r, s'.cbs c = some r → r.reg = true → r.stage = .built := by
  intro d x hd hr
  have h1 := q.regB d
  have h2 := h.tries t
  have h3 := h.pushes t
  have h4 := h.inl t
  cases hs <;> (known t at h2 h3) <;> grind

theorem noSrc_step (s s' : State) (t : Nat) (q : Inv4 s) (hs : Tr s t s') :
    s'.sources = 0 → s'.busy = [] := by
  intro hd
  have h1 := q.noSrc
  cases hs <;> grind

theorem first_step (s s' : State) (t : Nat) (k : Inv1 s) (q : Inv4 s) (hs : Tr s t s') :
    ∀ t, (s'.threads t).pc = .stopSig → s'.sig = none := by
  intro u hd
  have h1 := q.first u
  have h2 := k.none
  have h3 := k.sig
  have h4 := k.win u
  have h5 := k.win t
  cases hs <;> by_cases e : u = t <;> rcases hg : s.sig with _ | g <;> grind

theorem unlD_step (s s' : State) (t : Nat) (h : Inv2 s) (l : Inv3 s) (q : Inv4 s) (hs : Tr s t s') :
    ∀ c r, .unlinked c ∈ s'.log → s'.cbs c = some r → r.dying ≠ none := by
  intro d x hd hr
  have h1 := q.unl d
  have h2 := h.rem t
  have h3 := l.unl d
  have h4 := h.bound d
  cases hs <;> (known t at h2) <;> grind

theorem reg_step (s s' : State) (t : Nat) (k : Inv1 s) (q : Inv4 s) (hs : Tr s t s') :
    ∀ c, .registered c ∈ s'.log → c ∈ s'.queue ∨ .unlinked c ∈ s'.log ∨ (∃ u, .ended c u ∈ s'.log) ∨ ∃ w, s'.winner = some w ∧ Handling (s'.threads w) c := by
  intro d hd
  have h1 := q.reg d
  cases hs with
  | push c r a1 a2 =>
    by_cases e : d = c
    · exact .inl (by simp [e])
    · rcases h1 (by simpa [e] using hd) with h2 | h2 | ⟨u, h2⟩ | ⟨w, h2, h3⟩
      · exact .inl (by simp [h2])
      · exact .inr (.inl (by simp [h2]))
      · exact .inr (.inr (.inl ⟨u, by simp [h2]⟩))
      · refine .inr (.inr (.inr ⟨w, h2, ?_⟩))
        rcases h3 with h3 | ⟨m, b, h3⟩
        · left; by_cases e : w = t <;> grind
        · right; exact ⟨m, b, by grind⟩
  | dequeue c x a1 a2 =>
    rcases h1 hd with h2 | h2 | ⟨u, h2⟩ | ⟨w, h2, h3⟩
    · by_cases e : d = c
      · refine .inr (.inr (.inr ⟨t, k.win t (by rw [a1]; rfl), .inl ?_⟩))
        simp [upd_same, taken, e]
      · exact .inl (by grind)
    · exact .inr (.inl (by simp [h2]))
    · exact .inr (.inr (.inl ⟨u, by simp [h2]⟩))
    · refine .inr (.inr (.inr ⟨w, h2, ?_⟩))
      rcases h3 with h3 | ⟨m, b, h3⟩
      · left; by_cases e : w = t <;> grind
      · right; exact ⟨m, b, by grind⟩
  | unlink c r a1 a2 a3 =>
    rcases h1 (by simpa using hd) with h2 | h2 | ⟨u, h2⟩ | ⟨w, h2, h3⟩
    · by_cases e : d = c
      · exact .inr (.inl (by simp [e]))
      · exact .inl (by grind)
    · exact .inr (.inl (by simp [h2]))
    · exact .inr (.inr (.inl ⟨u, by simp [h2]⟩))
    · refine .inr (.inr (.inr ⟨w, h2, ?_⟩))
      rcases h3 with h3 | ⟨m, b, h3⟩
      · left; by_cases e : w = t <;> grind
      · right; exact ⟨m, b, by grind⟩
  | start c m r a1 a2 =>
    rcases h1 (by simpa using hd) with h2 | h2 | ⟨u, h2⟩ | ⟨w, h2, h3⟩
    · exact .inl h2
    · exact .inr (.inl (by simp [h2]))
    · exact .inr (.inr (.inl ⟨u, by simp [h2]⟩))
    · refine .inr (.inr (.inr ⟨w, h2, ?_⟩))
      have := k.win t (by rw [a1]; rfl)
      have e : w = t := by grind
      subst e
      rcases h3 with h3 | ⟨m', b, h3⟩
      · right; exact ⟨m, false, by grind⟩
      · right; exact ⟨m', b, by grind⟩
  | ret c m b st a1 a2 =>
    rcases h1 (by simpa using hd) with h2 | h2 | ⟨u, h2⟩ | ⟨w, h2, h3⟩
    · exact .inl h2
    · exact .inr (.inl (by simp [h2]))
    · exact .inr (.inr (.inl ⟨u, by simp [h2]⟩))
    · by_cases e : d = c
      · exact .inr (.inr (.inl ⟨t, by simp [e]⟩))
      · refine .inr (.inr (.inr ⟨w, h2, ?_⟩))
        rcases h3 with h3 | ⟨m', b', h3⟩
        · left; by_cases e : w = t <;> grind
        · right; exact ⟨m', b', by by_cases e : w = t <;> grind⟩
  | won a1 a2 a3 =>
    have := k.none
    rcases h1 hd with h2 | h2 | ⟨u, h2⟩ | ⟨w, h2, h3⟩
    · exact .inl h2
    · exact .inr (.inl (by simp [h2]))
    · exact .inr (.inr (.inl ⟨u, by simp [h2]⟩))
    · grind
  | self c r st a1 a2 a3 a4 a5 =>
    rcases h1 hd with h2 | h2 | ⟨u, h2⟩ | ⟨w, h2, h3⟩
    · exact .inl h2
    · exact .inr (.inl (by simp [h2]))
    · exact .inr (.inr (.inl ⟨u, by simp [h2]⟩))
    · refine .inr (.inr (.inr ⟨w, h2, ?_⟩))
      obtain ⟨⟨m', b', c1, c2⟩, c3⟩ := mark_call s t c st k a5
      rcases h3 with h3 | ⟨m, b, h3⟩
      · left; by_cases e : w = t <;> grind
      · by_cases e : w = t
        · subst e
          obtain ⟨rfl, _⟩ := call_one _ (k.count w) c d m' m b' b c1 h3
          right; exact ⟨m', true, by simpa [upd_same] using c2⟩
        · right; exact ⟨m, b, by grind⟩
  | _ =>
    rcases h1 (by simpa using hd) with h2 | h2 | ⟨u, h2⟩ | ⟨w, h2, h3⟩
    · exact .inl h2
    · exact .inr (.inl (by simp [h2]))
    · exact .inr (.inr (.inl ⟨u, by simp [h2]⟩))
    · refine .inr (.inr (.inr ⟨w, h2, ?_⟩))
      rcases h3 with h3 | ⟨m, b, h3⟩
      · left; by_cases e : w = t <;> grind
      · right; exact ⟨m, b, by grind⟩

theorem waits_step (s s' : State) (t : Nat) (h : Inv2 s) (q : Inv4 s) (hs : Tr s t s') :
    ∀ t c, (s'.threads t).pc = .remWait c → s'.sig ≠ none ∧ s'.sig ≠ some t := by
  intro u d hd
  have h1 := q.waits u d
  have h2 := q.first t
  have h3 := q.off d
  have h4 := h.rem t d
  have h5 := h.dying d
  have h6 := h.off t d
  cases hs with
  | other c a1 a2 =>
    by_cases e : u = t
    · subst e
      have e1 : c = d := by simpa [upd_same] using hd
      subst e1
      obtain ⟨r, b1, b2⟩ := h4 (by rw [a1]; rfl)
      obtain ⟨b3, b4⟩ := h5 r b1 (by simp [b2])
      refine ⟨?_, a2⟩
      rcases h3 r b1 (.inr ⟨b3, b4⟩) (h6 (by rw [a1]; rfl)) with ⟨v, hv⟩ | hv
      · obtain ⟨r', c1, c2⟩ := h.rem v c (sure_rem _ _ hv)
        rw [b1] at c1; cases c1
        rw [b2] at c2; cases c2
        rw [a1] at hv; simp [sure] at hv
      · exact hv.1
    · exact h1 (by simpa [upd_apply, e] using hd)
  | _ => by_cases e : u = t <;> grind

set_option maxHeartbeats 1600000 in
theorem off4_step (s s' : State) (t : Nat) (k : Inv1 s) (h : Inv2 s) (q : Inv4 s) (hs : Tr s t s') :
    ∀ c r, s'.cbs c = some r → Reg r → c ∉ s'.queue → (∃ t, sure (s'.threads t).pc = some c) ∨ s'.sig ≠ none ∧ (r.fin = true ∨ ∃ w, s'.winner = some w ∧ Serving (s'.threads w) c) := by
  intro d x hd hr hn
  have h1 := q.off d
  have c2 := h.tries t
  have c3 := h.pushes t
  have c4 := h.inl t
  have c5 := k.sig
  have c6 := k.none
  have c7 := k.win t
  have c8 := q.built d
  have c9 := h.take t
  have c10 := h.rem t
  have c11 := h.dying d
  have c12 := k.sig'
  have c13 := q.regB d
  cases hs with
  | dequeue c y a1 a2 =>
    have b1 := c7 (by rw [a1]; rfl)
    have b2 := c12 t b1
    by_cases e : d = c
    · refine .inr ⟨by grind, .inr ⟨t, b1, .inl ?_⟩⟩
      simp [upd_same, taken, e]
    · rcases h1 x hd hr (by grind) with ⟨v, hv⟩ | ⟨h3, h4⟩
      · exact .inl ⟨v, by by_cases e : v = t <;> grind⟩
      · refine .inr ⟨h3, ?_⟩
        rcases h4 with h4 | ⟨w, h5, h6⟩
        · exact .inl h4
        · refine .inr ⟨w, h5, ?_⟩
          rcases h6 with h6 | ⟨m, h6⟩
          · left; by_cases e : w = t <;> grind
          · right; exact ⟨m, by by_cases e : w = t <;> grind⟩
  | start c m r a1 a2 =>
    have b1 := c7 (by rw [a1]; rfl)
    have b3 : ∃ y, s.cbs d = some y ∧ Reg y ∧ y.fin = x.fin := by
      by_cases e : d = c
      · subst e
        simp only [upd_same, Option.some.injEq] at hd; subst hd
        exact ⟨r, a2, hr, rfl⟩
      · exact ⟨x, by simpa [upd_apply, e] using hd, hr, rfl⟩
    obtain ⟨y, y1, y2, y3⟩ := b3
    rcases h1 y y1 y2 hn with ⟨v, hv⟩ | ⟨h3, h4⟩
    · exact .inl ⟨v, by by_cases e : v = t <;> grind⟩
    · refine .inr ⟨h3, ?_⟩
      rcases h4 with h4 | ⟨w, h5, h6⟩
      · exact .inl (by rw [← y3]; exact h4)
      · refine .inr ⟨w, h5, ?_⟩
        have e : w = t := by grind
        subst e
        rcases h6 with h6 | ⟨m', h6⟩
        · right; exact ⟨m, by grind⟩
        · right; exact ⟨m', by grind⟩
  | ret c m b st a1 a2 =>
    rcases h1 x hd hr hn with ⟨v, hv⟩ | ⟨h3, h4⟩
    · exact .inl ⟨v, by by_cases e : v = t <;> grind⟩
    · refine .inr ⟨h3, ?_⟩
      rcases h4 with h4 | ⟨w, h5, h6⟩
      · exact .inl h4
      · refine .inr ⟨w, h5, ?_⟩
        rcases h6 with h6 | ⟨m', h6⟩
        · left; by_cases e : w = t <;> grind
        · right; exact ⟨m', by by_cases e : w = t <;> grind⟩
  | unlink c r a1 a2 a3 =>
    by_cases e : d = c
    · exact .inl ⟨t, by simp [upd_same, sure, e]⟩
    · rcases h1 x hd hr (by grind) with ⟨v, hv⟩ | ⟨h3, h4⟩
      · exact .inl ⟨v, by by_cases e : v = t <;> grind⟩
      · refine .inr ⟨h3, ?_⟩
        rcases h4 with h4 | ⟨w, h5, h6⟩
        · exact .inl h4
        · refine .inr ⟨w, h5, ?_⟩
          rcases h6 with h6 | ⟨m, h6⟩
          · left; by_cases e : w = t <;> grind
          · right; exact ⟨m, by by_cases e : w = t <;> grind⟩
  | won a1 a2 a3 =>
    rcases h1 x hd hr hn with ⟨v, hv⟩ | ⟨h3, h4⟩
    · exact .inl ⟨v, by by_cases e : v = t <;> grind⟩
    · rcases hg : s.sig with _ | g <;> grind
  | self c r st a1 a2 a3 a4 a5 =>
    by_cases e : d = c
    · exact .inl ⟨t, by simp [upd_same, sure, e]⟩
    · rcases h1 x hd hr hn with ⟨v, hv⟩ | ⟨h3, h4⟩
      · exact .inl ⟨v, by by_cases e : v = t <;> grind⟩
      · refine .inr ⟨h3, ?_⟩
        rcases h4 with h4 | ⟨w, h5, h6⟩
        · exact .inl h4
        · refine .inr ⟨w, h5, ?_⟩
          obtain ⟨⟨m', b', d1, d2⟩, d3⟩ := mark_call s t c st k a5
          rcases h6 with h6 | ⟨m, h6⟩
          · left; by_cases e : w = t <;> grind
          · right; refine ⟨m, ?_⟩
            have := call_one _ (k.count t) c d m' m b' false d1
            by_cases e : w = t <;> grind
  | _ =>
    (known t at c2 c3 c9 c10)
    by_cases b0 : d ∈ s.queue
    · exfalso; grind
    · rcases hy : s.cbs d with _ | y
      · exfalso; grind
      · by_cases b1 : Reg y
        · rcases h1 y hy b1 b0 with ⟨v, hv⟩ | ⟨h3, h4⟩
          · exact .inl ⟨v, by by_cases e : v = t <;> grind⟩
          · refine .inr ⟨by grind, ?_⟩
            by_cases b2 : x.fin = true
            · exact .inl b2
            · have b3 : ¬ y.fin = true := by grind
              rcases h4 with h4 | ⟨w, h5, h6⟩
              · exact absurd h4 b3
              · refine .inr ⟨w, h5, ?_⟩
                rcases h6 with h6 | ⟨m, h6⟩
                · left; by_cases e : w = t <;> grind
                · right; exact ⟨m, by by_cases e : w = t <;> grind⟩
        · exfalso; grind

theorem inv4_step (s s' : State) (t : Nat) (k : Inv1 s) (h : Inv2 s) (l : Inv3 s) (q : Inv4 s) (hs : Tr s t s') : Inv4 s' where
  ran := ran_step s s' t k q hs
  ran' := ran'_step s s' t k q hs
  ended := ended_step s s' t q hs
  reg := reg_step s s' t k q hs
  built := built_step s s' t h q hs
  noReg := noReg_step s s' t h l q hs
  regB := regB_step s s' t h q hs
  noSrc := noSrc_step s s' t q hs
  first := first_step s s' t k q hs
  off := off4_step s s' t k h q hs
  waits := waits_step s s' t h q hs
  unl := unlD_step s s' t h l q hs

theorem inv4_init : Inv4 init := by
  constructor <;> simp [init]

end Verif.Stop
