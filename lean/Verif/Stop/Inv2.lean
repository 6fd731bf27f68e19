import Verif.Stop.Inv

namespace Verif.Stop

theorem countP_zero_call (st : List UFrame) (h : st.countP isCall = 0) (c : Nat) (m b : Bool) : .call c m b ∉ st := by
  rw [List.countP_eq_zero] at h
  intro hm
  have := h _ hm
  simp [isCall] at this

theorem markRemoved_spec (c : Nat) (st st' : List UFrame) (h1 : st.countP isCall ≤ 1) (h : markRemoved c st = some st') :
    (∃ m b, .call c m b ∈ st ∧ .call c m true ∈ st') ∧
    (∀ d, st'.count (.inline d) = st.count (.inline d)) ∧
    (∀ d m b, .call d m b ∈ st' → d = c ∧ b = true ∧ ∃ b', .call c m b' ∈ st) := by
  induction st generalizing st' with
  | nil => cases h
  | cons f st ih =>
    cases f with
    | call d m r =>
      have h0 : st.countP isCall = 0 := by rw [List.countP_cons] at h1; simp [isCall] at h1; simpa [isCall] using h1
      have h2 := countP_zero_call st h0
      simp only [markRemoved] at h
      split at h
      · rename_i e; cases h; subst e
        refine ⟨⟨m, r, by simp, by simp⟩, fun d => by simp, ?_⟩
        intro d' m' b' hm
        rcases List.mem_cons.1 hm with e | hm
        · cases e; exact ⟨rfl, rfl, r, by simp⟩
        · exact absurd hm (h2 _ _ _)
      · simp at h
        obtain ⟨x, h3, rfl⟩ := h
        obtain ⟨⟨m', b', h4, _⟩, _⟩ := ih x (by omega) h3
        exact absurd h4 (h2 _ _ _)
    | inline d =>
      have h0 : st.countP isCall ≤ 1 := by simpa [isCall] using h1
      simp only [markRemoved] at h
      simp at h
      obtain ⟨x, h3, rfl⟩ := h
      obtain ⟨⟨m', b', h4, h5⟩, h6, h7⟩ := ih x h0 h3
      refine ⟨⟨m', b', by simp [h4], by simp [h5]⟩, ?_, ?_⟩
      · intro e; simp only [List.count_cons, h6]
      · intro e m b hm
        simp at hm
        obtain ⟨e1, e2, b'', e3⟩ := h7 e m b hm
        exact ⟨e1, e2, b'', by simp [e3]⟩

/-- The records. -/
structure Inv2 (s : State) : Prop where
  nodup : s.queue.Nodup
  bound : ∀ c r, s.cbs c = some r → c < s.next
  q : ∀ c ∈ s.queue, ∃ r, s.cbs c = some r ∧ Reg r ∧ r.mark = false ∧ r.fin = false
  tries : ∀ t c, trying (s.threads t).pc = some c → ∃ r, s.cbs c = some r ∧ r.stage = .trying ∧ r.builder = t
  pushes : ∀ t c, pushed (s.threads t).pc = some c → ∃ r, s.cbs c = some r ∧ r.stage = .pushed ∧ r.builder = t
  inl : ∀ t c, .inline c ∈ (s.threads t).stack → ∃ r, s.cbs c = some r ∧ r.stage = .inline ∧ r.builder = t
  inl1 : ∀ t c, (s.threads t).stack.count (.inline c) ≤ 1
  unreg : ∀ c r, s.cbs c = some r → ¬ Reg r → r.mark = false ∧ r.fin = false
  dying : ∀ c r, s.cbs c = some r → r.dying ≠ none → r.stage = .built ∧ r.reg = true
  rem : ∀ t c, removing (s.threads t).pc = some c → ∃ r, s.cbs c = some r ∧ r.dying = some t
  off : ∀ t c, offList (s.threads t).pc = some c → c ∉ s.queue
  take : ∀ t c, taken (s.threads t).pc = some c → ∃ r, s.cbs c = some r ∧ Reg r ∧ r.mark = false ∧ r.fin = false ∧ c ∉ s.queue
  run : ∀ t c m, .call c m false ∈ (s.threads t).stack ∨ (s.threads t).pc = .stopAfter c m false →
    ∃ r, s.cbs c = some r ∧ Reg r ∧ r.mark = true ∧ r.fin = false ∧ c ∉ s.queue
  gone : ∀ t c m, .call c m true ∈ (s.threads t).stack → s.cbs c = none ∨ (s.threads t).pc = .remRet c
  gone' : ∀ t c m, (s.threads t).pc = .stopAfter c m true → s.cbs c = none
  lt : ∀ t c m b, .call c m b ∈ (s.threads t).stack ∨ (s.threads t).pc = .stopAfter c m b → c < s.next
  mark : ∀ c r, s.cbs c = some r → r.mark = true → ∃ t m, .call c m false ∈ (s.threads t).stack ∨
    (s.threads t).pc = .stopAfter c m false ∨ .call c m true ∈ (s.threads t).stack ∧ (s.threads t).pc = .remRet c
  sure : ∀ t c, sure (s.threads t).pc = some c → ∀ u m, taken (s.threads u).pc ≠ some c ∧
    (s.threads u).pc ≠ .stopAfter c m false ∧ .call c m false ∉ (s.threads u).stack

theorem nodup_step (s s' : State) (t : Nat) (h : Inv2 s) (hs : Tr s t s') : s'.queue.Nodup := by
  have h1 := h.nodup
  have h2 := h.tries t
  have h3 := h.q
  cases hs with
  | push c r a1 a2 =>
    refine List.nodup_cons.2 ⟨?_, h1⟩
    intro hc
    obtain ⟨r1, e1, e2, _⟩ := h2 c (by rw [a1]; rfl)
    obtain ⟨r2, e3, e4, _⟩ := h3 c hc
    rw [e1] at e3; cases e3
    simp [Reg, e2] at e4
  | unlink c r a1 a2 a3 => exact h1.erase c
  | dequeue c q a1 a2 => rw [a2] at h1; exact (List.nodup_cons.1 h1).2
  | _ => exact h1

theorem bound_step (s s' : State) (t : Nat) (h : Inv2 s) (hs : Tr s t s') : ∀ c r, s'.cbs c = some r → c < s'.next := by
  have h1 := h.bound
  cases hs <;> grind

theorem q_step (s s' : State) (t : Nat) (h : Inv2 s) (hs : Tr s t s') :
    ∀ c ∈ s'.queue, ∃ r, s'.cbs c = some r ∧ Reg r ∧ r.mark = false ∧ r.fin = false := by
  have h0 := h.nodup
  have h1 := h.q
  have h2 := h.tries t
  have h3 := h.bound
  have h4 := h.take t
  have h5 := h.run t
  have h6 := h.off t
  have h7 := h.pushes t
  have h8 := h.inl t
  have h9 := h.unreg
  cases hs <;> intro d hd <;> have i1 := h1 d <;> clear h1 <;> grind


/-- One step: simplify what is known about the thread that makes it. -/
macro "known" t:term "at" l:ident* : tactic =>
  `(tactic| (try simp only [‹(State.threads _ $t).pc = _›, trying, taken, pushed, removing, offList, sure, Option.some.injEq,
      forall_eq', forall_eq, reduceCtorEq, false_imp_iff, implies_true] at $l:ident*))

theorem tries_step (s s' : State) (t : Nat) (h : Inv2 s) (hs : Tr s t s') :
    ∀ t c, trying (s'.threads t).pc = some c → ∃ r, s'.cbs c = some r ∧ r.stage = .trying ∧ r.builder = t := by
  intro u d hd
  have h1 := h.tries u d
  have h2 := h.tries t
  have h3 := h.bound d
  have h4 := h.take t
  have h7 := h.pushes t
  have h9 := h.rem t
  have h0 := h.dying d
  have hi := h.inl t
  rcases hx : s'.cbs d with _ | x
  · exfalso
    cases hs <;> (known t at h2 h4 h7 h9) <;> by_cases e : u = t <;> grind
  · refine ⟨x, rfl, ?_⟩
    cases hs <;> (known t at h2 h4 h7 h9) <;> by_cases e : u = t <;> grind

theorem pushes_step (s s' : State) (t : Nat) (h : Inv2 s) (hs : Tr s t s') :
    ∀ t c, pushed (s'.threads t).pc = some c → ∃ r, s'.cbs c = some r ∧ r.stage = .pushed ∧ r.builder = t := by
  intro u d hd
  have h1 := h.pushes u d
  have h2 := h.tries t
  have h3 := h.bound d
  have h4 := h.take t
  have h7 := h.pushes t
  have h9 := h.rem t
  have h0 := h.dying d
  have hi := h.inl t
  rcases hx : s'.cbs d with _ | x
  · exfalso
    cases hs <;> (known t at h2 h4 h7 h9) <;> by_cases e : u = t <;> grind
  · refine ⟨x, rfl, ?_⟩
    cases hs <;> (known t at h2 h4 h7 h9) <;> by_cases e : u = t <;> grind

theorem inl_mem (s : State) (t c : Nat) (st : List UFrame) (k : Inv1 s) (h : markRemoved c (s.threads t).stack = some st) (d : Nat) :
    .inline d ∈ st ↔ .inline d ∈ (s.threads t).stack := by
  obtain ⟨_, b1, _⟩ := markRemoved_spec c _ st (k.count t) h
  rw [← List.count_pos_iff, b1 d, List.count_pos_iff]

theorem inl_step (s s' : State) (t : Nat) (k : Inv1 s) (h : Inv2 s) (hs : Tr s t s') :
    ∀ t c, .inline c ∈ (s'.threads t).stack → ∃ r, s'.cbs c = some r ∧ r.stage = .inline ∧ r.builder = t := by
  intro u d hd
  have hm := inl_mem s
  have h1 := h.inl u d
  have h2 := h.tries t
  have h3 := h.bound d
  have h4 := h.take t
  have h7 := h.pushes t
  have h9 := h.rem t
  have h0 := h.dying d
  have hi := h.inl t
  have hc := h.inl1 t
  rcases hx : s'.cbs d with _ | x
  · exfalso
    cases hs <;> (known t at h2 h4 h7 h9) <;> by_cases e : u = t <;> grind
  · refine ⟨x, rfl, ?_⟩
    cases hs <;> (known t at h2 h4 h7 h9) <;> by_cases e : u = t <;> grind

theorem inl1_step (s s' : State) (t : Nat) (k : Inv1 s) (h : Inv2 s) (hs : Tr s t s') :
    ∀ t c, (s'.threads t).stack.count (.inline c) ≤ 1 := by
  intro u d
  have h1 := h.inl1 u d
  have h2 := h.inl1 t d
  have h3 := h.tries t
  have h4 := h.inl t d
  cases hs with
  | self c r st a1 a2 a3 a4 a5 =>
    obtain ⟨_, b1, _⟩ := markRemoved_spec c _ st (k.count t) a5
    have b2 := b1 d
    grind
  | inline c r a1 a2 a3 =>
    known t at h3
    have i3 : c = d → (s.threads t).stack.count (.inline d) = 0 := by
      intro e; subst e
      rw [List.count_eq_zero]; intro hm; grind
    grind
  | _ => grind

theorem unreg_step (s s' : State) (t : Nat) (h : Inv2 s) (hs : Tr s t s') :
    ∀ c r, s'.cbs c = some r → ¬ Reg r → r.mark = false ∧ r.fin = false := by
  intro d x hd hr
  have h1 := h.unreg d x
  have h1' := h.unreg d
  have h2 := h.tries t
  have h4 := h.take t
  have h5 := h.run t
  have h7 := h.pushes t
  have hi := h.inl t
  cases hs <;> (known t at h2 h4 h7) <;> grind

theorem dying_step (s s' : State) (t : Nat) (h : Inv2 s) (hs : Tr s t s') :
    ∀ c r, s'.cbs c = some r → r.dying ≠ none → r.stage = .built ∧ r.reg = true := by
  intro d x hd hr
  have h1 := h.dying d
  have h2 := h.tries t
  have h4 := h.take t
  have h5 := h.run t
  have h7 := h.pushes t
  have hi := h.inl t
  cases hs <;> (known t at h2 h4 h7) <;> grind

theorem rem_step (s s' : State) (t : Nat) (h : Inv2 s) (hs : Tr s t s') :
    ∀ t c, removing (s'.threads t).pc = some c → ∃ r, s'.cbs c = some r ∧ r.dying = some t := by
  intro u d hd
  have h1 := h.rem u d
  have h2 := h.tries t
  have h3 := h.bound d
  have h4 := h.take t
  have h5 := h.run t
  have h7 := h.pushes t
  have h9 := h.rem t
  have h0 := h.dying d
  have hi := h.inl t
  rcases hx : s'.cbs d with _ | x
  · exfalso
    cases hs <;> (known t at h2 h4 h7 h9) <;> by_cases e : u = t <;> grind
  · refine ⟨x, rfl, ?_⟩
    cases hs <;> (known t at h2 h4 h7 h9) <;> by_cases e : u = t <;> grind

theorem off_rem (p : Pc) (c : Nat) (h : offList p = some c) : removing p = some c := by
  cases p <;> simp_all [offList, removing]

theorem sure_rem (p : Pc) (c : Nat) (h : sure p = some c) : removing p = some c := by
  cases p <;> simp_all [sure, removing]

theorem taken_win (p : Pc) (c : Nat) (h : taken p = some c) : winPc p = true := by
  cases p <;> simp_all [taken, winPc]

theorem off_step (s s' : State) (t : Nat) (h : Inv2 s) (hs : Tr s t s') :
    ∀ t c, offList (s'.threads t).pc = some c → c ∉ s'.queue := by
  intro u d hd
  have h1 := h.off u d
  have h2 := h.tries t
  have h3 := h.nodup
  have h4 := h.rem u d
  have h9 := h.off t
  have h0 := h.dying d
  have hl := off_rem (s.threads u).pc d
  cases hs <;> (known t at h2 h9) <;> by_cases e : u = t <;> grind

theorem take_step (s s' : State) (t : Nat) (k : Inv1 s) (h : Inv2 s) (hs : Tr s t s') :
    ∀ t c, taken (s'.threads t).pc = some c → ∃ r, s'.cbs c = some r ∧ Reg r ∧ r.mark = false ∧ r.fin = false ∧ c ∉ s'.queue := by
  intro u d hd
  have h1 := h.take u d
  have h2 := h.tries t
  have h3 := h.nodup
  have h4 := h.take t
  have h5 := h.run t
  have h6 := h.q d
  have h7 := h.pushes t
  have h8 := h.bound d
  have h9 := fun c hc => (h.sure t c hc u true).1
  have hi := h.inl t
  have hw := k.win u
  have hw' := k.win t
  have hv := taken_win (s.threads u).pc d
  have hv' := taken_win (s.threads t).pc
  rcases hx : s'.cbs d with _ | x
  · exfalso
    cases hs <;> (known t at h2 h4 h7 h9) <;> by_cases e : u = t <;> grind
  · refine ⟨x, rfl, ?_⟩
    cases hs <;> (known t at h2 h4 h7 h9) <;> by_cases e : u = t <;> grind

theorem call_win (s : State) (k : Inv1 s) (t c : Nat) (m b : Bool) (h : .call c m b ∈ (s.threads t).stack) :
    s.winner = some t ∧ winPc (s.threads t).pc = false := by
  have h1 := fun e => countP_zero_call (s.threads t).stack e c m b h
  refine ⟨k.call t h1, ?_⟩
  cases e : winPc (s.threads t).pc
  · rfl
  · exact absurd (k.one t e) h1

/-- Two calls are the same. -/
theorem call_one (st : List UFrame) (h : st.countP isCall ≤ 1) (c d : Nat) (m n a b : Bool) (h1 : .call c m a ∈ st) (h2 : .call d n b ∈ st) :
    c = d ∧ m = n ∧ a = b := by
  induction st with
  | nil => cases h1
  | cons f st ih =>
    rw [List.countP_cons] at h
    cases f with
    | inline e => simp [isCall] at h h1 h2; exact ih h h1 h2
    | call e m' a' =>
      have h0 : st.countP isCall = 0 := by simp [isCall] at h; simpa [isCall] using h
      have h3 := countP_zero_call st h0
      simp [h3] at h1 h2
      grind

theorem mark_call (s : State) (t c : Nat) (st : List UFrame) (k : Inv1 s) (h : markRemoved c (s.threads t).stack = some st) :
    (∃ m b, .call c m b ∈ (s.threads t).stack ∧ .call c m true ∈ st) ∧
    (∀ d m b, .call d m b ∈ st → d = c ∧ b = true ∧ ∃ b', .call c m b' ∈ (s.threads t).stack) := by
  obtain ⟨b0, _, b1⟩ := markRemoved_spec c _ st (k.count t) h
  exact ⟨b0, b1⟩

theorem run_step_none (s s' : State) (t : Nat) (k : Inv1 s) (h : Inv2 s) (hs : Tr s t s') (u d : Nat) (m : Bool) (hd : .call d m false ∈ (s'.threads u).stack ∨ (s'.threads u).pc = .stopAfter d m false) : s'.cbs d ≠ none := by
  intro hx
  have h1 := h.run u d m
  have h2 := h.tries t
  have h3 := h.nodup
  have h4 := h.take t
  have h5 := h.run t
  have h7 := h.pushes t
  have h8 := h.bound d
  have h9 := fun c hc => (h.sure t c hc u m).2
  have hi := h.inl t
  have hw := k.win u
  have hw' := k.win t
  have hv := fun b => call_win s k u d m b
  have hm := mark_call s t
  have hv' := taken_win (s.threads t).pc
  cases hs <;> (known t at h2 h4 h7 h9) <;> by_cases e : u = t <;> grind

theorem run_step_some (s s' : State) (t : Nat) (k : Inv1 s) (h : Inv2 s) (hs : Tr s t s') (u d : Nat) (m : Bool) (hd : .call d m false ∈ (s'.threads u).stack ∨ (s'.threads u).pc = .stopAfter d m false) (x : Rec) (hx : s'.cbs d = some x) : Reg x ∧ x.mark = true ∧ x.fin = false ∧ d ∉ s'.queue := by
  have h1 := h.run u d m
  have h2 := h.tries t
  have h3 := h.nodup
  have h4 := h.take t
  have h5 := h.run t
  have h7 := h.pushes t
  have h8 := h.bound d
  have h9 := fun c hc => (h.sure t c hc u m).2
  have hi := h.inl t
  have hw := k.win u
  have hw' := k.win t
  have hv := fun b => call_win s k u d m b
  have hm := mark_call s t
  have hv' := taken_win (s.threads t).pc
  cases hs <;> (known t at h2 h4 h7 h9) <;> by_cases e : u = t <;> grind

end Verif.Stop
