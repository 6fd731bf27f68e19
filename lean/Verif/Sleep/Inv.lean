import Verif.Sleep.Model

/-! # Invariant of the cancellable sleep -/

namespace Verif.Sleep

structure Inv (d : Nat) (s : State) : Prop where
  cv : s.cv = true ↔ s.pc ≠ .before ∧ s.pc ≠ .done
  stop : s.stop = true ↔ s.stopper ≠ .idle
  early : s.pc = .before ∨ s.pc = .construct ∨ s.pc = .inline → s.cb = .none
  inline : s.pc = .inline → s.stop = true
  cb : s.cb = .none → s.pc = .before ∨ s.pc = .construct ∨ s.pc = .dtor ∨ s.pc = .done ∨ s.stop = true
  listed : s.cb = .listed → s.stopper = .idle ∨ s.stopper = .signalled
  taken : s.cb = .taken ↔ s.stopper = .calling ∨ s.stopper = .called
  fin : s.cb = .finished → s.stopper = .returned
  gone : s.pc = .dtor ∨ s.pc = .done → s.cb = .none ∨ s.cb = .finished
  wait : s.pc = .waitFin → s.cb = .taken ∨ s.cb = .finished
  block : s.pc = .toBlock ∨ s.pc = .blocked → s.cb ≠ .none
  start : s.pc = .enter → s.start ≤ s.now
  dead : s.pc ≠ .before → s.pc ≠ .construct → s.pc ≠ .inline → s.pc ≠ .enter → s.start + d ≤ s.deadline
  begun : s.start ≤ s.now
  last : s.pc = .last → s.deadline ≤ s.now
  over : s.pc = .destroy ∨ s.pc = .waitFin ∨ s.pc = .dtor → s.stop = true ∨ s.deadline ≤ s.now
  ret : ∀ t b, s.ret = some (t, b) → s.pc = .done ∧ (b = true ∨ s.start + d ≤ t)

theorem inv_init (d : Nat) : Inv d init := by
  constructor <;> simp [init]

theorem inv_step (d : Nat) (s s' : State) (a : Act) (h : Inv d s) (hs : step d s a = .ok s') : Inv d s' := by
  obtain ⟨h1, h2, h3, h4, h5, h6, h7, h8, h9, h10, h11, h12, h13, h14, h15, h16, h17⟩ := h
  obtain ⟨now, stop, pc, st, cb, cv, start, dl, ret⟩ := s
  simp only at *
  cases a with
  | sleeper =>
    cases pc <;> simp [step, sleeper, notify] at hs
    all_goals repeat' split at hs
    all_goals first | (simp at hs; subst hs) | skip
    all_goals (constructor <;> grind)
  | stopper =>
    cases st <;> simp [step, stopper, notify] at hs
    all_goals repeat' split at hs
    all_goals first | (simp at hs; subst hs) | skip
    all_goals (constructor <;> grind)
  | tick =>
    simp [step] at hs; subst hs
    constructor <;> grind
  | spurious =>
    simp [step] at hs
    split at hs
    · simp at hs; subst hs; constructor <;> grind
    · simp at hs

theorem inv_run (d : Nat) (l : List Act) : ∀ s s' : State, Inv d s → run d s l = .ok s' → Inv d s' := by
  induction l with
  | nil => intro s s' h h'; cases h'; exact h
  | cons a l ih =>
    intro s s' h h'
    obtain ⟨s1, h1, h2⟩ := Res.bind_eq_ok.1 h'
    exact ih s1 s' (inv_step d s s1 a h h1) h2

theorem run_append (d : Nat) (l l' : List Act) : ∀ s : State, run d s (l ++ l') = (run d s l >>= fun s => run d s l') := by
  induction l with
  | nil => intro s; rfl
  | cons a l ih =>
    intro s
    simp only [List.cons_append, run]
    cases step d s a <;> simp [ih]

/-- Nothing is lost so far: a stop was requested and the thread is not about to block, and if it is blocked the notification is
still to come. -/
def Awake (s : State) : Prop :=
  s.stop = true ∧ s.pc ≠ .toBlock ∧ (s.pc = .blocked → s.stopper = .signalled ∧ s.cb = .listed ∨ s.stopper = .calling)

theorem awake_step (d : Nat) (s s' : State) (a : Act) (hi : Inv d s) (h : Awake s) (hs : step d s a = .ok s') : Awake s' := by
  obtain ⟨h1, h2, h3, h4, h5, h6, h7, h8, h9, h10, h11, _⟩ := hi
  obtain ⟨g1, g2, g3⟩ := h
  obtain ⟨now, stop, pc, st, cb, cv, start, dl, ret⟩ := s
  simp only at *
  cases a with
  | sleeper => cases pc <;> simp [step, sleeper, notify] at hs <;> (repeat' split at hs) <;> (try simp at hs) <;> grind [Awake]
  | stopper => cases st <;> simp [step, stopper, notify] at hs <;> (repeat' split at hs) <;> (try simp at hs) <;> grind [Awake]
  | tick => simp [step] at hs; grind [Awake]
  | spurious => simp only [step] at hs; split at hs <;> grind [Awake]

theorem go (d : Nat) (s s1 : State) (n : Nat) (h : sleeper d s = .ok s1)
    (h1 : ∃ s', run d s1 (List.replicate n .sleeper) = .ok s' ∧ s'.ret = some (s1.now, s1.stop)) (hn : s1.now = s.now) (hs : s1.stop = s.stop) :
    ∃ s', run d s (List.replicate (n + 1) .sleeper) = .ok s' ∧ s'.ret = some (s.now, s.stop) := by
  obtain ⟨s', h2, h3⟩ := h1
  refine ⟨s', ?_, by rw [h3, hn, hs]⟩
  rw [List.replicate_succ, run]
  simp [step, h, h2]

theorem go_dtor (d : Nat) (s : State) (h : s.pc = .dtor) :
    ∃ s', run d s (List.replicate 1 .sleeper) = .ok s' ∧ s'.ret = some (s.now, s.stop) := by
  refine ⟨{ s with pc := .done, cv := false, ret := some (s.now, s.stop) }, ?_, rfl⟩
  rw [List.replicate_succ, run]
  simp only [step, sleeper, h, Res.ok_bind, List.replicate_zero, run]

theorem go_destroy (d : Nat) (s : State) (h : s.pc = .destroy) (hc : s.cb ≠ .taken) :
    ∃ s', run d s (List.replicate 2 .sleeper) = .ok s' ∧ s'.ret = some (s.now, s.stop) := by
  cases e : s.cb
  · exact go d s { s with pc := .dtor } 1 (by simp [sleeper, h, e]) (go_dtor d _ rfl) rfl rfl
  · exact go d s { s with pc := .dtor, cb := .none } 1 (by simp [sleeper, h, e]) (go_dtor d _ rfl) rfl rfl
  · exact absurd e hc
  · exact go d s { s with pc := .dtor } 1 (by simp [sleeper, h, e]) (go_dtor d _ rfl) rfl rfl

theorem go_check (d : Nat) (s : State) (h : s.pc = .check) (hs : s.stop = true) (hc : s.cb ≠ .taken) :
    ∃ s', run d s (List.replicate 3 .sleeper) = .ok s' ∧ s'.ret = some (s.now, s.stop) :=
  go d s { s with pc := .destroy } 2 (by simp [sleeper, h, hs]) (go_destroy d _ rfl hc) rfl rfl

theorem go_last (d : Nat) (s : State) (h : s.pc = .last) (hc : s.cb ≠ .taken) :
    ∃ s', run d s (List.replicate 3 .sleeper) = .ok s' ∧ s'.ret = some (s.now, s.stop) :=
  go d s { s with pc := .destroy } 2 (by simp [sleeper, h]) (go_destroy d _ rfl hc) rfl rfl

theorem go_enter (d : Nat) (s : State) (h : s.pc = .enter) (hs : s.stop = true) (hc : s.cb ≠ .taken) :
    ∃ s', run d s (List.replicate 4 .sleeper) = .ok s' ∧ s'.ret = some (s.now, s.stop) :=
  go d s { s with pc := .check, deadline := s.now + d } 3 (by simp [sleeper, h]) (go_check d _ rfl hs hc) rfl rfl

theorem go_late (d : Nat) (s : State) (h : s.pc = .woken) (hl : s.deadline ≤ s.now) (hc : s.cb ≠ .taken) :
    ∃ s', run d s (List.replicate 4 .sleeper) = .ok s' ∧ s'.ret = some (s.now, s.stop) :=
  go d s { s with pc := .last } 3 (by simp [sleeper, h, hl]) (go_last d _ rfl hc) rfl rfl

end Verif.Sleep
