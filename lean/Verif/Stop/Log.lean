import Verif.Stop.Inv3

namespace Verif.Stop

@[grind] def isWon : Event → Bool
  | .requested _ true => true
  | _ => false

@[grind] def isStart (c : Nat) : Event → Bool
  | .started d _ => d == c
  | _ => false

/-- In the loop of `request_stop`. -/
@[grind] def Active (x : Thread) : Prop := winPc x.pc = true ∨ x.stack.countP isCall ≠ 0

/-- Inside of `request_stop`. -/
@[grind] def inStop : Pc → Nat
  | .stopTry | .stopSig | .stopHead | .stopUnlock _ _ | .stopMark _ _ | .stopAfter _ _ _ | .stopRelock | .stopEnd => 1
  | _ => 0

/-- Taken from the list when it was the last one. -/
@[grind] def lastPc : Pc → Bool
  | .stopUnlock _ m | .stopMark _ m | .stopAfter _ m _ => !m
  | .stopEnd => true
  | _ => false

/-- What the log says. -/
structure Inv3 (s : State) : Prop where
  won0 : s.winner = none → s.log.countP isWon = 0
  wonA : ∀ w, s.winner = some w → Active (s.threads w) → s.log.countP isWon = 0
  wonD : ∀ w, s.winner = some w → ¬ Active (s.threads w) → s.log.countP isWon = 1 ∧ s.queue = []
  who : ∀ t, .requested t true ∈ s.log → s.winner = some t
  lost : ∀ t, .requested t false ∈ s.log → s.stop = true
  last : ∀ t, lastPc (s.threads t).pc = true → s.queue = []
  last' : ∀ t c b, .call c false b ∈ (s.threads t).stack → s.queue = []
  fresh : ∀ c, s.next ≤ c → s.log.countP (isStart c) = 0
  once : ∀ c, s.log.countP (isStart c) ≤ 1
  queued : ∀ c ∈ s.queue, s.log.countP (isStart c) = 0
  tried : ∀ t c, trying (s.threads t).pc = some c → s.log.countP (isStart c) = 0
  took : ∀ t c, taken (s.threads t).pc = some c → s.log.countP (isStart c) = 0
  regd : ∀ c, .registered c ∈ s.log → c < s.next
  unl : ∀ c, .unlinked c ∈ s.log → s.log.countP (isStart c) = 0 ∧ c < s.next ∧ c ∉ s.queue ∧
    ∀ t, taken (s.threads t).pc ≠ some c ∧ trying (s.threads t).pc ≠ some c
  dead : ∀ c u, .destroyed c u ∈ s.log → s.cbs c = none ∧ c < s.next
  alone : ∀ c u, .destroyed c u ∈ s.log → ∀ t m b, .call c m b ∈ (s.threads t).stack → t = u ∧ b = true
  busy : ∀ t, s.busy.count t = (s.threads t).stack.countP isCall + inStop (s.threads t).pc

theorem last_win (p : Pc) (h : lastPc p = true) : winPc p = true := by
  cases p <;> simp_all [lastPc, winPc]

theorem won0_step (s s' : State) (t : Nat) (k : Inv1 s) (l : Inv3 s) (hs : Tr s t s') :
    s'.winner = none → s'.log.countP isWon = 0 := by
  intro hd
  have h1 := l.won0
  have h2 := k.win t
  have h3 := k.none
  cases hs <;> grind

theorem wonA_step (s s' : State) (t : Nat) (k : Inv1 s) (l : Inv3 s) (hs : Tr s t s') :
    ∀ w, s'.winner = some w → Active (s'.threads w) → s'.log.countP isWon = 0 := by
  intro u hd he
  have h0 := l.won0
  have h1 := l.wonA u
  have h2 := k.win t
  have h2' := l.wonA t
  have h3 := k.none
  have h4 := k.one t
  have h5 := k.call t
  have hm := countP_markRemoved
  cases hs <;> by_cases e : u = t <;> grind

theorem wonD_step (s s' : State) (t : Nat) (k : Inv1 s) (l : Inv3 s) (hs : Tr s t s') :
    ∀ w, s'.winner = some w → ¬ Active (s'.threads w) → s'.log.countP isWon = 1 ∧ s'.queue = [] := by
  intro u hd he
  have h0 := l.won0
  have h1 := l.wonD u
  have h1' := l.wonA u
  have h2 := k.win t
  have h2' := l.wonA t
  have h3 := k.none
  have h4 := k.one t
  have h5 := k.call t
  have hm := countP_markRemoved
  have h6 := l.last t
  have h7 := k.push t
  cases hs <;> by_cases e : u = t <;> grind

theorem who_step (s s' : State) (t : Nat) (k : Inv1 s) (l : Inv3 s) (hs : Tr s t s') :
    ∀ t, .requested t true ∈ s'.log → s'.winner = some t := by
  intro u hd
  have h1 := l.who u
  have h0 := l.won0
  have h2 := k.win t
  have h3 := k.none
  cases hs <;> grind

theorem lost_step (s s' : State) (t : Nat) (l : Inv3 s) (hs : Tr s t s') :
    ∀ t, .requested t false ∈ s'.log → s'.stop = true := by
  intro u hd
  have h1 := l.lost u
  cases hs <;> grind

theorem last_step (s s' : State) (t : Nat) (k : Inv1 s) (l : Inv3 s) (hs : Tr s t s') :
    ∀ t, lastPc (s'.threads t).pc = true → s'.queue = [] := by
  intro u hd
  have h1 := l.last u
  have h2 := l.last' t
  have h3 := k.push t
  have h4 := k.win u
  have h5 := k.none
  have h6 := last_win (s.threads u).pc
  cases hs <;> by_cases e : u = t <;> grind

theorem last'_step (s s' : State) (t : Nat) (k : Inv1 s) (l : Inv3 s) (hs : Tr s t s') :
    ∀ t c b, .call c false b ∈ (s'.threads t).stack → s'.queue = [] := by
  intro u d b hd
  have h1 := l.last' u d
  have h2 := l.last t
  have h3 := k.push t
  have h4 := call_win s k u d false
  have h5 := k.none
  have hm := mark_call s t
  cases hs <;> by_cases e : u = t <;> grind

theorem fresh_step (s s' : State) (t : Nat) (h : Inv2 s) (l : Inv3 s) (hs : Tr s t s') :
    ∀ c, s'.next ≤ c → s'.log.countP (isStart c) = 0 := by
  intro d hd
  have h1 := l.fresh d
  have h2 := h.bound
  cases hs <;> grind

theorem once_step (s s' : State) (t : Nat) (l : Inv3 s) (hs : Tr s t s') :
    ∀ c, s'.log.countP (isStart c) ≤ 1 := by
  intro d
  have h1 := l.once d
  have h2 := l.tried t
  have h3 := l.took t
  cases hs <;> (known t at h2 h3) <;> grind

theorem queued_step (s s' : State) (t : Nat) (h : Inv2 s) (l : Inv3 s) (hs : Tr s t s') :
    ∀ c ∈ s'.queue, s'.log.countP (isStart c) = 0 := by
  intro d hd
  have h1 := l.queued d
  have h2 := l.tried t
  have h3 := h.take t
  have h4 := h.tries t
  have h5 := h.q d
  cases hs <;> (known t at h2 h3 h4) <;> grind

theorem tried_step (s s' : State) (t : Nat) (h : Inv2 s) (l : Inv3 s) (hs : Tr s t s') :
    ∀ t c, trying (s'.threads t).pc = some c → s'.log.countP (isStart c) = 0 := by
  intro u d hd
  have h1 := l.tried u d
  have h2 := h.tries u d
  have h3 := h.take t
  have h4 := h.tries t
  have h5 := l.tried t
  have h6 := l.fresh d
  cases hs <;> (known t at h3 h4 h5) <;> by_cases e : u = t <;> grind

theorem took_step (s s' : State) (t : Nat) (k : Inv1 s) (h : Inv2 s) (l : Inv3 s) (hs : Tr s t s') :
    ∀ t c, taken (s'.threads t).pc = some c → s'.log.countP (isStart c) = 0 := by
  intro u d hd
  have h1 := l.took u d
  have h2 := l.queued d
  have h3 := h.tries t
  have h4 := h.take u d
  have h5 := k.win u
  have h6 := k.win t
  have h7 := taken_win (s.threads u).pc d
  have h8 := l.took t
  cases hs <;> (known t at h3 h8) <;> by_cases e : u = t <;> grind

theorem regd_step (s s' : State) (t : Nat) (h : Inv2 s) (l : Inv3 s) (hs : Tr s t s') :
    ∀ c, .registered c ∈ s'.log → c < s'.next := by
  intro d hd
  have h1 := l.regd d
  have h2 := h.bound d
  have h3 := h.tries t
  cases hs <;> (known t at h3) <;> grind

theorem dead_step (s s' : State) (t : Nat) (h : Inv2 s) (l : Inv3 s) (hs : Tr s t s') :
    ∀ c u, .destroyed c u ∈ s'.log → s'.cbs c = none ∧ c < s'.next := by
  intro d v hd
  have h1 := l.dead d v
  have h2 := h.bound d
  have h3 := h.rem t
  cases hs <;> (known t at h3) <;> grind

theorem alone_step (s s' : State) (t : Nat) (k : Inv1 s) (h : Inv2 s) (l : Inv3 s) (hs : Tr s t s') :
    ∀ c u, .destroyed c u ∈ s'.log → ∀ t m b, .call c m b ∈ (s'.threads t).stack → t = u ∧ b = true := by
  intro d v hd u m b he
  have h1 := fun a => l.alone d v a u m b
  have h2 := l.dead d v
  have h3 := fun c a => (h.sure t c a u m).2.2
  have h4 := h.take t
  have h5 := call_win s k u d m b
  have hm := mark_call s t
  have h6 := h.gone u d m
  have h7 := h.run u d m
  have h8 := h.rem t
  have h9 := h.dying d
  have h10 := fun e : (s.threads u).pc = .remRet d => h.rem u d (by rw [e]; rfl)
  cases hs <;> (known t at h3 h4 h8) <;> cases b <;> by_cases e : u = t <;> grind

theorem busy_step (s s' : State) (t : Nat) (l : Inv3 s) (hs : Tr s t s') :
    ∀ t, s'.busy.count t = (s'.threads t).stack.countP isCall + inStop (s'.threads t).pc := by
  intro u
  have h1 := l.busy u
  have h2 := l.busy t
  have hm := countP_markRemoved
  cases hs <;> by_cases e : u = t <;> grind

theorem unl_step1 (s s' : State) (t : Nat) (l : Inv3 s) (hs : Tr s t s') :
    ∀ c, .unlinked c ∈ s'.log → s'.log.countP (isStart c) = 0 := by
  intro d hd
  have h1 := l.unl d
  have h2 := l.queued d
  have h3 := fun a => ((l.unl d a).2.2.2 t)
  cases hs <;> grind

theorem unl_step2 (s s' : State) (t : Nat) (h : Inv2 s) (l : Inv3 s) (hs : Tr s t s') :
    ∀ c, .unlinked c ∈ s'.log → c < s'.next ∧ c ∉ s'.queue := by
  intro d hd
  have h1 := l.unl d
  have h2 := h.bound d
  have h3 := fun a => ((l.unl d a).2.2.2 t)
  have h4 := h.nodup
  cases hs <;> grind

theorem unl_step3 (s s' : State) (t : Nat) (h : Inv2 s) (l : Inv3 s) (hs : Tr s t s') :
    ∀ c, .unlinked c ∈ s'.log → ∀ t, taken (s'.threads t).pc ≠ some c ∧ trying (s'.threads t).pc ≠ some c := by
  intro d hd u
  have h1 := l.unl d
  have h3 := fun a => ((l.unl d a).2.2.2 u)
  have h3' := fun a => ((l.unl d a).2.2.2 t)
  have h4 := h.take u d
  have h5 := h.tries u d
  have h6 := h.rem t
  have h7 := h.dying d
  cases hs <;> (known t at h6) <;> by_cases e : u = t <;> grind

theorem inv3_step (s s' : State) (t : Nat) (k : Inv1 s) (h : Inv2 s) (l : Inv3 s) (hs : Tr s t s') : Inv3 s' where
  won0 := won0_step s s' t k l hs
  wonA := wonA_step s s' t k l hs
  wonD := wonD_step s s' t k l hs
  who := who_step s s' t k l hs
  lost := lost_step s s' t l hs
  last := last_step s s' t k l hs
  last' := last'_step s s' t k l hs
  fresh := fresh_step s s' t h l hs
  once := once_step s s' t l hs
  queued := queued_step s s' t h l hs
  tried := tried_step s s' t h l hs
  took := took_step s s' t k h l hs
  regd := regd_step s s' t h l hs
  unl := fun c hc => ⟨unl_step1 s s' t l hs c hc, (unl_step2 s s' t h l hs c hc).1, (unl_step2 s s' t h l hs c hc).2, unl_step3 s s' t h l hs c hc⟩
  dead := dead_step s s' t h l hs
  alone := alone_step s s' t k h l hs
  busy := busy_step s s' t l hs

theorem inv3_init : Inv3 init := by
  constructor <;> simp [init, Active, winPc, lastPc, inStop, trying, taken]

end Verif.Stop
