import Verif.Destructible.Spec

/-! # C184: an object in a `Destructible` is constructed with it and destroyed by `Destroy` only -/

namespace Verif.Destructible

open Verif

structure Inv (s : State) : Prop where
  lt : ∀ w c, s.vars w = some c → c.obj < s.next
  inj : ∀ w w' c c', s.vars w = some c → s.vars w' = some c' → c.obj = c'.obj → w = w'
  alive : ∀ w c, s.vars w = some c → (c.alive = true ↔ Event.dtor c.obj ∉ s.log)
  dlt : ∀ n, Event.dtor n ∈ s.log → n < s.next
  ctor : ∀ n, s.log.count (.ctor n) = if n < s.next then 1 else 0
  dtor : ∀ n, s.log.count (.dtor n) ≤ 1

theorem inv_init : Inv init := by constructor <;> simp [init]

theorem upd_self (f : Nat → Option Cell) (w : Nat) (v : Option Cell) : upd f w v w = v := if_pos rfl

theorem upd_ne (f : Nat → Option Cell) {w w' : Nat} (v : Option Cell) (h : w' ≠ w) : upd f w v w' = f w' := if_neg h

theorem inv_make {s : State} (h : Inv s) (w : Nat) (ok : Bool) : Inv (make s w ok).1 := by
  unfold make
  cases ok
  · exact h
  · simp only [if_true]
    constructor
    · intro v c hv
      by_cases e : v = w
      · subst e; simp only [upd_self] at hv; cases hv; exact Nat.lt_succ_self _
      · simp only [upd_ne _ _ e] at hv; exact Nat.lt_succ_of_lt (h.lt v c hv)
    · intro v v' c c' hv hv' e
      by_cases e1 : v = w <;> by_cases e2 : v' = w
      · rw [e1, e2]
      · simp only [e1, upd_self] at hv; simp only [upd_ne _ _ e2] at hv'
        cases hv; have := h.lt _ _ hv'; simp only at e; omega
      · simp only [e2, upd_self] at hv'; simp only [upd_ne _ _ e1] at hv
        cases hv'; have := h.lt _ _ hv; simp only at e; omega
      · simp only [upd_ne _ _ e1] at hv; simp only [upd_ne _ _ e2] at hv'
        exact h.inj _ _ _ _ hv hv' e
    · intro v c hv
      by_cases e : v = w
      · subst e; simp only [upd_self] at hv; cases hv
        simp only [true_iff]
        intro hm
        rcases List.mem_cons.1 hm with hm | hm
        · cases hm
        · exact Nat.lt_irrefl _ (h.dlt _ hm)
      · simp only [upd_ne _ _ e] at hv
        rw [h.alive v c hv]
        simp
    · intro n hn
      rcases List.mem_cons.1 hn with hm | hm
      · cases hm
      · exact Nat.lt_succ_of_lt (h.dlt n hm)
    · intro n
      rw [List.count_cons, h.ctor n]
      by_cases e : n = s.next
      · subst e; simp
      · have : (Event.ctor s.next == Event.ctor n) = false := by simp; omega
        rw [this]
        have e2 : n < s.next + 1 ↔ n < s.next := by omega
        simp only [e2]
        simp
    · intro n
      rw [List.count_cons]
      simpa using h.dtor n

theorem get_ok {s : State} {w n : Nat} : get s w = .ok n ↔ s.vars w = some ⟨n, true⟩ := by
  unfold get
  cases hv : s.vars w with
  | none => simp
  | some c =>
    obtain ⟨o, a⟩ := c
    cases a <;> simp

theorem inv_destroy {s : State} (h : Inv s) {w n : Nat} (hg : get s w = .ok n) :
    Inv { s with vars := upd s.vars w (some ⟨n, false⟩), log := .dtor n :: s.log } := by
  rw [get_ok] at hg
  have hn : Event.dtor n ∉ s.log := (h.alive _ _ hg).1 rfl
  constructor
  · intro v c hv
    by_cases e : v = w
    · subst e; simp only [upd_self] at hv; cases hv; exact h.lt v ⟨n, true⟩ hg
    · simp only [upd_ne _ _ e] at hv; exact h.lt v c hv
  · intro v v' c c' hv hv' e
    by_cases e1 : v = w <;> by_cases e2 : v' = w
    · rw [e1, e2]
    · simp only [e1, upd_self] at hv; simp only [upd_ne _ _ e2] at hv'
      cases hv; exact absurd (h.inj _ _ _ _ hv' hg e.symm) e2
    · simp only [e2, upd_self] at hv'; simp only [upd_ne _ _ e1] at hv
      cases hv'; exact absurd (h.inj _ _ _ _ hv hg e) e1
    · simp only [upd_ne _ _ e1] at hv; simp only [upd_ne _ _ e2] at hv'
      exact h.inj _ _ _ _ hv hv' e
  · intro v c hv
    by_cases e : v = w
    · subst e; simp only [upd_self] at hv; cases hv; simp
    · simp only [upd_ne _ _ e] at hv
      rw [h.alive v c hv]
      have : c.obj ≠ n := fun x => e (h.inj _ _ _ _ hv hg x)
      simp [this]
  · intro k hk
    rcases List.mem_cons.1 hk with hm | hm
    · cases hm; exact h.lt _ _ hg
    · exact h.dlt k hm
  · intro k
    rw [List.count_cons]
    simpa using h.ctor k
  · intro k
    rw [List.count_cons]
    by_cases e : k = n
    · subst e
      rw [List.count_eq_zero_of_not_mem hn]; simp
    · have : (Event.dtor n == Event.dtor k) = false := by simp; omega
      rw [this]
      simpa using h.dtor k

theorem inv_leave {s : State} (h : Inv s) (w : Nat) : Inv { s with vars := upd s.vars w none } := by
  have g : ∀ v c, upd s.vars w none v = some c → s.vars v = some c := by
    intro v c hv
    by_cases e : v = w
    · subst e; rw [upd_self] at hv; cases hv
    · rwa [upd_ne _ _ e] at hv
  exact ⟨fun v c hv => h.lt v c (g v c hv), fun v v' c c' hv hv' => h.inj v v' c c' (g _ _ hv) (g _ _ hv'), fun v c hv => h.alive v c (g _ _ hv), h.dlt, h.ctor, h.dtor⟩

theorem inv_step {t : Bool} {s s' : State} {op : Op} {o : Out} (h : Inv s) (hp : Plain op) (hs : step t s op = .ok (s', o)) : Inv s' := by
  cases op with
  | make w ok =>
    simp only [step] at hs
    split at hs
    · cases hs
    · injection hs with hs
      have := inv_make h w ok
      rwa [hs] at this
  | destroy w =>
    simp only [step] at hs
    split at hs
    · cases hs
    · simp only [destroy, Res.bind_eq_ok] at hs
      obtain ⟨s1, ⟨n, hg, e1⟩, e2⟩ := hs
      cases e1; cases e2
      exact inv_destroy h hg
  | use w =>
    simp only [step] at hs
    split at hs
    · cases hs
    · simp only [Res.bind_eq_ok] at hs
      obtain ⟨n, hg, e⟩ := hs
      cases e; exact h
  | leave w =>
    simp only [step] at hs
    split at hs
    · cases hs
    · cases hs; exact inv_leave h w
  | copy w v => exact hp.elim
  | assign w v => exact hp.elim

/-! ### Programs -/

theorem run_append (t : Bool) : ∀ (l l' : List Op) (s : State), run t s (l ++ l') = (run t s l >>= fun r => run t r.1 l' >>= fun q => .ok (q.1, r.2 ++ q.2))
  | [], l', s => by
    simp only [run, Res.ok_bind, List.nil_append]
    cases run t s l' <;> rfl
  | a :: l, l', s => by
    simp only [List.cons_append, run]
    cases step t s a with
    | ub => rfl
    | throw e => rfl
    | ok r =>
      simp only [Res.ok_bind]
      rw [run_append t l l']
      cases run t r.1 l with
      | ub => rfl
      | throw e => rfl
      | ok q =>
        simp only [Res.ok_bind]
        cases run t q.1 l' <;> rfl

/-- What the program says agrees with the state. -/
structure Sim (past : List Op) (s : State) : Prop where
  inv : Inv s
  next : s.next = past.countP isMake
  obj : ∀ w c, s.vars w = some c → objOf past w = some c.obj
  log : s.log = events past

theorem sim_step {t : Bool} {past : List Op} {s s' : State} {op : Op} {o : Out} (h : Sim past s) (hp : Plain op) (hs : step t s op = .ok (s', o)) :
    Sim (op :: past) s' := by
  have hi := inv_step h.inv hp hs
  cases op with
  | make w ok =>
    simp only [step] at hs
    split at hs
    · cases hs
    · cases ok <;> cases hs
      · exact ⟨h.inv, by simpa [isMake] using h.next, h.obj, h.log⟩
      · refine ⟨hi, ?_, ?_, ?_⟩
        · rw [List.countP_cons_of_pos (by rfl), ← h.next]
        · intro v c hv
          simp only at hv
          simp only [objOf]
          by_cases e : v = w
          · subst e
            rw [upd_self] at hv
            cases hv
            rw [if_pos rfl, h.next]
          · rw [upd_ne _ _ e] at hv
            rw [if_neg (Ne.symm e)]
            exact h.obj v c hv
        · simp only [events]
          rw [h.next, h.log]
  | destroy w =>
    simp only [step] at hs
    split at hs
    · cases hs
    · simp only [destroy, Res.bind_eq_ok] at hs
      obtain ⟨s1, ⟨n, hg, e1⟩, e2⟩ := hs
      cases e1; cases e2
      rw [get_ok] at hg
      refine ⟨hi, by simpa [isMake] using h.next, ?_, ?_⟩
      · intro v c hv
        simp only [objOf]
        by_cases e : v = w
        · subst e
          simp only [upd_self] at hv
          cases hv
          exact h.obj v ⟨n, true⟩ hg
        · simp only [upd_ne _ _ e] at hv
          exact h.obj v c hv
      · simp only [events]
        rw [h.obj _ _ hg, h.log]
        rfl
  | use w =>
    simp only [step] at hs
    split at hs
    · cases hs
    · simp only [Res.bind_eq_ok] at hs
      obtain ⟨n, hg, e⟩ := hs
      cases e
      exact ⟨h.inv, by simpa [isMake] using h.next, h.obj, h.log⟩
  | leave w =>
    simp only [step] at hs
    split at hs
    · cases hs
    · cases hs
      refine ⟨hi, by simpa [isMake] using h.next, ?_, h.log⟩
      intro v c hv
      simp only [objOf]
      by_cases e : v = w
      · subst e; simp only [upd_self] at hv; cases hv
      · simp only [upd_ne _ _ e] at hv; exact h.obj v c hv
  | copy w v => exact hp.elim
  | assign w v => exact hp.elim

theorem sim_run {t : Bool} : ∀ {l past : List Op} {s s' : State} {o : List Out}, Sim past s → (∀ op ∈ l, Plain op) → run t s l = .ok (s', o) → Sim (l.reverse ++ past) s'
  | [], past, s, s', o, h, _, hr => by
    simp only [run] at hr
    cases hr
    exact h
  | a :: l, past, s, s', o, h, hp, hr => by
    simp only [run, Res.bind_eq_ok] at hr
    obtain ⟨r, hs, q, hq, e⟩ := hr
    cases e
    have := sim_run (sim_step h (hp a (by simp)) (o := r.2) hs) (fun op ho => hp op (by simp [ho])) (o := q.2) hq
    simpa using this

theorem sim_init : Sim [] init := ⟨inv_init, rfl, by simp [init], rfl⟩

/-- **C184.**  Constructors run where variables are defined, destructors where `Destroy` is called, and nowhere else: not when a variable goes out of scope.  Missing: programs
that copy variables (`c184_copy_violated`). -/
theorem c184_events_partial (t : Bool) (l : List Op) (hp : ∀ op ∈ l, Plain op) (s : State) (o : List Out) (h : run t init l = .ok (s, o)) : s.log = events l.reverse := by
  simpa using (sim_run sim_init hp h).log

/-- **C184.**  Every object is constructed once and destroyed at most once.  Missing: as above. -/
theorem c184_once_partial (t : Bool) (l : List Op) (hp : ∀ op ∈ l, Plain op) (s : State) (o : List Out) (h : run t init l = .ok (s, o)) (n : Nat) :
    s.log.count (.ctor n) = (if n < l.countP isMake then 1 else 0) ∧ s.log.count (.dtor n) ≤ s.log.count (.ctor n) := by
  have hs := sim_run sim_init hp h
  have hn := hs.next
  simp only [List.append_nil, List.countP_reverse] at hn
  have hc := hs.inv.ctor n
  refine ⟨hn ▸ hc, ?_⟩
  rw [hc]
  by_cases e : n < s.next
  · rw [if_pos e]; exact hs.inv.dtor n
  · rw [if_neg e, Nat.le_zero, List.count_eq_zero]
    exact fun hm => e (hs.inv.dlt n hm)

/-- **C184.**  A use of a variable in scope gives the object made with it, and is defined exactly until that object is destroyed; so is `Destroy`.  Missing: as above. -/
theorem c184_use_partial (t : Bool) (l : List Op) (hp : ∀ op ∈ l, Plain op) (s : State) (o : List Out) (h : run t init l = .ok (s, o)) (w : Nat) (hw : s.vars w ≠ none) :
    ∃ n, objOf l.reverse w = some n ∧
      (Event.dtor n ∉ events l.reverse → step t s (.use w) = .ok (s, .object n) ∧ ∃ s', step t s (.destroy w) = .ok (s', .done) ∧ s'.log = .dtor n :: s.log) ∧
      (Event.dtor n ∈ events l.reverse → step t s (.use w) = .ub ∧ step t s (.destroy w) = .ub) := by
  have hs := sim_run sim_init hp h
  rw [List.append_nil] at hs
  cases hv : s.vars w with
  | none => exact absurd hv hw
  | some c =>
    obtain ⟨n, a⟩ := c
    have ha := hs.inv.alive _ _ hv
    rw [hs.log] at ha
    refine ⟨n, hs.obj _ _ hv, fun hm => ?_, fun hm => ?_⟩
    · have : a = true := ha.2 hm
      subst this
      simp only [step, destroy, hv, get_ok.2 hv, Res.ok_bind]
      simp
    · have hf : a = false := by
        cases a
        · rfl
        · exact absurd hm (ha.1 rfl)
      subst hf
      simp only [step, destroy, get, hv]
      constructor <;> rfl

/-- No variable has the object `n`, and it will stay so. -/
theorem gone_run {t : Bool} {n : Nat} : ∀ {l : List Op} {s s' : State} {o : List Out}, Inv s → n < s.next → (∀ w c, s.vars w = some c → c.obj ≠ n) → (∀ op ∈ l, Plain op) →
    run t s l = .ok (s', o) → s'.log.count (.dtor n) = s.log.count (.dtor n)
  | [], s, s', o, _, _, _, _, hr => by
    simp only [run] at hr
    cases hr
    rfl
  | a :: l, s, s', o, hi, hn, hg, hp, hr => by
    simp only [run, Res.bind_eq_ok] at hr
    obtain ⟨r, hs, q, hq, e⟩ := hr
    cases e
    have hi' := inv_step hi (hp a (by simp)) (o := r.2) hs
    have key : n < r.1.next ∧ (∀ w c, r.1.vars w = some c → c.obj ≠ n) ∧ r.1.log.count (.dtor n) = s.log.count (.dtor n) := by
      have hpa := hp a (by simp)
      cases a with
      | make w ok =>
        simp only [step] at hs
        split at hs
        · cases hs
        · cases hs
          cases ok
          · exact ⟨hn, hg, rfl⟩
          · refine ⟨Nat.lt_succ_of_lt hn, ?_, ?_⟩
            · intro v c hv
              simp only [make, if_true] at hv
              by_cases e : v = w
              · subst e; rw [upd_self] at hv; cases hv; exact Nat.ne_of_gt hn
              · rw [upd_ne _ _ e] at hv; exact hg v c hv
            · simp [make]
      | destroy w =>
        simp only [step] at hs
        split at hs
        · cases hs
        · simp only [destroy, Res.bind_eq_ok] at hs
          obtain ⟨s1, ⟨k, hk, e1⟩, e2⟩ := hs
          cases e1; cases e2
          rw [get_ok] at hk
          have hkn := hg _ _ hk
          refine ⟨hn, ?_, ?_⟩
          · intro v c hv
            by_cases e : v = w
            · subst e; simp only [upd_self] at hv; cases hv; exact hkn
            · simp only [upd_ne _ _ e] at hv; exact hg v c hv
          · simp only at hkn
            rw [List.count_cons]
            simp [hkn]
      | use w =>
        simp only [step] at hs
        split at hs
        · cases hs
        · simp only [Res.bind_eq_ok] at hs
          obtain ⟨k, hk, e⟩ := hs
          cases e; exact ⟨hn, hg, rfl⟩
      | leave w =>
        simp only [step] at hs
        split at hs
        · cases hs
        · cases hs
          refine ⟨hn, ?_, rfl⟩
          intro v c hv
          by_cases e : v = w
          · subst e; simp only [upd_self] at hv; cases hv
          · simp only [upd_ne _ _ e] at hv; exact hg v c hv
      | copy w v => exact hpa.elim
      | assign w v => exact hpa.elim
    rw [← key.2.2]
    exact gone_run hi' key.1 key.2.1 (fun op ho => hp op (by simp [ho])) (o := q.2) hq

/-- While a variable is neither destroyed nor left, its object lives. -/
theorem keep_run {t : Bool} {w n : Nat} : ∀ {l : List Op} {s s' : State} {o : List Out}, Inv s → s.vars w = some ⟨n, true⟩ → (∀ op ∈ l, Plain op ∧ op ≠ .destroy w ∧ op ≠ .leave w) →
    run t s l = .ok (s', o) → s'.vars w = some ⟨n, true⟩ ∧ Inv s'
  | [], s, s', o, hi, hv, _, hr => by
    simp only [run] at hr
    cases hr
    exact ⟨hv, hi⟩
  | a :: l, s, s', o, hi, hv, hp, hr => by
    simp only [run, Res.bind_eq_ok] at hr
    obtain ⟨r, hs, q, hq, e⟩ := hr
    cases e
    obtain ⟨hpa, hnd, hnl⟩ := hp a (by simp)
    have hi' := inv_step hi hpa (o := r.2) hs
    have key : r.1.vars w = some ⟨n, true⟩ := by
      cases a with
      | make v ok =>
        simp only [step] at hs
        split at hs
        · cases hs
        · next hne =>
          cases hs
          cases ok
          · exact hv
          · simp only [make, if_true]
            rw [upd_ne]
            · exact hv
            · rintro rfl
              exact hne (by rw [hv]; simp)
      | destroy v =>
        simp only [step] at hs
        split at hs
        · cases hs
        · simp only [destroy, Res.bind_eq_ok] at hs
          obtain ⟨s1, ⟨k, hk, e1⟩, e2⟩ := hs
          cases e1; cases e2
          simp only
          rw [upd_ne _ _ (by rintro rfl; exact hnd rfl)]
          exact hv
      | use v =>
        simp only [step] at hs
        split at hs
        · cases hs
        · simp only [Res.bind_eq_ok] at hs
          obtain ⟨k, hk, e⟩ := hs
          cases e; exact hv
      | leave v =>
        simp only [step] at hs
        split at hs
        · cases hs
        · cases hs
          simp only
          rw [upd_ne _ _ (by rintro rfl; exact hnl rfl)]
          exact hv
      | copy w v => exact hpa.elim
      | assign w v => exact hpa.elim
    exact keep_run hi' key (fun op ho => hp op (by simp [ho])) (o := q.2) hq

/-- **C184.**  A variable with a scope guard that calls `Destroy` (the guard runs after whatever the body did, and before the variable goes out of scope): its object lives during the
body, and is destroyed exactly once, whatever is done later.  Missing: as above. -/
theorem c184_guard_partial (t : Bool) (pre body post : List Op) (w : Nat) (h1 : ∀ op ∈ pre, Plain op) (h2 : ∀ op ∈ body, Plain op ∧ op ≠ .destroy w ∧ op ≠ .leave w)
    (h3 : ∀ op ∈ post, Plain op) (s : State) (o : List Out) (h : run t init (pre ++ (.make w true :: (body ++ (.destroy w :: .leave w :: post)))) = .ok (s, o)) :
    s.log.count (.dtor (pre.countP isMake)) = 1 ∧ s.log.count (.ctor (pre.countP isMake)) = 1 ∧
    ∃ s1 o1, run t init (pre ++ .make w true :: body) = .ok (s1, o1) ∧ step t s1 (.use w) = .ok (s1, .object (pre.countP isMake)) := by
  have hall : ∀ op ∈ pre ++ (.make w true :: (body ++ (.destroy w :: .leave w :: post))), Plain op := by
    intro op ho
    simp only [List.mem_append, List.mem_cons] at ho
    rcases ho with ho | rfl | ho | rfl | rfl | ho
    · exact h1 op ho
    · trivial
    · exact (h2 op ho).1
    · trivial
    · trivial
    · exact h3 op ho
  have ho := c184_once_partial t _ hall s o h (pre.countP isMake)
  have hc1 : s.log.count (.ctor (pre.countP isMake)) = 1 := by
    rw [ho.1, if_pos]
    simp [List.countP_append, List.countP_cons, isMake]
  rw [run_append, Res.bind_eq_ok] at h
  obtain ⟨r0, hr0, h⟩ := h
  simp only [Res.bind_eq_ok] at h
  obtain ⟨q, h, _⟩ := h
  have hs0 := sim_run sim_init h1 (o := r0.2) hr0
  have hn := hs0.next
  simp only [List.append_nil, List.countP_reverse] at hn
  simp only [run, Res.bind_eq_ok] at h
  obtain ⟨r1, hm, q1, h, e1⟩ := h
  have hi1 := inv_step hs0.inv (op := .make w true) trivial (o := r1.2) hm
  have hv1 : r1.1.vars w = some ⟨pre.countP isMake, true⟩ := by
    simp only [step] at hm
    split at hm
    · cases hm
    · cases hm
      simp only [make, if_true]
      rw [upd_self, hn]
  rw [run_append, Res.bind_eq_ok] at h
  obtain ⟨r2, hb, h⟩ := h
  have hk := keep_run hi1 hv1 h2 (o := r2.2) hb
  have hrun1 : run t init (pre ++ .make w true :: body) = .ok (r2.1, r0.2 ++ (r1.2 :: r2.2)) := by
    rw [run_append, hr0]
    simp only [Res.ok_bind, run, hm, hb]
  have huse : step t r2.1 (.use w) = .ok (r2.1, .object (pre.countP isMake)) := by
    simp only [step, get_ok.2 hk.1, Res.ok_bind]
    rw [if_neg (by rw [hk.1]; simp)]
  refine ⟨?_, hc1, r2.1, _, hrun1, huse⟩
  refine Nat.le_antisymm (hc1 ▸ ho.2) ?_
  have hall' := c184_events_partial t _ hall s o (by
    rw [run_append, hr0]
    simp only [Res.ok_bind, run, hm, Res.bind_eq_ok]
    exact ⟨q, ⟨q1, by rw [run_append, hb]; exact h, e1⟩, by assumption⟩)
  rw [List.one_le_count_iff, hall']
  have hsb := sim_run sim_init (l := pre ++ .make w true :: body) (by
    intro op ho
    simp only [List.mem_append, List.mem_cons] at ho
    rcases ho with ho | rfl | ho
    · exact h1 op ho
    · trivial
    · exact (h2 op ho).1) hrun1
  have hob := hsb.obj _ _ hk.1
  have hmem : ∀ (l past : List Op) (e : Event), e ∈ events past → e ∈ events (l ++ past) := by
    intro l past e he
    induction l with
    | nil => exact he
    | cons a l ih =>
      rw [List.cons_append]
      unfold events
      split
      · rename_i heq; cases heq
      · rename_i heq; cases heq; exact List.mem_cons_of_mem _ ih
      · rename_i heq; cases heq; exact List.mem_append_right _ ih
      · rename_i heq; cases heq; exact ih
  have e : (pre ++ (.make w true :: (body ++ (.destroy w :: .leave w :: post)))).reverse =
      (post.reverse ++ [.leave w]) ++ (.destroy w :: ((pre ++ .make w true :: body).reverse ++ [])) := by simp
  rw [e]
  refine hmem _ _ _ ?_
  simp only [events, hob]
  exact List.mem_cons_self

/-- **C184.**  Without `Destroy`, the object of a variable that goes out of scope is never destroyed.  Missing: as above. -/
theorem c184_kept_partial (t : Bool) (pre body post : List Op) (w : Nat) (h1 : ∀ op ∈ pre, Plain op) (h2 : ∀ op ∈ body, Plain op ∧ op ≠ .destroy w ∧ op ≠ .leave w)
    (h3 : ∀ op ∈ post, Plain op) (s : State) (o : List Out) (h : run t init (pre ++ (.make w true :: (body ++ (.leave w :: post)))) = .ok (s, o)) :
    Event.dtor (pre.countP isMake) ∉ s.log ∧ Event.ctor (pre.countP isMake) ∈ s.log := by
  have hall : ∀ op ∈ pre ++ (.make w true :: (body ++ (.leave w :: post))), Plain op := by
    intro op ho
    simp only [List.mem_append, List.mem_cons] at ho
    rcases ho with ho | rfl | ho | rfl | ho
    · exact h1 op ho
    · trivial
    · exact (h2 op ho).1
    · trivial
    · exact h3 op ho
  have ho := c184_once_partial t _ hall s o h (pre.countP isMake)
  have hc1 : s.log.count (.ctor (pre.countP isMake)) = 1 := by
    rw [ho.1, if_pos]
    simp [List.countP_append, List.countP_cons, isMake]
  refine ⟨?_, List.one_le_count_iff.1 (Nat.le_of_eq hc1.symm)⟩
  rw [run_append, Res.bind_eq_ok] at h
  obtain ⟨r0, hr0, h⟩ := h
  simp only [Res.bind_eq_ok] at h
  obtain ⟨q, h, eq⟩ := h
  cases eq
  have hs0 := sim_run sim_init h1 (o := r0.2) hr0
  have hn := hs0.next
  simp only [List.append_nil, List.countP_reverse] at hn
  simp only [run, Res.bind_eq_ok] at h
  obtain ⟨r1, hm, q1, h, e1⟩ := h
  cases e1
  have hi1 := inv_step hs0.inv (op := .make w true) trivial (o := r1.2) hm
  have hv1 : r1.1.vars w = some ⟨pre.countP isMake, true⟩ := by
    simp only [step] at hm
    split at hm
    · cases hm
    · cases hm
      simp only [make, if_true]
      rw [upd_self, hn]
  rw [run_append, Res.bind_eq_ok] at h
  obtain ⟨r2, hb, h⟩ := h
  have hk := keep_run hi1 hv1 h2 (o := r2.2) hb
  simp only [run, Res.bind_eq_ok] at h
  obtain ⟨q2, ⟨r3, hl, q3, h, e2⟩, e3⟩ := h
  cases e2; cases e3
  have hnl := (hk.2.alive _ _ hk.1).1 rfl
  have hi3 := inv_step hk.2 (op := .leave w) trivial (o := r3.2) hl
  simp only [step] at hl
  split at hl
  · cases hl
  · cases hl
    have hg := gone_run (n := pre.countP isMake) hi3 (hk.2.lt _ _ hk.1) (by
      intro v c hv
      by_cases e : v = w
      · subst e; simp only [upd_self] at hv; cases hv
      · simp only [upd_ne _ _ e] at hv
        exact fun x => e (hk.2.inj _ _ _ _ hv hk.1 x)) h3 (o := q3.2) h
    rw [← List.count_eq_zero] at hnl ⊢
    rw [hg]
    exact hnl

/-- **C184.**  If the constructor of `T` throws, so does that of `Destructible`: nothing was made, and the variable does not exist. -/
theorem c184_thrown (t : Bool) (s : State) (w : Nat) (h : s.vars w = none) : step t s (.make w false) = .ok (s, .thrown) := by
  simp [step, make, h]

/-- **C184 is violated** for copies: a constant `Destructible` can be copied and any can be assigned, but no constructor of `T` runs.  If `T` is not trivially copyable, then in every
state the copy cannot be used, and an assigned variable not any more, though the object that it had is never destroyed; for a trivially copyable `T` a single object is destroyed
twice. -/
theorem c184_copy_violated :
    (∀ (s : State) (w v : Nat) (c : Cell), s.vars w = none → s.vars v = some c → ∃ s', step false s (.copy w v) = .ok (s', .done) ∧ s'.log = s.log ∧
      step false s' (.use w) = .ub ∧ step false s' (.destroy w) = .ub) ∧
    (∀ (s : State) (w v : Nat) (c c' : Cell), s.vars w = some c' → s.vars v = some c → ∃ s', step false s (.assign w v) = .ok (s', .done) ∧ s'.log = s.log ∧
      step false s' (.use w) = .ub ∧ step false s' (.destroy w) = .ub) ∧
    ∃ s o, run true init [.make 0 true, .copy 1 0, .destroy 0, .destroy 1] = .ok (s, o) ∧ s.log.count (.ctor 0) = 1 ∧ s.log.count (.dtor 0) = 2 := by
  refine ⟨?_, ?_, ⟨_, _, rfl, by decide, by decide⟩⟩
  · intro s w v c hw hv
    refine ⟨copyBytes false s w c, ?_, rfl, ?_, ?_⟩
    · simp only [step, hw, hv]
    · simp [step, get, copyBytes, upd_self]
    · simp only [step, destroy, get, copyBytes, upd_self]
      rfl
  · intro s w v c c' hw hv
    refine ⟨copyBytes false s w c, ?_, rfl, ?_, ?_⟩
    · simp only [step, hw, hv]
    · simp [step, get, copyBytes, upd_self]
    · simp only [step, destroy, get, copyBytes, upd_self]
      rfl

/-! ### Cases -/

/-- Two variables and one that is defined again, with guards; a constructor that throws. -/
def demo : List Op := [.make 5 true, .make 7 true, .make 9 false, .use 7, .destroy 7, .leave 7, .make 7 true, .use 7, .use 5, .destroy 7, .leave 7, .destroy 5, .leave 5]

example : (run false init demo).bind (fun r => .ok (r.1.log.reverse, r.2)) =
    .ok ([.ctor 0, .ctor 1, .dtor 1, .ctor 2, .dtor 2, .dtor 0], [.done, .done, .thrown, .object 1, .done, .done, .done, .object 2, .object 0, .done, .done, .done, .done]) := rfl

example : ∀ op ∈ demo, Plain op := by
  intro op h
  simp only [demo, List.mem_cons, List.not_mem_nil, or_false] at h
  rcases h with rfl | rfl | rfl | rfl | rfl | rfl | rfl | rfl | rfl | rfl | rfl | rfl | rfl <;> trivial

/-- A body with another variable (for `c184_guard_partial`). -/
example : ∃ s o, run false init ([.make 3 true] ++ (.make 0 true :: ([.use 0, .make 1 true, .destroy 3] ++ (.destroy 0 :: .leave 0 :: [.make 0 true, .destroy 0])))) = .ok (s, o) ∧
    s.log.count (.dtor 1) = 1 := ⟨_, _, rfl, by decide⟩

/-- (for `c184_kept_partial`) -/
example : ∃ s o, run false init ([.make 3 true] ++ (.make 0 true :: ([.use 0, .destroy 3] ++ (.leave 0 :: [.make 0 true, .destroy 0])))) = .ok (s, o) ∧
    s.log = [.dtor 2, .ctor 2, .dtor 0, .ctor 1, .ctor 0] := ⟨_, _, rfl, rfl⟩

/-- Destroyed twice. -/
example : run false init [.make 0 true, .destroy 0, .destroy 0] = .ub := rfl

end Verif.Destructible
