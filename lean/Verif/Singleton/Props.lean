import Verif.Singleton.Model

/-! # Singletons (C104) -/

namespace Verif.Singleton

/-- Reachable states of `shared_singleton` with calls that do not overlap. -/
def Shared (s : State) : Prop :=
  s.making = [] ∧ ((s.wp = none ∧ s.created = 0 ∧ ∀ n, s.holders n = 0) ∨ (s.wp = some 0 ∧ s.created = 1 ∧ ∀ n, n ≠ 0 → s.holders n = 0))

theorem shared_step {s s' : State} {a : Call} {o : Out} (hi : Shared s) (h : stepCall enterShared s a = .ok (s', o)) : Shared s' := by
  obtain ⟨hm, hi⟩ := hi
  cases a with
  | get ok =>
    rcases hi with ⟨hw, hc, hh⟩ | ⟨hw, hc, hh⟩
    · cases ok
      · simp [stepCall, enterShared, hw, construct, hm] at h
        obtain ⟨h, _⟩ := h; subst h
        exact ⟨rfl, .inl ⟨rfl, hc, hh⟩⟩
      · simp [stepCall, enterShared, hw, construct, hm, hc] at h
        obtain ⟨h, _⟩ := h; subst h
        exact ⟨rfl, .inr ⟨rfl, rfl, fun n hn => by simp [upd, hn, hh]⟩⟩
    · simp only [stepCall, enterShared, hw, lock] at h
      split at h
      · simp at h
        obtain ⟨h, _⟩ := h; subst h
        exact ⟨hm, .inr ⟨hw, hc, hh⟩⟩
      · simp at h
        obtain ⟨h, _⟩ := h; subst h
        exact ⟨hm, .inr ⟨rfl, hc, fun n hn => by simp [upd, hn, hh n hn]⟩⟩
  | drop n =>
    simp only [stepCall, step] at h
    split at h <;> simp at h
    rename_i hn
    obtain ⟨h, _⟩ := h; subst h
    refine ⟨hm, ?_⟩
    rcases hi with ⟨hw, hc, hh⟩ | ⟨hw, hc, hh⟩
    · exact absurd (hh n) hn
    · exact .inr ⟨hw, hc, fun k hk => by
        have := hh k hk
        simp only [upd]
        split <;> simp_all⟩

theorem shared_run : ∀ (l : List Call) (s s' : State) (o : List Out), Shared s → runCalls enterShared s l = .ok (s', o) → Shared s'
  | [], s, s', o, hi, h => by simp [runCalls] at h; exact h.1 ▸ hi
  | a :: l, s, s', o, hi, h => by
    simp only [runCalls, Res.bind_eq_ok] at h
    obtain ⟨⟨s1, o1⟩, h1, ⟨s2, o2⟩, h2, h3⟩ := h
    simp at h3
    exact shared_run l s1 s' o2 (shared_step hi h1) (h3.1 ▸ h2)

theorem shared_init : Shared init := ⟨rfl, .inl ⟨rfl, rfl, fun _ => rfl⟩⟩

/-- **C104.**  `shared_singleton` makes at most one instance. Missing: calls that overlap (`c104_race_violated`). -/
theorem c104_one_partial (l : List Call) (s : State) (o : List Out) (h : runCalls enterShared init l = .ok (s, o)) : s.created ≤ 1 := by
  rcases (shared_run l _ _ o shared_init h).2 with ⟨_, hc, _⟩ | ⟨_, hc, _⟩ <;> omega

/-- **C104.**  Every call returns the instance while it lives, nullptr after its death, for ever; the first call makes it. -/
theorem c104_shared (l : List Call) (s : State) (o : List Out) (h : runCalls enterShared init l = .ok (s, o)) :
    (s.created = 0 → ∃ s', stepCall enterShared s (.get true) = .ok (s', .ptr (some 0)) ∧ s'.holders 0 = 1) ∧
    (s.created = 1 → 0 < s.holders 0 → ∃ s', (∀ ok, stepCall enterShared s (.get ok) = .ok (s', .ptr (some 0))) ∧ s'.holders 0 = s.holders 0 + 1) ∧
    (s.created = 1 → s.holders 0 = 0 → ∀ l' s' o', runCalls enterShared s l' = .ok (s', o') → ∀ x ∈ o', x = .ptr none) := by
  have hi := shared_run l _ _ o shared_init h
  refine ⟨?_, ?_, ?_⟩
  · intro hc
    rcases hi.2 with ⟨hw, _, _⟩ | ⟨_, hc', _⟩
    · exact ⟨_, by simp [stepCall, enterShared, hw, construct, hc]; rfl, by simp [upd]⟩
    · omega
  · intro hc hh
    rcases hi.2 with ⟨_, hc', _⟩ | ⟨hw, _, _⟩
    · omega
    · have : s.holders 0 ≠ 0 := by omega
      exact ⟨_, by intro ok; simp [stepCall, enterShared, hw, lock, this]; rfl, by simp [upd]⟩
  · intro hc hh l'
    have hw : s.wp = some 0 := by
      rcases hi.2 with ⟨_, hc', _⟩ | ⟨hw, _, _⟩
      · omega
      · exact hw
    have h0 : ∀ n, s.holders n = 0 := by
      rcases hi.2 with ⟨_, _, h⟩ | ⟨_, _, h⟩
      · exact h
      · intro n; by_cases hn : n = 0
        · rw [hn, hh]
        · exact h n hn
    induction l' with
    | nil => intro s' o' hr; simp [runCalls] at hr; obtain ⟨_, rfl⟩ := hr; simp
    | cons a l' ih =>
      intro s' o' hr
      cases a with
      | get ok =>
        have : stepCall enterShared s (.get ok) = .ok (s, .ptr none) := by simp [stepCall, enterShared, hw, lock, hh]
        simp only [runCalls, this, Res.bind_eq_ok] at hr
        obtain ⟨⟨s1, o1⟩, h0, hr⟩ := hr
        simp at h0
        obtain ⟨rfl, rfl⟩ := h0
        obtain ⟨⟨s2, o2⟩, h1, h2⟩ := hr
        simp at h2
        intro x hx
        rw [← h2.2] at hx
        rcases List.mem_cons.mp hx with rfl | hx
        · rfl
        · exact ih s2 o2 h1 x hx
      | drop n => simp [runCalls, stepCall, step, h0] at hr

/-- Reachable states of `ondemand_singleton` with calls that do not overlap. -/
def Demand (s : State) : Prop :=
  s.making = [] ∧ (∀ n, s.holders n ≠ 0 → s.wp = some n) ∧ (∀ n, s.created ≤ n → s.holders n = 0)

theorem demand_step {s s' : State} {a : Call} {o : Out} (hi : Demand s) (h : stepCall enterDemand s a = .ok (s', o)) :
    Demand s' ∧ ∀ ok, a = .get ok → (∃ n, o = .ptr (some n) ∧ s'.holders n ≠ 0) ∨ (ok = false ∧ o = .failed) := by
  obtain ⟨hm, hi, hc⟩ := hi
  cases a with
  | get ok =>
    have mk : ∀ (hz : ∀ n, s.holders n = 0) (s' : State) (o : Out), construct { s with making := 0 :: s.making } 0 ok = (s', o) →
        Demand s' ∧ ∀ ok', Call.get ok = .get ok' → (∃ n, o = .ptr (some n) ∧ s'.holders n ≠ 0) ∨ (ok' = false ∧ o = .failed) := by
      intro hz s' o h
      cases ok
      · simp [construct, hm] at h
        obtain ⟨h, ho⟩ := h; subst h; subst ho
        exact ⟨⟨rfl, fun n hn => absurd (hz n) hn, fun n _ => hz n⟩, fun ok' e => by cases e; exact .inr ⟨rfl, rfl⟩⟩
      · simp [construct, hm] at h
        obtain ⟨h, ho⟩ := h; subst h; subst ho
        refine ⟨⟨rfl, fun n hn => ?_, fun n hn => ?_⟩, fun ok' e => .inl ⟨s.created, rfl, by simp [upd]⟩⟩
        · by_cases e : n = s.created
          · simp [e]
          · simp [upd, e, hz] at hn
        · have : n ≠ s.created := by simp at hn; omega
          simp [upd, this, hz]
    simp only [stepCall, enterDemand] at h
    rcases hw : s.wp with _ | n
    · simp only [hw] at h
      simp only [Res.ok.injEq] at h
      refine mk (fun n => ?_) _ _ (by rw [hw]; exact h)
      by_cases hz : s.holders n = 0
      · exact hz
      · have := hi n hz; simp [hw] at this
    · simp only [hw, lock] at h
      by_cases hz : s.holders n = 0
      · simp only [hz, if_true, Res.ok.injEq] at h
        refine mk (fun k => ?_) _ _ (by rw [hw]; exact h)
        by_cases hk : s.holders k = 0
        · exact hk
        · have := hi k hk; simp [hw] at this; subst this; exact hz
      · simp [hz] at h
        obtain ⟨h, ho⟩ := h; subst h; subst ho
        refine ⟨⟨hm, fun k hk => ?_, fun k hk => ?_⟩, fun ok' e => .inl ⟨n, rfl, by simp [upd]⟩⟩
        · by_cases e : k = n
          · simp [e]
          · simp [upd, e] at hk; exact hw ▸ hi k hk
        · have : k ≠ n := by rintro rfl; exact hz (hc k hk)
          simp [upd, this]; exact hc k hk
  | drop n =>
    simp only [stepCall, step] at h
    split at h <;> simp at h
    rename_i hn
    obtain ⟨h, _⟩ := h; subst h
    refine ⟨⟨hm, fun k hk => ?_, fun k hk => ?_⟩, fun ok e => by cases e⟩
    · by_cases e : k = n
      · subst e; exact hi k hn
      · simp [upd, e] at hk; exact hi k hk
    · by_cases e : k = n
      · subst e; exact absurd (hc k hk) hn
      · simp [upd, e]; exact hc k hk

theorem demand_run : ∀ (l : List Call) (s s' : State) (o : List Out), Demand s → runCalls enterDemand s l = .ok (s', o) → Demand s'
  | [], s, s', o, hi, h => by simp [runCalls] at h; exact h.1 ▸ hi
  | a :: l, s, s', o, hi, h => by
    simp only [runCalls, Res.bind_eq_ok] at h
    obtain ⟨⟨s1, o1⟩, h1, ⟨s2, o2⟩, h2, h3⟩ := h
    simp at h3
    exact demand_run l s1 s' o2 (demand_step hi h1).1 (h3.1 ▸ h2)

theorem demand_init : Demand init := ⟨rfl, fun n h => by simp [init] at h, fun _ _ => rfl⟩

/-- **C104.**  At most one instance of `ondemand_singleton` lives at a time. Missing: calls that overlap (`c104_race_violated`). -/
theorem c104_one_alive_partial (l : List Call) (s : State) (o : List Out) (h : runCalls enterDemand init l = .ok (s, o)) (n k : Nat)
    (hn : s.holders n ≠ 0) (hk : s.holders k ≠ 0) : n = k := by
  have hi := demand_run l _ _ o demand_init h
  have h1 := hi.2.1 n hn
  have h2 := hi.2.1 k hk
  simp_all

/-- and every call returns it, alive (a new one if there is none), or throws what the constructor throws. -/
theorem c104_demand (l : List Call) (s s' : State) (o : List Out) (r : Out) (h : runCalls enterDemand init l = .ok (s, o)) (ok : Bool)
    (hs : stepCall enterDemand s (.get ok) = .ok (s', r)) :
    ((∃ n, r = .ptr (some n) ∧ s'.holders n ≠ 0) ∨ (ok = false ∧ r = .failed)) ∧ ∀ n, s.holders n ≠ 0 → r = .ptr (some n) := by
  have hi := demand_run l _ _ o demand_init h
  refine ⟨(demand_step hi hs).2 ok rfl, fun n hn => ?_⟩
  have := hi.2.1 n hn
  simp [stepCall, enterDemand, this, lock, hn] at hs
  exact hs.2.symm

/-- A call of either function hands out what it counts. -/
theorem count_step {enter : State → Nat → State × Out} (he : enter = enterShared ∨ enter = enterDemand) {s s' : State} {a : Call} {o : Out}
    (hz : ∀ n, s.created ≤ n → s.holders n = 0) (h : stepCall enter s a = .ok (s', o)) (n : Nat) :
    s'.holders n + (if a = .drop n then 1 else 0) = s.holders n + (if o = .ptr (some n) then 1 else 0) ∧ ∀ k, s'.created ≤ k → s'.holders k = 0 := by
  have mk : ∀ (s s' : State) (ok : Bool) (o : Out), (∀ n, s.created ≤ n → s.holders n = 0) → construct s 0 ok = (s', o) →
      s'.holders n = s.holders n + (if o = .ptr (some n) then 1 else 0) ∧ ∀ k, s'.created ≤ k → s'.holders k = 0 := by
    intro s s' ok o hz h
    cases ok <;> simp only [construct, if_true, Bool.false_eq_true, if_false, Prod.mk.injEq] at h
    · obtain ⟨rfl, rfl⟩ := h; exact ⟨by simp, hz⟩
    · obtain ⟨rfl, rfl⟩ := h
      refine ⟨?_, fun k hk => ?_⟩
      · by_cases hn : n = s.created
        · simp [upd, hn, hz]
        · have : ¬ s.created = n := fun h => hn h.symm
          simp [upd, hn, this]
      · have : k ≠ s.created := by simp only at hk; omega
        simp only [upd, this, if_false]; exact hz k (by simp only at hk; omega)
  cases a with
  | drop k =>
    simp only [stepCall, step] at h
    split at h
    · cases h
    · rename_i hk
      simp only [Res.ok.injEq, Prod.mk.injEq] at h
      obtain ⟨rfl, rfl⟩ := h
      refine ⟨?_, fun j hj => ?_⟩
      · by_cases hn : n = k
        · subst hn; simp [upd]; omega
        · have : ¬ k = n := fun h => hn h.symm
          simp [upd, hn, this]
      · have := hz j hj
        by_cases hjk : j = k <;> simp [upd, hjk, this]
        subst hjk; omega
  | get ok =>
    have lk : ∀ w, s.holders w ≠ 0 → (upd s.holders w (s.holders w + 1) n = s.holders n + (if w = n then 1 else 0)) ∧
        ∀ k, s.created ≤ k → upd s.holders w (s.holders w + 1) k = 0 := by
      intro w hw
      refine ⟨?_, fun k hk => ?_⟩
      · by_cases hn : n = w
        · simp [upd, hn]
        · have : ¬ w = n := fun h => hn h.symm
          simp [upd, hn, this]
      · have hkw : k ≠ w := by rintro rfl; exact hw (hz k hk)
        simp [upd, hkw, hz k hk]
    rcases he with rfl | rfl
    · cases hw : s.wp with
      | none =>
        simp only [stepCall, enterShared, hw, Res.ok.injEq] at h
        have := mk _ s' ok o (by exact hz) h
        simpa using this
      | some w =>
        by_cases h0 : s.holders w = 0
        · simp [stepCall, enterShared, hw, lock, h0] at h
          obtain ⟨rfl, rfl⟩ := h
          exact ⟨by simp, hz⟩
        · simp [stepCall, enterShared, hw, lock, h0] at h
          obtain ⟨rfl, rfl⟩ := h
          have := lk w h0
          simpa using this
    · cases hw : s.wp with
      | none =>
        simp only [stepCall, enterDemand, hw, Res.ok.injEq] at h
        have := mk _ s' ok o (by exact hz) h
        simpa using this
      | some w =>
        by_cases h0 : s.holders w = 0
        · simp only [stepCall, enterDemand, hw, lock, h0, if_true, Res.ok.injEq] at h
          have := mk _ s' ok o (by exact hz) h
          simpa using this
        · simp [stepCall, enterDemand, hw, lock, h0] at h
          obtain ⟨rfl, rfl⟩ := h
          have := lk w h0
          simpa using this

theorem count_run {enter : State → Nat → State × Out} (he : enter = enterShared ∨ enter = enterDemand) : ∀ (l : List Call) (s s' : State) (o : List Out),
    (∀ n, s.created ≤ n → s.holders n = 0) → runCalls enter s l = .ok (s', o) → ∀ n, s'.holders n + l.count (.drop n) = s.holders n + o.count (.ptr (some n))
  | [], s, s', o, _, h, n => by simp [runCalls] at h; simp [h.1, h.2]
  | a :: l, s, s', o, hz, h, n => by
    simp only [runCalls, Res.bind_eq_ok] at h
    obtain ⟨⟨s1, o1⟩, h1, ⟨s2, o2⟩, h2, h3⟩ := h
    simp at h3
    obtain ⟨rfl, rfl⟩ := h3
    have hs := count_step he hz h1 n
    have ih := count_run he l s1 s2 o2 hs.2 h2 n
    simp only [List.count_cons, beq_iff_eq]
    omega

/-- **C104.**  What "lives" means in the theorems above: an instance has as many holders as pointers to it were handed out and not destroyed yet. -/
theorem c104_holders (l : List Call) (s : State) (o : List Out) (n : Nat) (h : runCalls enterShared init l = .ok (s, o) ∨ runCalls enterDemand init l = .ok (s, o)) :
    s.holders n + l.count (.drop n) = o.count (.ptr (some n)) := by
  have hz : ∀ n, init.created ≤ n → init.holders n = 0 := fun _ _ => rfl
  rcases h with h | h
  · have := count_run (Or.inl rfl) l init s o hz h n
    simpa [init] using this
  · have := count_run (Or.inr rfl) l init s o hz h n
    simpa [init] using this

/-- **C104 is violated** for calls that overlap (the `weak_ptr` is not protected): two threads each make an instance, and both live. -/
theorem c104_race_violated :
    (∃ s o, run enterShared init [.enter 1, .enter 2, .make 1 true, .make 2 true] = .ok (s, o) ∧ s.created = 2 ∧ s.holders 0 = 1 ∧ s.holders 1 = 1) ∧
    (∃ s o, run enterDemand init [.enter 1, .enter 2, .make 1 true, .make 2 true] = .ok (s, o) ∧ s.holders 0 = 1 ∧ s.holders 1 = 1) :=
  ⟨⟨_, _, rfl, rfl, rfl, rfl⟩, ⟨_, _, rfl, rfl, rfl⟩⟩

-- Non-vacuity: made, shared, dropped by both, gone; and made again on demand.
example : (runCalls enterShared init [.get true, .get true, .drop 0, .drop 0, .get true]).bind (fun r => .ok r.2)
    = .ok [.ptr (some 0), .ptr (some 0), .busy, .busy, .ptr none] := rfl
example : (runCalls enterDemand init [.get false, .get true, .get true, .drop 0, .drop 0, .get true]).bind (fun r => .ok r.2)
    = .ok [.failed, .ptr (some 0), .ptr (some 0), .busy, .busy, .ptr (some 1)] := rfl

end Verif.Singleton
