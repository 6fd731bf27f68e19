import Verif.AsyncGen.Lemmas

/-! # C97: an asynchronous generator hands every value to its consumer once -/

namespace Verif.AsyncGen

variable {σ α : Type}

/-- **C97.**  Whatever producers, consumers and generator objects do, and in whatever order the things awaited get ready, what a producer gives is what its
body does from its start, in order; and that is determined by how much it gave. -/
theorem c97_sequence (body : σ → Next σ α) (l : List (Act σ)) (s : State σ α) (hr : run body init l = .ok s) (h : Nat) (x : σ) (hx : s.start h = some x)
    (hlt : h < s.count) :
    (∃ o, Trace body x (seen s.told h) o) ∧ ∀ l' o', Trace body x l' o' → l'.length = (seen s.told h).length → l' = seen s.told h := by
  obtain ⟨y, h1, h2⟩ := (inv_run body l _ s (inv_init body) hr).f.fits h hlt
  rw [hx] at h1; cases h1
  obtain ⟨o, ho⟩ := fits_dead body x _ _ h2
  exact ⟨⟨o, ho⟩, fun l' o' h' hl => trace_unique body x l' _ o' o h' ho hl⟩

/-- **C97.**  Every await of a consumer is answered at most once, by the producer it awaits, before the next await; the last one is open if and only
if the consumer is suspended. Missing: that an open await is answered if the generator is destroyed (`c97_destroyed_violated`). -/
theorem c97_once_partial (body : σ → Next σ α) (l : List (Act σ)) (s : State σ α) (hr : run body init l = .ok s) (c : Nat) :
    asks s.asked c = (match s.wait c with | some (h, _) => [h] | none => []) ++ answers s.told c := by
  have := (inv_run body l _ s (inv_init body) hr).f.once c
  rw [this]; cases s.wait c <;> rfl

/-- **C97.**  Two consumers never wait for the same producer.  A suspended consumer is the one its producer resumes, as long as the generator exists: the
producer is suspended at another await, and can go on. -/
theorem c97_waiting (body : σ → Next σ α) (l : List (Act σ)) (s : State σ α) (hr : run body init l = .ok s) (c h : Nat) (k : Kind) (hw : s.wait c = some (h, k)) :
    (∀ d k', s.wait d = some (h, k') → d = c)
    ∧ ((∃ g, s.gens g = some (some h)) → (∃ x, s.frames h = .busy x c k) ∧ ∃ s', step body s (.external h) = .ok s') := by
  have inv := inv_run body l _ s (inv_init body) hr
  have hi := inv.f.wait
  have hb := (hi c h k).1 hw
  refine ⟨?_, ?_⟩
  · intro d k' hd
    have := (hi d h k').1 hd; rw [hb] at this; cases this; rfl
  · rintro ⟨g, hg⟩
    have hal := (inv.g.own g h hg).2
    cases hf : s.frames h with
    | susp => rw [hf] at hb; cases hb
    | done => rw [hf] at hb; cases hb
    | dead => rw [hf] at hb; cases hb
    | gone => rw [hf] at hal; cases hal
    | busy x c' k' =>
      rw [hf] at hb; simp only [busyOf] at hb; cases hb
      exact ⟨⟨x, rfl⟩, by simp only [step, hf]; exact ⟨_, rfl⟩⟩

/-- **C97 is violated** when a generator is destroyed while a consumer awaits it: the consumer stays suspended whatever happens later, and it is undefined
when what the producer awaits gets ready. -/
theorem c97_destroyed_violated (body : σ → Next σ α) (l : List (Act σ)) (s s1 : State σ α) (hr : run body init l = .ok s) (c g h : Nat) (k : Kind)
    (hg : s.gens g = some (some h)) (hw : s.wait c = some (h, k)) (hd : step body s (.destroy g) = .ok s1) :
    ∀ (l' : List (Act σ)) (s' : State σ α), run body s1 l' = .ok s' → s'.wait c = some (h, k) ∧ step body s' (.external h) = .ub := by
  intro l' s' hr'
  have inv := inv_run body l _ s (inv_init body) hr
  obtain ⟨⟨x, hb⟩, -⟩ := (c97_waiting body l s hr c h k hw).2 ⟨g, hg⟩
  have hi1 := inv_step body s s1 _ inv hd
  have h1 : s1.frames h = .gone c k := by
    simp only [step, hg, release, hb] at hd
    cases hd; simp [upd]
  have h2 := gone_run body l' c h k s1 s' hi1 h1 hr'
  have hi2 := inv_run body l' s1 s' hi1 hr'
  exact ⟨(hi2.f.wait c h k).2 (by rw [h2]; rfl), by simp only [step, h2]⟩

/-- Case of `c97_destroyed_violated`: the producer awaits before the first value. -/
example : let body : Nat → Next Nat Nat := fun n => if n = 0 then .await 1 else .yield n (n + 1)
    ∃ s s1, run body init [.create 0 0, .begin 0 0 0] = .ok s ∧ s.gens 0 = some (some 0) ∧ s.wait 0 = some (0, .begin 0) ∧ step body s (.destroy 0) = .ok s1 :=
  ⟨_, _, rfl, rfl, rfl, rfl⟩

/-- The iterator of the operation that the act completes. -/
def iterOf (s : State σ α) : Act σ → Option Kind
  | .begin _ _ i => some (.begin i)
  | .inc _ i => some (.inc i)
  | .external h => match s.frames h with | .busy _ _ k => some k | _ => none
  | _ => none

/-- **C97.**  When an await is answered its consumer runs again.  A value: every iterator of that generator gives it, the one returned by `begin` as
well.  The end: the iterator is equal to `end()`.  An exception: an incremented iterator is equal to `end()`. -/
theorem c97_result (body : σ → Next σ α) (s s' : State σ α) (a : Act σ) (c h : Nat) (k : Kind) (r : Ans α) (hs : step body s a = .ok s')
    (hk : iterOf s a = some k) (ht : s'.told = (c, h, r) :: s.told) :
    s'.wait c = none
    ∧ (∀ v, r = .got v → (∀ j, s'.iters j = some (some h) → value s' j = some v) ∧ ∀ i, k = .begin i → s'.iters i = some (some h))
    ∧ (r = .ended → ∀ i, k = .begin i ∨ k = .inc i → s'.iters i = some none)
    ∧ (∀ e, r = .thrown e → ∀ i, k = .inc i → s'.iters i = some none) := by
  have hne : ∀ (p : Nat × Nat × Ans α) (t : List (Nat × Nat × Ans α)), t ≠ p :: t := fun p t e => by
    have := congrArg List.length e; simp at this
  have key : ∀ (s1 : State σ α) (x : σ) (h1 c1 : Nat), s1.told = s.told → s' = produce body s1 h1 x c1 k →
      s'.wait c = none
      ∧ (∀ v, r = .got v → (∀ j, s'.iters j = some (some h) → value s' j = some v) ∧ ∀ i, k = .begin i → s'.iters i = some (some h))
      ∧ (r = .ended → ∀ i, k = .begin i ∨ k = .inc i → s'.iters i = some none)
      ∧ (∀ e, r = .thrown e → ∀ i, k = .inc i → s'.iters i = some none) := by
    rintro s1 x h1 c1 he rfl
    simp only [produce] at ht ⊢
    cases hb : body x with
    | yield v y =>
      simp only [hb, deliver_told, he] at ht ⊢
      cases ht
      refine ⟨by simp [upd], ?_, ?_, ?_⟩
      · rintro w ⟨⟩
        refine ⟨?_, ?_⟩
        · intro j hj; simp [value, hj, upd]
        · rintro i rfl; simp [deliver, upd]
      · rintro ⟨⟩
      · rintro e ⟨⟩
    | ret =>
      simp only [hb, deliver_told, he] at ht ⊢
      cases ht
      refine ⟨by simp [upd], ?_, ?_, ?_⟩
      · rintro w ⟨⟩
      · rintro _ i (rfl | rfl) <;> simp [deliver, upd]
      · rintro e ⟨⟩
    | throw e =>
      simp only [hb, deliver_told, he] at ht ⊢
      cases ht
      refine ⟨by simp [upd], ?_, ?_, ?_⟩
      · rintro w ⟨⟩
      · rintro ⟨⟩
      · rintro e' _ i rfl; simp [deliver, upd]
    | await y => simp only [hb, he] at ht; exact absurd ht (hne _ _)
  cases a with
  | begin c1 g i =>
    simp only [iterOf] at hk; cases hk
    simp only [step] at hs
    split at hs
    · split at hs
      · cases hs; exact absurd ht (hne _ _)
      · simp only [advance] at hs
        split at hs
        · cases hs; refine key _ _ _ _ ?_ rfl; rfl
        · cases hs
      · cases hs
    · cases hs
  | inc c1 i =>
    simp only [iterOf] at hk; cases hk
    simp only [step] at hs
    split at hs
    · split at hs
      · simp only [advance] at hs
        split at hs
        · cases hs; refine key _ _ _ _ ?_ rfl; rfl
        · cases hs
      · cases hs
      · cases hs
    · cases hs
  | external h1 =>
    simp only [step] at hs
    split at hs
    · rename_i x c1 k1 hf
      simp only [iterOf, hf] at hk; cases hk
      cases hs; exact key _ _ _ _ rfl rfl
    · cases hs
    · cases hs
  | create => cases hk
  | empty => cases hk
  | move => cases hk
  | assign => cases hk
  | swap => cases hk
  | destroy => cases hk
  | deref => cases hk

/-- **C97.**  An iterator can be used: if its generator exists, its producer gave a value last and no consumer waits for it, `++` and `*` are defined. -/
theorem c97_usable (body : σ → Next σ α) (l : List (Act σ)) (s : State σ α) (hr : run body init l = .ok s) (g i h c : Nat) (v : α)
    (hg : s.gens g = some (some h)) (hi : s.iters i = some (some h)) (hv : (seen s.told h).getLast? = some (.got v)) (hw : ∀ d k, s.wait d ≠ some (h, k))
    (hc : s.wait c = none) : (∃ s', step body s (.inc c i) = .ok s') ∧ step body s (.deref c i) = .ok s ∧ value s i = some v := by
  have inv := inv_run body l _ s (inv_init body) hr
  obtain ⟨hlt, hal⟩ := inv.g.own g h hg
  obtain ⟨x, -, hf⟩ := inv.f.fits h hlt
  simp only [step, hc, if_true, hi, advance, value]
  cases hfr : s.frames h with
  | dead => rw [hfr] at hal; cases hal
  | gone => rw [hfr] at hal; cases hal
  | busy y d k => exact absurd ((inv.f.wait d h k).2 (by rw [hfr]; rfl)) (hw d k)
  | done e =>
    rw [hfr] at hf
    rcases (trace_got body x _ _ hf).2 rfl with h1 | ⟨e, h1⟩ <;> rw [hv] at h1 <;> cases h1
  | susp w y =>
    rw [hfr] at hf
    have h2 := hf.2
    rw [hv] at h2
    cases w with
    | none => cases h2
    | some w => simp at h2; subst h2; exact ⟨⟨_, rfl⟩, rfl, rfl⟩

/-- **C97.**  Every coroutine that is not destroyed belongs to exactly one generator. -/
theorem c97_owner (body : σ → Next σ α) (l : List (Act σ)) (s : State σ α) (hr : run body init l = .ok s) (h : Nat) :
    ((s.frames h ≠ .dead ∧ ∀ c k, s.frames h ≠ .gone c k) → ∃ g, s.gens g = some (some h) ∧ ∀ g', s.gens g' = some (some h) → g' = g)
    ∧ ∀ g, s.gens g = some (some h) → s.frames h ≠ .dead ∧ ∀ c k, s.frames h ≠ .gone c k := by
  have inv := (inv_run body l _ s (inv_init body) hr).g
  constructor
  · rintro ⟨hd, hd'⟩
    obtain ⟨g, hg⟩ := inv.all h (by
      cases e : s.frames h <;> simp [alive]
      · exact hd e
      · exact hd' _ _ e)
    exact ⟨g, hg, fun g' hg' => inv.uniq g' g h hg' hg⟩
  · intro g hg
    have := (inv.own g h hg).2
    exact ⟨(fun e => by rw [e] at this; cases this), (fun c k e => by rw [e] at this; cases this)⟩

/-- **C97.**  Construction, move, assignment, swap and destruction of generators are never undefined, nor is it when what a producer awaits gets ready while its
generator exists. -/
theorem c97_no_ub (body : σ → Next σ α) (l : List (Act σ)) (s : State σ α) (hr : run body init l = .ok s) (a : Act σ)
    (ha : match a with | .begin .. | .inc .. | .deref .. => False | .external h => ∃ g, s.gens g = some (some h) | _ => True) : step body s a ≠ .ub := by
  have inv := (inv_run body l _ s (inv_init body) hr).g
  have hrel : ∀ (s' : State σ α) (g : Nat) (c : Option Nat), s'.frames = s.frames → s.gens g = some c → release s' c ≠ .ub := by
    intro s' g c hf hg h
    cases c with
    | none => cases h
    | some k =>
      have := (inv.own g k hg).2
      simp only [release, hf] at h
      split at h
      · rename_i e; rw [e] at this; cases this
      · rename_i e; rw [e] at this; cases this
      · cases h
      · cases h
  intro h
  cases a with
  | create g x => simp only [step] at h; split at h <;> cases h
  | empty g => simp only [step] at h; split at h <;> cases h
  | move g k => simp only [step] at h; split at h <;> cases h
  | swap g k => simp only [step] at h; split at h <;> cases h
  | external k =>
    obtain ⟨g, hg⟩ := ha
    have := (inv.own g k hg).2
    simp only [step] at h
    split at h
    · cases h
    · rename_i e; rw [e] at this; cases this
    · cases h
  | destroy g =>
    simp only [step] at h
    split at h
    · rename_i c hc
      exact hrel { s with gens := upd s.gens g none } g c rfl hc h
    · cases h
  | assign g k =>
    simp only [step] at h
    split at h
    · rename_i b c hb hc
      by_cases e2 : g = k
      · subst e2; simp only [upd, if_true, release] at h; cases h
      · simp only [show upd s.gens k (some none) g = some b by simp [upd, if_neg e2, hb]] at h
        exact hrel { s with gens := upd (upd s.gens k (some none)) g (some c) } g b rfl hb h
    · cases h
  | begin => exact ha
  | inc => exact ha
  | deref => exact ha

/-- **C97.**  `begin` of an empty (or moved-from) generator is the end, without suspending the consumer. -/
theorem c97_begin_empty (body : σ → Next σ α) (s : State σ α) (c g i : Nat) (hc : s.wait c = none) (hg : s.gens g = some none) :
    ∃ s', step body s (.begin c g i) = .ok s' ∧ s'.iters i = some none ∧ s'.wait c = none ∧ s'.frames = s.frames :=
  ⟨{ s with iters := upd s.iters i (some none) }, by simp [step, hc, hg], by simp [upd], hc, rfl⟩

/-- **C97 is violated** as it is for generators: `begin` of a generator that has ended is undefined. -/
theorem c97_begin_ended_violated (body : σ → Next σ α) (l : List (Act σ)) (s : State σ α) (hr : run body init l = .ok s) (c g i h : Nat)
    (hg : s.gens g = some (some h)) (hc : s.wait c = none)
    (he : (seen s.told h).getLast? = some .ended ∨ ∃ e, (seen s.told h).getLast? = some (.thrown e)) : step body s (.begin c g i) = .ub := by
  have inv := inv_run body l _ s (inv_init body) hr
  obtain ⟨hlt, hal⟩ := inv.g.own g h hg
  obtain ⟨x, -, hf⟩ := inv.f.fits h hlt
  simp only [step, hc, if_true, hg, advance]
  have hbad : ∀ y, ¬ Trace body x (seen s.told h) (some y) := by
    intro y ht
    rcases (trace_got body x _ _ ht).1 rfl with h1 | ⟨a, h1⟩
    · rw [h1] at he; rcases he with he | ⟨e, he⟩ <;> cases he
    · rw [h1] at he; rcases he with he | ⟨e, he⟩ <;> cases he
  cases hfr : s.frames h with
  | dead => rfl
  | gone => rfl
  | done e => rfl
  | susp v y => rw [hfr] at hf; exact absurd hf.1 (hbad y)
  | busy y d k => rfl

/-- **C97 is violated** for a second consumer: to await a generator that another consumer awaits is undefined (its producer is resumed at an await that
is not ready). -/
theorem c97_second_violated (body : σ → Next σ α) (l : List (Act σ)) (s : State σ α) (hr : run body init l = .ok s) (c d g i h : Nat) (k : Kind)
    (hg : s.gens g = some (some h)) (hd : s.wait d = some (h, k)) (hc : s.wait c = none) :
    step body s (.begin c g i) = .ub ∧ (s.iters i = some (some h) → step body s (.inc c i) = .ub) := by
  obtain ⟨⟨x, hb⟩, -⟩ := (c97_waiting body l s hr d h k hd).2 ⟨g, hg⟩
  refine ⟨by simp [step, hc, hg, advance, hb], fun hi => by simp [step, hc, hi, advance, hb]⟩

/-! Cases. -/

/-- Yields 10, 11, …; awaits before every second value. -/
def sample (e : Option Exn) : Nat × Nat × Bool → Next (Nat × Nat × Bool) Nat
  | (_, 0, _) => match e with | none => .ret | some e => .throw e
  | (a, k + 1, false) => .yield a (a + 1, k, true)
  | (a, k + 1, true) => .await (a, k + 1, false)

def view {σ α : Type} (r : Res (State σ α)) : Option (List (Nat × Nat × Ans α) × List (Option (Option Nat)) × List (Option (Nat × Kind)) × Option α) :=
  match r with
  | .ok s => some (s.told, [s.iters 0, s.iters 1], [s.wait 0, s.wait 1], value s 0)
  | _ => none

example : view (run (sample none) init [.create 0 (10, 2, false), .begin 0 0 0, .inc 0 0])
    = some ([(0, 0, .got 10)], [some (some 0), none], [some (0, .inc 0), none], none) := rfl
-- two consumers with a producer each, the second one becomes ready first
example : view (run (sample none) init [.create 0 (10, 2, true), .create 1 (20, 2, true), .begin 0 0 0, .begin 1 1 1, .external 1, .external 0, .inc 0 0, .external 0])
    = some ([(0, 0, .got 11), (0, 0, .got 10), (1, 1, .got 20)], [some (some 0), some (some 1)], [none, none], some 11) := rfl
example : view (run (sample (some .general)) init [.create 0 (10, 1, false), .begin 0 0 0, .inc 0 0])
    = some ([(0, 0, .thrown .general), (0, 0, .got 10)], [some none, none], [none, none], none) := rfl
/-- **C97 is violated** by every generator on which `begin` is called again: the answer is not the first value but what the body does after all that it has given already (to whoever asked), and
every iterator made before shows that value, too. -/
theorem c97_begin_again_violated (body : σ → Next σ α) (l : List (Act σ)) (s s' : State σ α) (hr : run body init l = .ok s) (c g i h : Nat) (x : σ) (r : Ans α)
    (hs : step body s (.begin c g i) = .ok s') (ht : s'.told = (c, h, r) :: s.told) (hx : s'.start h = some x) (hlt : h < s'.count) :
    (∃ o, Trace body x (seen s.told h ++ [r]) o) ∧ (∀ l' o', Trace body x l' o' → l'.length = (seen s.told h).length + 1 → l' = seen s.told h ++ [r]) ∧
    ∀ v, r = .got v → ∀ j, s'.iters j = some (some h) → value s' j = some v := by
  have hr' : run body init (l ++ [.begin c g i]) = .ok s' := by
    have : ∀ (l : List (Act σ)) (s0 : State σ α), run body s0 l = .ok s → run body s0 (l ++ [.begin c g i]) = .ok s' := by
      intro l
      induction l with
      | nil =>
        intro s0 h0
        simp only [run, Res.ok.injEq] at h0
        subst h0
        simp only [List.nil_append, run, hs, Res.ok_bind]
      | cons a l ih =>
        intro s0 h0
        simp only [run] at h0
        obtain ⟨s1, e1, e2⟩ := Res.bind_eq_ok.mp h0
        simp only [List.cons_append, run, e1, Res.ok_bind]
        exact ih s1 e2
    exact this l init hr
  have hseen : seen s'.told h = seen s.told h ++ [r] := by rw [ht]; simp [seen]
  have hq := c97_sequence body _ s' hr' h x hx hlt
  rw [hseen] at hq
  refine ⟨hq.1, fun l' o' h' hl => hq.2 l' o' h' (by rw [hl]; simp), fun v hv j hj => ?_⟩
  exact ((c97_result body s s' _ c h (.begin i) r hs rfl ht).2.1 v hv).1 j hj

/-- `begin` twice skips a value. -/
theorem c97_begin_twice_violated : view (run (sample none) init [.create 0 (10, 2, false), .begin 0 0 1, .begin 0 0 0, .external 0])
    = some ([(0, 0, .got 11), (0, 0, .got 10)], [some (some 0), some (some 0)], [none, none], some 11) := rfl

end Verif.AsyncGen
