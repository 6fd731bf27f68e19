import Verif.AsyncGen.Spec

namespace Verif.AsyncGen

variable {σ α : Type}

/-! ## The body is deterministic -/

/-- `n` runs of the body between two suspensions. -/
def steps (body : σ → Next σ α) : Nat → σ → List (Ans α) × Option σ
  | 0, x => ([], some x)
  | n + 1, x =>
    match steps body n x with
    | (l, none) => (l, none)
    | (l, some s) =>
      match body s with
      | .await s' => (l, some s')
      | .yield a s' => (l ++ [.got a], some s')
      | .ret => (l ++ [.ended], none)
      | .throw e => (l ++ [.thrown e], none)

theorem trace_steps (body : σ → Next σ α) (x : σ) (l : List (Ans α)) (o : Option σ) (h : Trace body x l o) : ∃ n, steps body n x = (l, o) := by
  induction h with
  | start => exact ⟨0, rfl⟩
  | await l s s' _ hb ih => obtain ⟨n, hn⟩ := ih; exact ⟨n + 1, by simp [steps, hn, hb]⟩
  | got l s s' a _ hb ih => obtain ⟨n, hn⟩ := ih; exact ⟨n + 1, by simp [steps, hn, hb]⟩
  | ret l s _ hb ih => obtain ⟨n, hn⟩ := ih; exact ⟨n + 1, by simp [steps, hn, hb]⟩
  | throw l s e _ hb ih => obtain ⟨n, hn⟩ := ih; exact ⟨n + 1, by simp [steps, hn, hb]⟩

theorem steps_prefix (body : σ → Next σ α) (n m : Nat) (x : σ) : (steps body n x).1 <+: (steps body (n + m) x).1 := by
  induction m with
  | zero => exact List.prefix_refl _
  | succ m ih =>
    refine List.IsPrefix.trans ih ?_
    rw [show n + (m + 1) = (n + m) + 1 by omega, steps]
    generalize steps body (n + m) x = p
    obtain ⟨l, o⟩ := p
    cases o with
    | none => exact List.prefix_refl _
    | some s => simp only; cases body s <;> simp

theorem trace_unique (body : σ → Next σ α) (x : σ) (l l' : List (Ans α)) (o o' : Option σ) (h : Trace body x l o) (h' : Trace body x l' o')
    (hl : l.length = l'.length) : l = l' := by
  obtain ⟨n, hn⟩ := trace_steps body x l o h
  obtain ⟨m, hm⟩ := trace_steps body x l' o' h'
  rcases Nat.le_total n m with hnm | hnm
  · have := steps_prefix body n (m - n) x
    rw [show n + (m - n) = m by omega, hn, hm] at this
    exact this.eq_of_length hl
  · have := steps_prefix body m (n - m) x
    rw [show m + (n - m) = n by omega, hn, hm] at this
    exact (this.eq_of_length hl.symm).symm

theorem trace_got (body : σ → Next σ α) (x : σ) (l : List (Ans α)) (o : Option σ) (h : Trace body x l o) :
    (o.isSome = true → l = [] ∨ ∃ a, l.getLast? = some (.got a)) ∧ (o = none → l.getLast? = some .ended ∨ ∃ e, l.getLast? = some (.thrown e)) := by
  induction h with
  | start => simp
  | await l s s' _ hb ih => simpa using ih
  | got l s s' a _ hb ih => simp
  | ret l s _ hb ih => simp
  | throw l s e _ hb ih => simp

/-! ## Invariant -/

theorem seen_cons (told : List (Nat × Nat × Ans α)) (c h k : Nat) (a : Ans α) :
    seen ((c, h, a) :: told) k = if h = k then seen told k ++ [a] else seen told k := by
  simp only [seen, List.filter_cons]
  split <;> simp_all

def alive : Frame σ α → Bool
  | .dead => false
  | .gone .. => false
  | _ => true

def busyOf : Frame σ α → Option (Nat × Kind)
  | .busy _ c k => some (c, k)
  | .gone c k => some (c, k)
  | _ => none

def pend : Option (Nat × Kind) → List Nat
  | some (h, _) => [h]
  | none => []

def Fits (body : σ → Next σ α) (x : σ) (l : List (Ans α)) : Frame σ α → Prop
  | .susp v s => Trace body x l (some s) ∧ l.getLast? = v.map .got
  | .busy s _ _ => Trace body x l (some s)
  | .done _ => Trace body x l none
  | .dead => ∃ o, Trace body x l o
  | .gone _ _ => ∃ o, Trace body x l o

theorem fits_dead (body : σ → Next σ α) (x : σ) (l : List (Ans α)) (f : Frame σ α) (h : Fits body x l f) : ∃ o, Trace body x l o := by
  cases f with
  | susp v s => exact ⟨_, h.1⟩
  | busy s c k => exact ⟨_, h⟩
  | done e => exact ⟨_, h⟩
  | dead => exact h
  | gone c k => exact h

/-- About frames, waiting consumers and the two logs. -/
structure InvF (body : σ → Next σ α) (s : State σ α) : Prop where
  fresh : ∀ h, s.count ≤ h → s.frames h = .dead ∧ seen s.told h = []
  fits : ∀ h, h < s.count → ∃ x, s.start h = some x ∧ Fits body x (seen s.told h) (s.frames h)
  wait : ∀ c h k, s.wait c = some (h, k) ↔ busyOf (s.frames h) = some (c, k)
  once : ∀ c, asks s.asked c = pend (s.wait c) ++ answers s.told c

/-- About generator objects. -/
structure InvG (s : State σ α) : Prop where
  own : ∀ g h, s.gens g = some (some h) → h < s.count ∧ alive (s.frames h) = true
  uniq : ∀ g g' h, s.gens g = some (some h) → s.gens g' = some (some h) → g = g'
  all : ∀ h, alive (s.frames h) = true → ∃ g, s.gens g = some (some h)

structure Inv (body : σ → Next σ α) (s : State σ α) : Prop where
  f : InvF body s
  g : InvG s

theorem inv_init (body : σ → Next σ α) : Inv body (init : State σ α) := by
  refine ⟨⟨?_, ?_, ?_, ?_⟩, ⟨?_, ?_, ?_⟩⟩
  · intro h _; exact ⟨rfl, rfl⟩
  · intro h hh; exact absurd hh (Nat.not_lt_zero h)
  · intro c h k; simp [init, busyOf]
  · intro c; rfl
  · intro g h hh; cases hh
  · intro g g' h hh; cases hh
  · intro h hh; cases hh

@[simp] theorem deliver_frames (s : State σ α) (h c : Nat) (k : Kind) (r : Ans α) : (deliver s h c k r).frames = s.frames := by
  cases k <;> cases r <;> rfl
@[simp] theorem deliver_start (s : State σ α) (h c : Nat) (k : Kind) (r : Ans α) : (deliver s h c k r).start = s.start := by
  cases k <;> cases r <;> rfl
@[simp] theorem deliver_count (s : State σ α) (h c : Nat) (k : Kind) (r : Ans α) : (deliver s h c k r).count = s.count := by
  cases k <;> cases r <;> rfl
@[simp] theorem deliver_gens (s : State σ α) (h c : Nat) (k : Kind) (r : Ans α) : (deliver s h c k r).gens = s.gens := by
  cases k <;> cases r <;> rfl
@[simp] theorem deliver_wait (s : State σ α) (h c : Nat) (k : Kind) (r : Ans α) : (deliver s h c k r).wait = upd s.wait c none := by
  cases k <;> cases r <;> rfl
@[simp] theorem deliver_asked (s : State σ α) (h c : Nat) (k : Kind) (r : Ans α) : (deliver s h c k r).asked = s.asked := by
  cases k <;> cases r <;> rfl
@[simp] theorem deliver_told (s : State σ α) (h c : Nat) (k : Kind) (r : Ans α) : (deliver s h c k r).told = (c, h, r) :: s.told := by
  cases k <;> cases r <;> rfl

theorem asks_cons (l : List (Nat × Nat)) (c h d : Nat) : asks ((c, h) :: l) d = if c = d then h :: asks l d else asks l d := by
  simp only [asks, List.filter_cons]; split <;> simp_all
theorem answers_cons (l : List (Nat × Nat × Ans α)) (c h d : Nat) (r : Ans α) : answers ((c, h, r) :: l) d = if c = d then h :: answers l d else answers l d := by
  simp only [answers, List.filter_cons]; split <;> simp_all

/-- What a run of the producer `h` for the consumer `c` keeps. -/
theorem produce_inv (body : σ → Next σ α) (s : State σ α) (h : Nat) (x : σ) (c : Nat) (k : Kind) (hlt : h < s.count)
    (fresh : ∀ h, s.count ≤ h → s.frames h = .dead ∧ seen s.told h = [])
    (fits : ∀ h, h < s.count → ∃ x, s.start h = some x ∧ Fits body x (seen s.told h) (s.frames h))
    (me : ∃ y, s.start h = some y ∧ Trace body y (seen s.told h) (some x))
    (wait : ∀ d j k', ¬ d = c → (s.wait d = some (j, k') ↔ busyOf (s.frames j) = some (d, k')))
    (waitc : ∀ j k', ¬ j = h → busyOf (s.frames j) ≠ some (c, k'))
    (waith : ∀ d k', ¬ d = c → busyOf (s.frames h) ≠ some (d, k'))
    (once : ∀ d, ¬ d = c → asks s.asked d = pend (s.wait d) ++ answers s.told d)
    (oncec : asks s.asked c = h :: answers s.told c) : InvF body (produce body s h x c k) := by
  obtain ⟨y, hy, ht⟩ := me
  have key : ∀ (f : Frame σ α) (r : Ans α), busyOf f = none → Fits body y (seen s.told h ++ [r]) f →
      InvF body (deliver { s with frames := upd s.frames h f } h c k r) := by
    intro f r hb hf
    refine ⟨?_, ?_, ?_, ?_⟩
    · intro j hj
      simp only [deliver_count] at hj
      have : ¬ j = h := by omega
      simp only [deliver_frames, deliver_told, upd, if_neg this, seen_cons, if_neg (fun e : h = j => this e.symm)]
      exact fresh j hj
    · intro j hj
      simp only [deliver_count] at hj
      simp only [deliver_frames, deliver_told, deliver_start, upd, seen_cons]
      by_cases e : j = h
      · subst e; simp only [if_true]; exact ⟨y, hy, hf⟩
      · rw [if_neg e, if_neg (fun e' => e e'.symm)]; exact fits j hj
    · intro d j k'
      simp only [deliver_frames, deliver_wait, upd]
      by_cases e : j = h
      · subst e
        rw [if_pos rfl, hb]
        by_cases e2 : d = c
        · simp [e2]
        · rw [if_neg e2, wait d j k' e2]
          simp [waith d k' e2]
      · rw [if_neg e]
        by_cases e2 : d = c
        · subst e2; simp [waitc j k' e]
        · rw [if_neg e2]; exact wait d j k' e2
    · intro d
      simp only [deliver_asked, deliver_wait, deliver_told, upd, answers_cons]
      by_cases e : d = c
      · subst e; simp [pend, oncec]
      · rw [if_neg e, if_neg (fun e' => e e'.symm)]; exact once d e
  simp only [produce]
  cases hb : body x with
  | yield a z => exact key _ _ rfl ⟨.got _ x z a ht hb, by simp⟩
  | ret => exact key _ _ rfl (.ret _ x ht hb)
  | throw e => exact key _ _ rfl (.throw _ x e ht hb)
  | await z =>
    refine ⟨?_, ?_, ?_, ?_⟩
    · intro j hj
      simp only at hj
      have : ¬ j = h := by omega
      simp only [upd, if_neg this]
      exact fresh j hj
    · intro j hj
      simp only [upd]
      by_cases e : j = h
      · subst e; simp only [if_true]; exact ⟨y, hy, .await _ x z ht hb⟩
      · rw [if_neg e]; exact fits j hj
    · intro d j k'
      simp only [upd]
      by_cases e : j = h
      · subst e
        by_cases e2 : d = c
        · subst e2; simp [busyOf]
        · rw [if_neg e2, wait d j k' e2, if_pos rfl]
          simp only [busyOf]
          have h1 := waith d k' e2
          constructor
          · intro h2; exact absurd h2 h1
          · intro h2; injection h2 with h2; injection h2 with h2 h3; exact absurd h2.symm e2
      · rw [if_neg e]
        by_cases e2 : d = c
        · subst e2
          simp only [if_true]
          have h1 := waitc j k' e
          constructor
          · intro h2; injection h2 with h2; injection h2 with h2 h3; exact absurd h2.symm e
          · intro h2; exact absurd h2 h1
        · rw [if_neg e2]; exact wait d j k' e2
    · intro d
      simp only [upd]
      by_cases e : d = c
      · subst e; simp [pend, oncec]
      · rw [if_neg e]; exact once d e

theorem produce_gens (body : σ → Next σ α) (s : State σ α) (h : Nat) (x : σ) (c : Nat) (k : Kind) (hg : InvG s) (ha : alive (s.frames h) = true) :
    InvG (produce body s h x c k) := by
  have key : ∀ (f : Frame σ α) (s' : State σ α), alive f = true → s'.frames = upd s.frames h f → s'.gens = s.gens → s'.count = s.count → InvG s' := by
    intro f s' hf h1 h2 h3
    refine ⟨?_, ?_, ?_⟩
    · intro g j hj
      rw [h2] at hj
      have := hg.own g j hj
      rw [h1, h3]; simp only [upd]; split
      · exact ⟨this.1, hf⟩
      · exact this
    · intro g g' j h4 h5; rw [h2] at h4 h5; exact hg.uniq g g' j h4 h5
    · intro j hj
      rw [h1] at hj; rw [h2]
      simp only [upd] at hj
      by_cases e : j = h
      · subst e; exact hg.all j ha
      · rw [if_neg e] at hj; exact hg.all j hj
  simp only [produce]
  cases hb : body x with
  | yield a z => exact key (.susp (some a) z) _ rfl (by simp) (by simp) (by simp)
  | ret => exact key (.done none) _ rfl (by simp) (by simp) (by simp)
  | throw e => exact key (.done none) _ rfl (by simp) (by simp) (by simp)
  | await z => exact key (.busy z c k) _ rfl rfl rfl rfl

theorem inv_advance (body : σ → Next σ α) (s s' : State σ α) (h c : Nat) (k : Kind) (hi : Inv body s) (hw : s.wait c = none)
    (hs : advance body s h c k = .ok s') : Inv body s' := by
  simp only [advance] at hs
  cases hf : s.frames h with
  | busy => rw [hf] at hs; cases hs
  | done => rw [hf] at hs; cases hs
  | dead => rw [hf] at hs; cases hs
  | gone => rw [hf] at hs; cases hs
  | susp v x =>
    rw [hf] at hs; simp only at hs; injection hs with hs; subst hs
    have hlt : h < s.count := by
      rcases Nat.lt_or_ge h s.count with h1 | h1
      · exact h1
      · have := (hi.f.fresh h h1).1; rw [hf] at this; cases this
    have hx := hi.f.fits h hlt
    rw [hf] at hx
    have hnb : busyOf (s.frames h) = none := by rw [hf]; rfl
    constructor
    · refine produce_inv body _ h x c k hlt ?_ ?_ ?_ ?_ ?_ ?_ ?_ ?_
      · exact hi.f.fresh
      · exact hi.f.fits
      · obtain ⟨y, h1, h2⟩ := hx; exact ⟨y, h1, h2.1⟩
      · intro d j k' _; exact hi.f.wait d j k'
      · intro j k' _ e
        have := (hi.f.wait c j k').2 e; rw [hw] at this; cases this
      · intro d k' _ e; simp only at e; rw [hnb] at e; cases e
      · intro d hd; simp only [asks_cons, if_neg (fun e : c = d => hd e.symm)]; exact hi.f.once d
      · have := hi.f.once c; rw [hw] at this; simp [asks_cons, this, pend]
    · refine produce_gens body _ h x c k ⟨hi.g.own, hi.g.uniq, hi.g.all⟩ ?_
      simp [hf, alive]

theorem inv_external (body : σ → Next σ α) (s : State σ α) (h : Nat) (x : σ) (c : Nat) (k : Kind) (hi : Inv body s) (hf : s.frames h = .busy x c k) :
    Inv body (produce body s h x c k) := by
  have hlt : h < s.count := by
    rcases Nat.lt_or_ge h s.count with h1 | h1
    · exact h1
    · have := (hi.f.fresh h h1).1; rw [hf] at this; cases this
  have hx := hi.f.fits h hlt
  rw [hf] at hx
  have hb : busyOf (s.frames h) = some (c, k) := by rw [hf]; rfl
  have hw := (hi.f.wait c h k).2 hb
  constructor
  · refine produce_inv body _ h x c k hlt hi.f.fresh hi.f.fits ?_ ?_ ?_ ?_ ?_ ?_
    · obtain ⟨y, h1, h2⟩ := hx; exact ⟨y, h1, h2⟩
    · intro d j k' _; exact hi.f.wait d j k'
    · intro j k' hj e
      have := (hi.f.wait c j k').2 e; rw [hw] at this; injection this with this; injection this with h1 h2; exact hj h1.symm
    · intro d k' hd e; rw [hb] at e; injection e with e; injection e with h1 h2; exact hd h1.symm
    · intro d hd; exact hi.f.once d
    · have := hi.f.once c; rw [hw] at this; simpa [pend] using this
  · exact produce_gens body _ h x c k hi.g (by simp [hf, alive])

theorem release_inv (body : σ → Next σ α) (s s' : State σ α) (c : Option Nat) (hf : InvF body s)
    (own : ∀ g h, s.gens g = some (some h) → h < s.count ∧ alive (s.frames h) = true)
    (uniq : ∀ g g' h, s.gens g = some (some h) → s.gens g' = some (some h) → g = g')
    (all : ∀ h, alive (s.frames h) = true → c = some h ∨ ∃ g, s.gens g = some (some h))
    (mine : ∀ h, c = some h → ∀ g, s.gens g ≠ some (some h))
    (hs : release s c = .ok s') : Inv body s' := by
  cases c with
  | none =>
    cases hs
    exact ⟨hf, ⟨own, uniq, fun h ha => (all h ha).resolve_left (by simp)⟩⟩
  | some h =>
    simp only [release] at hs
    have hs' : ∃ f, { s with frames := upd s.frames h f } = s' ∧ busyOf f = busyOf (s.frames h) ∧ alive f = false ∧ s.frames h ≠ .dead ∧
        ∀ x l, Fits body x l (s.frames h) → Fits body x l f := by
      split at hs
      · cases hs
      · cases hs
      · rename_i y d k e
        cases hs
        exact ⟨_, rfl, by rw [e]; rfl, rfl, by rw [e]; simp, fun x l hx => fits_dead body x l _ hx⟩
      · rename_i h1 h2 h3
        cases hs
        refine ⟨_, rfl, ?_, rfl, h1, fun x l hx => fits_dead body x l _ hx⟩
        cases e : s.frames h <;> simp [busyOf]
        · exact h3 _ _ _ e
        · exact h2 _ _ e
    obtain ⟨f, rfl, hb, hal, hnd, hfit⟩ := hs'
    refine ⟨⟨?_, ?_, ?_, hf.once⟩, ⟨?_, uniq, ?_⟩⟩
    · intro k hk
      have : ¬ k = h := by rintro rfl; exact hnd (hf.fresh k hk).1
      simp only [upd, if_neg this]
      exact hf.fresh k hk
    · intro k hk
      obtain ⟨x, h1, h2⟩ := hf.fits k hk
      refine ⟨x, h1, ?_⟩
      simp only [upd]; split
      · rename_i e; subst e; exact hfit x _ h2
      · exact h2
    · intro d j k
      simp only [upd]
      rw [hf.wait d j k]
      by_cases e : j = h
      · subst e; rw [if_pos rfl, hb]
      · rw [if_neg e]
    · intro g k hg
      have h1 := own g k hg
      have h2 : k ≠ h := by rintro rfl; exact mine k rfl g hg
      simp only [upd, if_neg h2]; exact h1
    · intro k hk
      simp only [upd] at hk
      by_cases e : k = h
      · rw [if_pos e, hal] at hk; cases hk
      · rw [if_neg e] at hk
        rcases all k hk with h1 | h1
        · injection h1 with h1; exact absurd h1.symm e
        · exact h1

theorem invF_gens (body : σ → Next σ α) (s : State σ α) (gens : Nat → Option (Option Nat)) (hi : InvF body s) : InvF body { s with gens := gens } :=
  ⟨hi.fresh, hi.fits, hi.wait, hi.once⟩

theorem inv_step (body : σ → Next σ α) (s s' : State σ α) (a : Act σ) (hi : Inv body s) (hs : step body s a = .ok s') : Inv body s' := by
  have own := hi.g.own
  have uniq := hi.g.uniq
  have all := hi.g.all
  cases a with
  | create g x =>
    simp only [step] at hs
    split at hs
    · rename_i hg; cases hs
      refine ⟨⟨?_, ?_, ?_, hi.f.once⟩, ⟨?_, ?_, ?_⟩⟩
      · intro h hh
        have : h ≠ s.count := by simp only at hh; omega
        simp only [upd, if_neg this]
        exact hi.f.fresh h (by simp only at hh; omega)
      · intro h hh
        by_cases e : h = s.count
        · subst e
          refine ⟨x, by simp [upd], ?_⟩
          simp only [upd, if_true, (hi.f.fresh _ (Nat.le_refl _)).2]
          exact ⟨.start, rfl⟩
        · simp only [upd, if_neg e]; exact hi.f.fits h (by simp only at hh; omega)
      · intro c h k
        simp only [upd]
        rw [hi.f.wait c h k]
        by_cases e : h = s.count
        · subst e
          have := (hi.f.fresh _ (Nat.le_refl _)).1
          rw [if_pos rfl]
          rw [this]; simp [busyOf]
        · rw [if_neg e]
      · intro k h hk
        simp only [upd] at hk ⊢
        split at hk
        · cases hk; simp [alive]
        · have := own k h hk
          rw [if_neg (by omega)]; exact ⟨by omega, this.2⟩
      · intro k k' h h1 h2
        simp only [upd] at h1 h2
        have e1 := own k h
        have e2 := own k' h
        have e3 := uniq k k' h
        grind
      · intro h hh
        simp only [upd] at hh ⊢
        by_cases e : h = s.count
        · exact ⟨g, by simp [e]⟩
        · rw [if_neg e] at hh
          obtain ⟨k, hk⟩ := all h hh
          refine ⟨k, ?_⟩
          rw [if_neg (by rintro rfl; rw [hg] at hk; cases hk)]; exact hk
    · cases hs
  | empty g =>
    simp only [step] at hs
    split at hs
    · rename_i hg; cases hs
      refine ⟨invF_gens body s _ hi.f, ⟨?_, ?_, ?_⟩⟩
      · intro k h; have := own k h; simp only [upd]; grind
      · intro k k' h; have := uniq k k' h; simp only [upd]; grind
      · intro h hh
        obtain ⟨k, hk⟩ := all h hh
        exact ⟨k, by simp only [upd]; rw [if_neg (by rintro rfl; rw [hg] at hk; cases hk)]; exact hk⟩
    · cases hs
  | move g h =>
    simp only [step] at hs
    split at hs
    · rename_i c hg hh; cases hs
      have hgh : g ≠ h := by rintro rfl; rw [hg] at hh; cases hh
      refine ⟨invF_gens body s _ hi.f, ⟨?_, ?_, ?_⟩⟩
      · intro k x; have := own k x; have := own h x; simp only [upd]; grind
      · intro k k' x; have := uniq k k' x; have := uniq h k x; have := uniq h k' x; simp only [upd]; grind
      · intro x hx
        obtain ⟨k, hk⟩ := all x hx
        by_cases e : k = h
        · exact ⟨g, by simp only [upd]; grind⟩
        · exact ⟨k, by simp only [upd]; grind⟩
    · cases hs
  | swap g h =>
    simp only [step] at hs
    split at hs
    · rename_i c d hg hh; cases hs
      refine ⟨invF_gens body s _ hi.f, ⟨?_, ?_, ?_⟩⟩
      · intro k x; have := own k x; have := own h x; have := own g x; simp only [upd]; grind
      · intro k k' x
        have := uniq k k' x; have := uniq h k x; have := uniq h k' x; have := uniq g k x; have := uniq g k' x
        have := uniq g h x
        simp only [upd]; grind
      · intro x hx
        obtain ⟨k, hk⟩ := all x hx
        by_cases e : k = h
        · exact ⟨g, by simp only [upd]; grind⟩
        · by_cases e2 : k = g
          · exact ⟨h, by simp only [upd]; grind⟩
          · exact ⟨k, by simp only [upd]; grind⟩
    · cases hs
  | assign g h =>
    simp only [step] at hs
    split at hs
    · rename_i b c hg hh
      by_cases e : g = h
      · subst e
        simp only [upd, if_true, release] at hs
        cases hs
        refine ⟨invF_gens body s _ hi.f, ⟨?_, ?_, ?_⟩⟩
        · intro k x; have := own k x; simp only [upd]; grind
        · intro k k' x; have := uniq k k' x; simp only [upd]; grind
        · intro x hx
          obtain ⟨k, hk⟩ := all x hx
          exact ⟨k, by simp only [upd]; grind⟩
      · have e' : ¬ h = g := fun x => e x.symm
        simp only [show upd s.gens h (some none) g = some b by simp [upd, if_neg e, hg]] at hs
        refine release_inv body _ _ _ (invF_gens body s _ hi.f) ?_ ?_ ?_ ?_ hs
        · intro k x; have := own k x; have := own h x; simp only [upd]; grind
        · intro k k' x; have := uniq k k' x; have := uniq h k x; have := uniq h k' x; simp only [upd]; grind
        · intro x hx
          obtain ⟨k, hk⟩ := all x hx
          by_cases e2 : k = g
          · left; subst e2; rw [hg] at hk; injection hk
          · right
            by_cases e3 : k = h
            · exact ⟨g, by simp only [upd]; grind⟩
            · exact ⟨k, by simp only [upd]; grind⟩
        · intro x hx k hk
          have := uniq g k x; have := uniq g h x
          simp only [upd] at hk; grind
    · cases hs
  | destroy g =>
    simp only [step] at hs
    split at hs
    · rename_i c hg
      refine release_inv body _ _ _ (invF_gens body s _ hi.f) ?_ ?_ ?_ ?_ hs
      · intro k x; have := own k x; simp only [upd]; grind
      · intro k k' x; have := uniq k k' x; simp only [upd]; grind
      · intro x hx
        obtain ⟨k, hk⟩ := all x hx
        by_cases e2 : k = g
        · left; subst e2; rw [hg] at hk; injection hk
        · right; exact ⟨k, by simp only [upd]; grind⟩
      · intro x hx k hk
        have := uniq g k x
        simp only [upd] at hk; grind
    · cases hs
  | begin c g i =>
    simp only [step] at hs
    split at hs
    · rename_i hw
      split at hs
      · cases hs
        exact ⟨⟨hi.f.fresh, hi.f.fits, hi.f.wait, hi.f.once⟩, ⟨own, uniq, all⟩⟩
      · exact inv_advance body s s' _ c _ hi hw hs
      · cases hs
    · cases hs
  | inc c i =>
    simp only [step] at hs
    split at hs
    · rename_i hw
      split at hs
      · exact inv_advance body s s' _ c _ hi hw hs
      · cases hs
      · cases hs
    · cases hs
  | deref c i =>
    simp only [step] at hs
    (repeat' split at hs) <;> cases hs; exact hi
  | external h =>
    simp only [step] at hs
    split at hs
    · rename_i hf; cases hs; exact inv_external body s h _ _ _ hi hf
    · cases hs
    · cases hs

theorem inv_run (body : σ → Next σ α) (l : List (Act σ)) : ∀ (s s' : State σ α), Inv body s → run body s l = .ok s' → Inv body s' := by
  induction l with
  | nil => intro s s' hi h; cases h; exact hi
  | cons a l ih =>
    intro s s' hi h
    rw [run, Res.bind_eq_ok] at h
    obtain ⟨s1, h1, h2⟩ := h
    exact ih s1 s' (inv_step body s s1 a hi h1) h2

/-- A producer destroyed while a consumer awaited it stays what it is, and the consumer stays suspended. -/
theorem gone_step (body : σ → Next σ α) (s s' : State σ α) (a : Act σ) (hi : Inv body s) (c h : Nat) (k : Kind) (hf : s.frames h = .gone c k)
    (hs : step body s a = .ok s') : s'.frames h = .gone c k := by
  have hlt : h ≠ s.count := by
    intro e; have := (hi.f.fresh h (by omega)).1; rw [hf] at this; cases this
  have hrel : ∀ (s1 s2 : State σ α) (o : Option Nat), s1.frames h = .gone c k → release s1 o = .ok s2 → s2.frames h = .gone c k := by
    intro s1 s2 o h1 h2
    cases o with
    | none => simp only [release] at h2; cases h2; exact h1
    | some m =>
      simp only [release] at h2
      by_cases e : m = h
      · subst e; rw [h1] at h2; cases h2
      · have e' : ¬ h = m := fun x => e x.symm
        split at h2 <;> cases h2 <;> simp [upd, e', h1]
  have hpro : ∀ (s1 : State σ α) (m : Nat) (x : σ) (d : Nat) (kk : Kind), s1.frames h = .gone c k → m ≠ h → (produce body s1 m x d kk).frames h = .gone c k := by
    intro s1 m x d kk h1 hm
    have e' : ¬ h = m := fun x => hm x.symm
    simp only [produce]
    cases body x <;> simp [deliver_frames, upd, e', h1]
  have hadv : ∀ (s1 s2 : State σ α) (d m : Nat) (kk : Kind), s1.frames h = .gone c k → advance body s1 d m kk = .ok s2 → s2.frames h = .gone c k := by
    intro s1 s2 d m kk h1 h2
    simp only [advance] at h2
    split at h2
    · rename_i v x e
      cases h2
      exact hpro _ _ _ _ _ h1 (fun x => by subst x; rw [h1] at e; cases e)
    · cases h2
  cases a with
  | create g x =>
    simp only [step] at hs
    split at hs
    · cases hs; simp [upd, hlt, hf]
    · cases hs
  | empty g => simp only [step] at hs; split at hs <;> cases hs; exact hf
  | move g m => simp only [step] at hs; split at hs <;> cases hs; exact hf
  | swap g m => simp only [step] at hs; split at hs <;> cases hs; exact hf
  | deref d i => simp only [step] at hs; (repeat' split at hs) <;> cases hs; exact hf
  | destroy g =>
    simp only [step] at hs
    split at hs
    · exact hrel { s with gens := upd s.gens g none } _ _ hf hs
    · cases hs
  | assign g m =>
    simp only [step] at hs
    split at hs
    · split at hs
      · rename_i b c1 _ _ _ old _
        exact hrel { s with gens := upd (upd s.gens m (some none)) g (some c1) } s' old hf hs
      · cases hs
    · cases hs
  | begin d g i =>
    simp only [step] at hs
    split at hs
    · split at hs
      · cases hs; exact hf
      · exact hadv _ _ _ _ _ hf hs
      · cases hs
    · cases hs
  | inc d i =>
    simp only [step] at hs
    split at hs
    · split at hs
      · exact hadv _ _ _ _ _ hf hs
      · cases hs
      · cases hs
    · cases hs
  | external m =>
    simp only [step] at hs
    split at hs
    · rename_i e; cases hs
      exact hpro _ _ _ _ _ hf (fun x => by subst x; rw [hf] at e; cases e)
    · cases hs
    · cases hs

theorem gone_run (body : σ → Next σ α) (l : List (Act σ)) (c h : Nat) (k : Kind) : ∀ s s' : State σ α, Inv body s → s.frames h = .gone c k →
    run body s l = .ok s' → s'.frames h = .gone c k := by
  induction l with
  | nil => intro s s' _ hf hr; cases hr; exact hf
  | cons a l ih =>
    intro s s' hi hf hr
    obtain ⟨s1, h1, h2⟩ := Res.bind_eq_ok.1 hr
    exact ih s1 s' (inv_step body s s1 a hi h1) (gone_step body s s1 a hi c h k hf h1) h2

end Verif.AsyncGen
