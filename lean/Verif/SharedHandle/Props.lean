import Verif.SharedHandle.Model

/-! # C108: a shared handle -/

namespace Verif.SharedHandle

open Verif

/-- The object a variable stands for; `none` if it is empty. -/
def refers (s : St) (v : Nat) : Option Obj :=
  match s.vars v with
  | some (.h n) => s.tab n
  | _ => none

/-- Every variable that is not empty has an open handle of its own, and every open handle belongs to a variable. -/
structure Inv (s : St) : Prop where
  isOpen : ∀ v n, s.vars v = some (.h n) → s.tab n ≠ none
  own : ∀ v w n, s.vars v = some (.h n) → s.vars w = some (.h n) → v = w
  held : ∀ n, s.tab n ≠ none → ∃ v, s.vars v = some (.h n)

theorem close_spec {s s1 : St} {v : Nat} (h : close s v = .ok s1) :
    (s.vars v = some .null ∧ s1 = s) ∨ ∃ n, s.vars v = some (.h n) ∧ s1 = ⟨upd s.tab n none, upd s.vars v (some .null)⟩ := by
  simp only [close] at h
  split at h
  · next e => cases h; exact .inl ⟨e, rfl⟩
  · next n e => cases h; exact .inr ⟨n, e, rfl⟩
  · cases h

theorem close_null {s s1 : St} {v : Nat} (h : close s v = .ok s1) : s1.vars v = some .null := by
  rcases close_spec h with ⟨h, rfl⟩ | ⟨n, _, rfl⟩
  · exact h
  · simp [upd]

theorem inv_close {s s1 : St} {v : Nat} (hi : Inv s) (h : close s v = .ok s1) : Inv s1 := by
  rcases close_spec h with ⟨_, rfl⟩ | ⟨n, hn, rfl⟩
  · exact hi
  · obtain ⟨h1, h2, h3⟩ := hi
    constructor <;> simp only [upd]
    · grind
    · grind
    · intro m hm
      split at hm
      · simp at hm
      · obtain ⟨w, hw⟩ := h3 m hm
        exact ⟨w, by grind⟩

theorem duplicate_spec {s s1 : St} {v : Nat} {x : Hd} {new : Option Nat} (h : duplicate s v x new = .ok s1) :
    x ≠ .uninit ∧ ((∃ o n, target s x = some o ∧ new = some n ∧ s1 = ⟨upd s.tab n (some o), upd s.vars v (some (.h n))⟩) ∨ s1 = s) := by
  cases x <;> simp only [duplicate] at h
  case uninit => cases h
  all_goals
    refine ⟨by simp, ?_⟩
    split at h
    · next o n e1 => cases h; exact .inl ⟨o, n, e1, rfl, rfl⟩
    · cases h; exact .inr rfl

theorem inv_duplicate {s s1 : St} {v : Nat} {x : Hd} {new : Option Nat} (hi : Inv s) (hv : ∀ n, s.vars v ≠ some (.h n))
    (hn : ∀ n, new = some n → s.tab n = none) (h : duplicate s v x new = .ok s1) : Inv s1 := by
  obtain ⟨_, ⟨o, n, _, hnew, rfl⟩ | rfl⟩ := duplicate_spec h
  · have hn := hn n hnew
    obtain ⟨h1, h2, h3⟩ := hi
    constructor <;> simp only [upd]
    · grind
    · grind
    · intro m hm
      by_cases e : m = n
      · exact ⟨v, by simp [e]⟩
      · rw [if_neg e] at hm
        obtain ⟨w, hw⟩ := h3 m hm
        refine ⟨w, ?_⟩
        rw [if_neg (fun e => hv m (by rw [← e]; exact hw))]
        exact hw
  · exact hi

/-- The value of the variable `w` goes to the variable `v`, which is empty. -/
theorem inv_transfer {s : St} {v w : Nat} {x : Hd} (hi : Inv s) (hv : ∀ n, s.vars v ≠ some (.h n)) (hw : s.vars w = some x) :
    Inv { s with vars := upd (upd s.vars v (some x)) w (some .null) } := by
  obtain ⟨h1, h2, h3⟩ := hi
  constructor <;> simp only [upd]
  · grind
  · grind
  · intro m hm
    obtain ⟨u, hu⟩ := h3 m hm
    have huv : u ≠ v := fun e => hv m (by rw [← e]; exact hu)
    by_cases e : u = w
    · subst e
      rw [hw] at hu
      exact ⟨v, by grind⟩
    · exact ⟨u, by grind⟩

theorem step_inv {s s1 : St} {op : Op} (hi : Inv s) (hp : Possible s op) (h : step s op = .ok s1) : Inv s1 := by
  cases op with
  | empty v =>
    simp only [step, Res.ok.injEq] at h
    subst h
    simp only [Possible] at hp
    obtain ⟨h1, h2, h3⟩ := hi
    constructor <;> simp only [upd]
    · grind
    · grind
    · intro m hm
      obtain ⟨u, hu⟩ := h3 m hm
      exact ⟨u, by grind⟩
  | adopt v n f =>
    simp only [step, Res.ok.injEq] at h
    subst h
    simp only [Possible] at hp
    obtain ⟨h1, h2, h3⟩ := hi
    constructor <;> simp only [upd]
    · grind
    · grind
    · intro m hm
      by_cases e : m = n
      · exact ⟨v, by simp [e]⟩
      · rw [if_neg e] at hm
        obtain ⟨u, hu⟩ := h3 m hm
        exact ⟨u, by grind⟩
  | copy v w new =>
    simp only [Possible] at hp
    refine inv_duplicate (s := { s with vars := upd s.vars v (some .uninit) }) ?_ (by simp [upd]) hp.2.2 h
    obtain ⟨h1, h2, h3⟩ := hi
    constructor <;> simp only [upd]
    · grind
    · grind
    · intro m hm
      obtain ⟨u, hu⟩ := h3 m hm
      exact ⟨u, by grind⟩
  | move v w =>
    simp only [Possible] at hp
    simp only [step] at h
    cases hw : s.vars w with
    | none => exact absurd hw hp.2
    | some x =>
      cases x <;> simp [val, hw] at h <;> subst h <;> exact inv_transfer hi (by simp [hp.1]) hw
  | assign v w new =>
    simp only [step] at h
    obtain ⟨s1', h1, h2⟩ := Res.bind_eq_ok.mp h
    simp only [Possible] at hp
    refine inv_duplicate (inv_close hi h1) (by simp [close_null h1]) (fun n hn => ?_) h2
    have := hp.2.2 n hn
    rcases close_spec h1 with ⟨_, rfl⟩ | ⟨m, _, rfl⟩
    · exact this
    · simp only [upd]; split
      · rfl
      · exact this
  | moveAssign v w =>
    simp only [step] at h
    obtain ⟨s1', h1, h2⟩ := Res.bind_eq_ok.mp h
    simp only [Possible] at hp
    cases hw : s1'.vars w with
    | none => simp [val, hw] at h2
    | some x =>
      have hn := close_null h1
      cases x <;> simp [val, hw] at h2 <;> subst h2 <;> exact inv_transfer (inv_close hi h1) (by simp [hn]) hw
  | close v => exact inv_close hi h
  | destroy v =>
    simp only [step] at h
    obtain ⟨s1', h1, h2⟩ := Res.bind_eq_ok.mp h
    cases h2
    have hn := close_null h1
    obtain ⟨i1, i2, i3⟩ := inv_close hi h1
    constructor <;> simp only [upd]
    · grind
    · grind
    · intro m hm
      obtain ⟨u, hu⟩ := i3 m hm
      exact ⟨u, by grind⟩

theorem inv_init : Inv init := by constructor <;> simp [init]

/-- C108: in every history each variable that is not empty has an open handle that no other variable has, and each open handle is held by a variable: no handle
is closed twice, none is used after it was closed, and none is lost. -/
theorem c108_owned (ops : List Op) (s : St) (hp : PossibleAll init ops) (h : run init ops = .ok s) : Inv s := by
  have : ∀ (ops : List Op) (s0 : St), Inv s0 → PossibleAll s0 ops → run s0 ops = .ok s → Inv s := by
    intro ops
    induction ops with
    | nil => intro s0 hi _ h; cases h; exact hi
    | cons op ops ih =>
      intro s0 hi hp h
      obtain ⟨s1, h1, h2⟩ := Res.bind_eq_ok.mp h
      exact ih s1 (step_inv hi hp.1 h1) (hp.2 s1 h1) h2
  exact this ops init inv_init hp h

/-- C108: when all variables are destroyed no handle is open. -/
theorem c108_all_closed (ops : List Op) (s : St) (hp : PossibleAll init ops) (h : run init ops = .ok s) (hv : ∀ v, s.vars v = none) (n : Nat) : s.tab n = none := by
  have hi := c108_owned ops s hp h
  cases ht : s.tab n with
  | none => rfl
  | some o =>
    obtain ⟨v, e⟩ := hi.held n (by rw [ht]; simp)
    rw [hv] at e; cases e

/-- C108, for a source that is not empty and with enough resources: the copy stands for the same object by a handle of its own, and all other variables stand for what they
did.  Missing: an empty source (`c108_copy_empty_violated`) and a lack of resources (`c108_failed_copy_violated`). -/
theorem c108_copy_partial (s : St) (v w n m : Nat) (hi : Inv s) (hp : Possible s (.copy v w (some n))) (hw : s.vars w = some (.h m)) :
    ∃ s1, step s (.copy v w (some n)) = .ok s1 ∧ refers s1 v = refers s w ∧ refers s w ≠ none ∧ (∀ u, u ≠ v → refers s1 u = refers s u) := by
  simp only [Possible] at hp
  have hm := hi.isOpen w m hw
  obtain ⟨o, ho⟩ := Option.ne_none_iff_exists'.mp hm
  have hn := hp.2.2 n rfl
  refine ⟨⟨upd s.tab n (some o), upd (upd s.vars v (some .uninit)) v (some (.h n))⟩, by simp [step, duplicate, val, hw, target, ho], ?_, ?_, ?_⟩
  · simp [refers, upd, hw, ho]
  · simp [refers, hw, ho]
  · intro u hu
    simp only [refers, upd, if_neg hu]
    cases hvu : s.vars u with
    | none => rfl
    | some x =>
      cases x with
      | h k =>
        have := hi.isOpen u k hvu
        have hk : k ≠ n := fun e => this (by rw [e]; exact hn)
        simp [hk]
      | _ => rfl

/-- C108: moving hands over the object; the source is empty; the others stand for what they did. -/
theorem c108_move (s s1 : St) (v w : Nat) (hp : Possible s (.move v w)) (h : step s (.move v w) = .ok s1) :
    refers s1 v = refers s w ∧ s1.vars w = some .null ∧ s1.tab = s.tab ∧ ∀ u, u ≠ v → u ≠ w → s1.vars u = s.vars u := by
  simp only [Possible] at hp
  have hvw : v ≠ w := fun e => hp.2 (by rw [← e]; exact hp.1)
  simp only [step] at h
  cases hw : s.vars w with
  | none => exact absurd hw hp.2
  | some x =>
    cases x <;> simp [val, hw] at h <;> subst h <;> refine ⟨?_, by simp [upd], rfl, fun u h1 h2 => by simp [upd, h1, h2]⟩ <;> simp [refers, upd, hvw, hw]

/-- C108, for different variables, a source that is not empty and enough resources: the old object is released and the new one shared. -/
theorem c108_assign_partial (s : St) (v w n m : Nat) (x : Hd) (hi : Inv s) (hp : Possible s (.assign v w (some n))) (hw : s.vars w = some (.h m)) (hne : v ≠ w)
    (hx : s.vars v = some x) (hu : x ≠ .uninit) :
    ∃ s1, step s (.assign v w (some n)) = .ok s1 ∧ refers s1 v = refers s w ∧ refers s1 w = refers s w ∧ refers s w ≠ none ∧
      (∀ k, x = .h k → k ≠ n → s1.tab k = none) ∧ (∀ u, u ≠ v → refers s1 u = refers s u) := by
  simp only [Possible] at hp
  have hm := hi.isOpen w m hw
  obtain ⟨o, ho⟩ := Option.ne_none_iff_exists'.mp hm
  have hn := hp.2.2 n rfl
  have hmn : m ≠ n := fun e => by rw [← e, ho] at hn; cases hn
  have ho' : ∀ u k, s.vars u = some (.h k) → k ≠ n := fun u k hk e => hi.isOpen u k hk (by rw [e]; exact hn)
  cases x with
  | uninit => exact absurd rfl hu
  | null =>
    refine ⟨⟨upd s.tab n (some o), upd s.vars v (some (.h n))⟩, by simp [step, close, hx, Res.bind, duplicate, val, hw, target, ho], ?_, ?_, ?_, ?_, ?_⟩
    · simp [refers, upd, hw, ho]
    · simp [refers, upd, hw, Ne.symm hne, hmn]
    · simp [refers, hw, ho]
    · simp
    · intro u hu
      simp only [refers, upd, if_neg hu]
      cases hvu : s.vars u with
      | none => rfl
      | some y => cases y <;> simp [ho' u _, hvu]
  | h k =>
    have hkm : m ≠ k := fun e => hne (hi.own v w k hx (by rw [← e]; exact hw))
    refine ⟨⟨upd (upd s.tab k none) n (some o), upd (upd s.vars v (some .null)) v (some (.h n))⟩,
      by simp [step, close, closeHandle, Res.bind, hx, duplicate, val, hw, target, upd, Ne.symm hne, hkm, ho], ?_, ?_, ?_, ?_, ?_⟩
    · simp [refers, upd, hw, ho]
    · simp [refers, upd, hw, Ne.symm hne, hmn, hkm]
    · simp [refers, hw, ho]
    · intro k' e hk'; cases e; simp [upd, hk']
    · intro u hu
      simp only [refers, upd, if_neg hu]
      cases hvu : s.vars u with
      | none => rfl
      | some y =>
        cases y with
        | h j =>
          have : j ≠ k := fun e => hu (hi.own u v k (by rw [← e]; exact hvu) hx)
          simp [ho' u j hvu, this]
        | _ => rfl

/-- All duplications of the history succeed. -/
def Enough : Op → Prop
  | .copy _ _ new => new ≠ none
  | _ => True

/-- C108: with enough resources there is no undefined behaviour. -/
theorem c108_no_ub_partial (ops : List Op) (hp : PossibleAll init ops) (he : ∀ op ∈ ops, Enough op) : ∃ s, run init ops = .ok s := by
  have hclose : ∀ (s : St) (v : Nat), (∀ u, s.vars u ≠ some .uninit) → s.vars v ≠ none →
      ∃ s1, close s v = .ok s1 ∧ (∀ u, s1.vars u ≠ some .uninit) ∧ ∀ u, s.vars u ≠ none → s1.vars u ≠ none := by
    intro s v hu hv
    cases hx : s.vars v with
    | none => exact absurd hx hv
    | some x =>
      cases x with
      | uninit => exact absurd hx (hu v)
      | null => exact ⟨s, by simp [close, hx], hu, fun _ h => h⟩
      | h n =>
        refine ⟨⟨upd s.tab n none, upd s.vars v (some .null)⟩, by simp [close, hx, closeHandle], ?_, ?_⟩ <;> intro u <;> simp only [upd] <;> split <;> simp
        · exact hu u
  have : ∀ (ops : List Op) (s : St), Inv s → (∀ u, s.vars u ≠ some .uninit) → PossibleAll s ops → (∀ op ∈ ops, Enough op) → ∃ s1, run s ops = .ok s1 := by
    intro ops
    induction ops with
    | nil => intro s _ _ _ _; exact ⟨s, rfl⟩
    | cons op ops ih =>
      intro s hi hu hp he
      have key : ∃ s1, step s op = .ok s1 ∧ ∀ u, s1.vars u ≠ some .uninit := by
        have hp1 := hp.1
        have he1 := he op (by simp)
        cases op with
        | empty v => exact ⟨_, rfl, fun u => by simp only [upd]; split <;> simp; exact hu u⟩
        | adopt v n f => exact ⟨_, rfl, fun u => by simp only [upd]; split <;> simp; exact hu u⟩
        | copy v w new =>
          simp only [Possible] at hp1
          simp only [Enough] at he1
          obtain ⟨n, rfl⟩ := Option.ne_none_iff_exists'.mp he1
          cases hw : s.vars w with
          | none => exact absurd hw hp1.2.1
          | some x =>
            cases x with
            | uninit => exact absurd hw (hu w)
            | null =>
              refine ⟨_, by simp only [step, duplicate, val, hw, Option.getD_some, target]; rfl, fun u => ?_⟩
              simp only [upd]; split <;> simp; exact hu u
            | h m =>
              obtain ⟨o, ho⟩ := Option.ne_none_iff_exists'.mp (hi.isOpen w m hw)
              refine ⟨_, by simp only [step, duplicate, val, hw, Option.getD_some, target, ho]; rfl, fun u => ?_⟩
              simp only [upd]; split <;> simp; exact hu u
        | move v w =>
          simp only [Possible] at hp1
          cases hw : s.vars w with
          | none => exact absurd hw hp1.2
          | some x =>
            cases x with
            | uninit => exact absurd hw (hu w)
            | null => refine ⟨_, by simp only [step, val, hw, Option.getD_some]; rfl, fun u => ?_⟩; simp only [upd]; split <;> (try split) <;> simp; exact hu u
            | h m => refine ⟨_, by simp only [step, val, hw, Option.getD_some]; rfl, fun u => ?_⟩; simp only [upd]; split <;> (try split) <;> simp; exact hu u
        | assign v w new =>
          simp only [Possible] at hp1
          obtain ⟨s1, h1, h2, h3⟩ := hclose s v hu hp1.1
          simp only [step, h1, Res.bind]
          cases hw : s1.vars w with
          | none => exact absurd hw (h3 w hp1.2.1)
          | some x =>
            have hd : ∃ s2, duplicate s1 v x new = .ok s2 := by
              cases x with
              | uninit => exact absurd hw (h2 w)
              | null => simp only [duplicate]; split <;> exact ⟨_, rfl⟩
              | h m => simp only [duplicate]; split <;> exact ⟨_, rfl⟩
            obtain ⟨s2, hd⟩ := hd
            refine ⟨s2, by simp only [val, hw, Option.getD_some, hd], ?_⟩
            obtain ⟨_, ⟨o, n, _, _, rfl⟩ | rfl⟩ := duplicate_spec hd
            · intro u; simp only [upd]; split <;> simp; exact h2 u
            · exact h2
        | moveAssign v w =>
          simp only [Possible] at hp1
          obtain ⟨s1, h1, h2, h3⟩ := hclose s v hu hp1.1
          simp only [step, h1, Res.bind]
          cases hw : s1.vars w with
          | none => exact absurd hw (h3 w hp1.2)
          | some x =>
            cases x with
            | uninit => exact absurd hw (h2 w)
            | null => refine ⟨_, by simp only [val, hw, Option.getD_some]; rfl, fun u => ?_⟩; simp only [upd]; split <;> (try split) <;> simp; exact h2 u
            | h m => refine ⟨_, by simp only [val, hw, Option.getD_some]; rfl, fun u => ?_⟩; simp only [upd]; split <;> (try split) <;> simp; exact h2 u
        | close v =>
          obtain ⟨s1, h1, h2, _⟩ := hclose s v hu hp1
          exact ⟨s1, h1, h2⟩
        | destroy v =>
          obtain ⟨s1, h1, h2, _⟩ := hclose s v hu hp1
          refine ⟨⟨s1.tab, upd s1.vars v none⟩, by simp only [step, h1, Res.bind], fun u => ?_⟩
          simp only [upd]; split <;> simp; exact h2 u
      obtain ⟨s1, h1, h2⟩ := key
      obtain ⟨s2, h3⟩ := ih s1 (step_inv hi hp.1 h1) h2 (hp.2 s1 h1) (fun o ho => he o (by simp [ho]))
      exact ⟨s2, by simp only [run, h1, Res.bind, h3]⟩
  exact this ops init inv_init (by simp [init]) hp he

/-- C108 is violated by copying an empty handle: the copy is not empty, it stands for the current process. -/
theorem c108_copy_empty_violated (s : St) (v w n : Nat) (hw : s.vars w = some .null) :
    ∃ s1, step s (.copy v w (some n)) = .ok s1 ∧ refers s1 v = some .process ∧ s1.vars v = some (.h n) :=
  ⟨_, by simp only [step, duplicate, val, hw, Option.getD_some, target]; rfl, by simp [refers, upd], by simp [upd]⟩

/-- C108 is violated by assigning a variable to itself: the file is closed, and the variable stands for the current process. -/
theorem c108_self_assign_violated (s : St) (v n m f : Nat) (hv : s.vars v = some (.h m)) (_ht : s.tab m = some (.file f)) (hn : n ≠ m) :
    ∃ s1, step s (.assign v v (some n)) = .ok s1 ∧ refers s1 v = some .process ∧ s1.tab m = none := by
  refine ⟨⟨upd (upd s.tab m none) n (some .process), upd (upd s.vars v (some .null)) v (some (.h n))⟩, by simp [step, close, closeHandle, Res.bind, hv, duplicate, val, target, upd], ?_, ?_⟩
  · simp [refers, upd]
  · simp [upd, Ne.symm hn]

/-- C108 is violated by moving a variable to itself: the file is closed. -/
theorem c108_self_move_violated (s : St) (v m f : Nat) (hv : s.vars v = some (.h m)) (_ht : s.tab m = some (.file f)) :
    ∃ s1, step s (.moveAssign v v) = .ok s1 ∧ s1.vars v = some .null ∧ s1.tab m = none :=
  ⟨⟨upd s.tab m none, upd (upd (upd s.vars v (some .null)) v (some .null)) v (some .null)⟩, by simp [step, close, closeHandle, Res.bind, hv, val, upd], by simp [upd], by simp [upd]⟩

/-- C108 is violated when a copy fails: nothing is reported, and the destructor of the copy uses a variable that was never written. -/
theorem c108_failed_copy_violated (s : St) (v w m : Nat) (hw : s.vars w = some (.h m)) :
    ∃ s1, step s (.copy v w none) = .ok s1 ∧ step s1 (.destroy v) = .ub :=
  ⟨⟨s.tab, upd s.vars v (some .uninit)⟩, by simp [step, duplicate, val, hw], by simp [step, close, upd, Res.bind]⟩

/-! ### Sample: two files, a copy, an assignment, a move; all closed at the end -/

def sampleOps : List Op := [.adopt 0 7 100, .adopt 1 8 200, .copy 2 0 (some 9), .assign 0 1 (some 10), .move 3 2, .destroy 2, .moveAssign 1 3, .close 1, .destroy 0, .destroy 1, .destroy 3]

def sample : St := match run init sampleOps with | .ok s => s | _ => init

theorem sample_run : run init sampleOps = .ok sample := rfl

theorem sample_possible : PossibleAll init sampleOps := by
  simp only [sampleOps, PossibleAll]
  refine ⟨by simp [Possible, init], fun s h => ?_⟩; cases h
  refine ⟨by simp [Possible, init, upd], fun s h => ?_⟩; cases h
  refine ⟨by simp [Possible, init, upd], fun s h => ?_⟩; cases h
  refine ⟨by simp [Possible, init, upd], fun s h => ?_⟩; cases h
  refine ⟨by simp [Possible, init, upd], fun s h => ?_⟩; cases h
  refine ⟨by simp [Possible, upd], fun s h => ?_⟩; cases h
  refine ⟨by simp [Possible, init, upd, closeHandle], fun s h => ?_⟩; cases h
  refine ⟨by simp [Possible, init, upd, closeHandle], fun s h => ?_⟩; cases h
  refine ⟨by simp [Possible, upd], fun s h => ?_⟩; cases h
  refine ⟨by simp [Possible, upd], fun s h => ?_⟩; cases h
  exact ⟨by simp [Possible, upd], fun s h => trivial⟩

example : Inv sample ∧ ∃ s, run init sampleOps = .ok s :=
  ⟨c108_owned _ _ sample_possible sample_run, c108_no_ub_partial _ sample_possible (by simp [sampleOps, Enough])⟩

/-- After the copy both stand for the file 100; after the assignment one stands for the file 200. -/
example : ∃ s, run init (sampleOps.take 3) = .ok s ∧ refers s 0 = some (.file 100) ∧ refers s 2 = some (.file 100) ∧ s.vars 0 ≠ s.vars 2 := ⟨_, rfl, rfl, rfl, by decide⟩
example : ∃ s, run init (sampleOps.take 4) = .ok s ∧ refers s 0 = some (.file 200) ∧ refers s 1 = some (.file 200) ∧ s.tab 7 = none := ⟨_, rfl, rfl, rfl, rfl⟩

end Verif.SharedHandle
