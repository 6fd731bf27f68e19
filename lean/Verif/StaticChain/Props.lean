import Verif.StaticChain.Model
import Verif.SingleList.Lemmas
import Mathlib.Data.Nat.Pairing
import Mathlib.Data.List.Forall2

/-! # C110: static chains and factories -/

namespace Verif.StaticChain

open Verif
open Verif.QuickList (Ptr rd)

/-! ## Specification -/

/-- The function registered last for the type and the name. -/
def lookup (rs : List Reg) (g : Sig) (name : Str) : Option Nat := (rs.reverse.find? fun r => r.sig = g ∧ r.name = name).map (·.func)

/-- An argument can be given to a parameter of the type: a value is copied or moved, `T&` takes variables that are not `const`, `const T&` takes all, `T&&` temporary objects. -/
def Accepts (p : PTy) (a : Arg) : Prop :=
  p.base = a.base ∧
  match p.cat with
  | .val => True
  | .clref => True
  | .lref => a.lvalue = true ∧ a.isConst = false
  | .rref => a.lvalue = false ∧ a.isConst = false

/-- Different chains and links are at different places. -/
structure Places (E : Env) (rs : List Reg) : Prop where
  inj : ∀ g g', E.sent g = E.sent g' → g = g'
  sep : ∀ r ∈ rs, ∀ g, r.addr ≠ E.sent g
  nodup : (rs.map (·.addr)).Nodup

/-! ## Invariant -/

/-- The links of a chain, the last first. -/
def addrs (log : List Reg) (g : Sig) : List Nat := (log.filter fun r => r.sig = g).map (·.addr)

structure Inv (E : Env) (s : St) (log : List Reg) (A : SingleList.Spec) : Prop where
  rep : SingleList.Rep s.heap A
  yes : ∀ g, s.inited g = true → A.lists (E.sent g) = some (addrs log g)
  no : ∀ g, s.inited g = false → A.lists (E.sent g) = none ∧ addrs log g = []
  sentE : ∀ g, A.elems (E.sent g) = none
  only : ∀ a, (∀ g, a ≠ E.sent g) → A.lists a = none
  elems : ∀ a, A.elems a ≠ none → ∃ r ∈ log, r.addr = a
  data : ∀ r ∈ log, s.data r.addr = some (r.name, r.func)

theorem inv_init (E : Env) : Inv E {} [] {} := by
  constructor <;> simp [addrs]
  exact SingleList.rep_init

theorem inv_chain {E : Env} {s : St} {log : List Reg} {A : SingleList.Spec} (hE : ∀ g g', E.sent g = E.sent g' → g = g') (hi : Inv E s log A) (g : Sig) :
    ∃ s1 A1, chain E s g = .ok s1 ∧ Inv E s1 log A1 ∧ s1.inited g = true ∧ s1.data = s.data ∧ (∀ a, A1.elems a = A.elems a) ∧ (∀ a, A1.InList a → A.InList a) := by
  by_cases hg : s.inited g = true
  · exact ⟨s, A, by simp [chain, hg], hi, hg, rfl, fun _ => rfl, fun _ h => h⟩
  · have hg : s.inited g = false := by simpa using hg
    obtain ⟨i1, i2, i3, i4, i5, i6, i7⟩ := hi
    obtain ⟨h1, e1, r1⟩ := SingleList.rep_newList i1 (E.sent g) ⟨(i3 g hg).1, i4 g⟩
    refine ⟨⟨h1, fun x => if x = g then true else s.inited x, s.data⟩, A.step (.newList (E.sent g)), by simp [chain, hg, e1], ?_, by simp, rfl, fun _ => rfl, ?_⟩
    · constructor
      · exact r1
      · intro g' hg'
        simp only [SingleList.Spec.step, SingleList.set]
        by_cases e : g' = g
        · subst e; simp [(i3 g' hg).2]
        · have : E.sent g' ≠ E.sent g := fun h => e (hE _ _ h)
          simp only [if_neg e] at hg'
          simp [this, i2 g' hg']
      · intro g' hg'
        simp only [SingleList.Spec.step, SingleList.set]
        by_cases e : g' = g
        · simp [e] at hg'
        · have : E.sent g' ≠ E.sent g := fun h => e (hE _ _ h)
          simp only [if_neg e] at hg'
          simp [this, i3 g' hg']
      · exact i4
      · intro a ha
        simp [SingleList.Spec.step, SingleList.set, ha g, i5 a ha]
      · exact i6
      · exact i7
    · rintro a ⟨t, l, h1, h2⟩
      simp only [SingleList.Spec.step, SingleList.set] at h1
      split at h1
      · cases h1; simp at h2
      · exact ⟨t, l, h1, h2⟩

theorem inv_link {E : Env} {s : St} {log : List Reg} {A : SingleList.Spec} {r : Reg} (hE : ∀ g g', E.sent g = E.sent g' → g = g') (hi : Inv E s log A)
    (hs : ∀ g, r.addr ≠ E.sent g) (hf : ∀ q ∈ log, q.addr ≠ r.addr) : ∃ s1 A1, link E s r.sig r.addr r.name r.func = .ok s1 ∧ Inv E s1 (r :: log) A1 := by
  have hel : A.elems r.addr = none := by
    cases h : A.elems r.addr with
    | none => rfl
    | some b =>
      obtain ⟨q, hq, e⟩ := hi.elems r.addr (by simp [h])
      exact absurd e (hf q hq)
  have hnl : A.lists r.addr = none := hi.only _ hs
  obtain ⟨h1, e1, r1⟩ := SingleList.rep_newElem hi.rep r.addr ⟨hnl, hel⟩
  have hnin : ¬ A.InList r.addr := fun ⟨t, l, h, hm⟩ => by have := hi.rep.mem t l _ h hm; rw [hel] at this; cases this
  obtain ⟨i1, i2, i3, i4, i5, i6, i7⟩ := hi
  by_cases hg : s.inited r.sig = true
  · have hA : (A.step (.newElem r.addr)).Allowed (.push (E.sent r.sig) r.addr) := by
      refine ⟨?_, by simp [SingleList.Spec.step, SingleList.set], hnin⟩
      simp [SingleList.Spec.step, i2 r.sig hg]
    obtain ⟨h2, e2, r2⟩ := SingleList.rep_push r1 _ _ hA
    refine ⟨⟨h2, s.inited, QuickList.upd s.data r.addr (some (r.name, r.func))⟩, (A.step (.newElem r.addr)).step (.push (E.sent r.sig) r.addr), by simp [link, e1, chain, hg, e2], ?_⟩
    constructor
    · exact r2
    · intro g' hg'
      simp only [SingleList.Spec.step, SingleList.set]
      by_cases e : g' = r.sig
      · subst e; simp [addrs, i2 r.sig hg]
      · have : E.sent g' ≠ E.sent r.sig := fun h => e (hE _ _ h)
        simp [this, i2 g' hg', addrs, Ne.symm e]
    · intro g' hg'
      simp only [SingleList.Spec.step, SingleList.set]
      have e : g' ≠ r.sig := fun e => by rw [e, hg] at hg'; cases hg'
      have : E.sent g' ≠ E.sent r.sig := fun h => e (hE _ _ h)
      have h3 := i3 g' hg'
      simp only [addrs] at h3 ⊢
      simp [this, h3.1, Ne.symm e]
      simpa using h3.2
    · intro g
      simp only [SingleList.Spec.step, SingleList.set]
      have := hs g
      simp [Ne.symm this, i4 g]
    · intro a ha
      simp only [SingleList.Spec.step, SingleList.set]
      simp [ha r.sig, i5 a ha]
    · intro a ha
      simp only [SingleList.Spec.step, SingleList.set] at ha
      by_cases e : a = r.addr
      · exact ⟨r, by simp, e.symm⟩
      · simp only [if_neg e] at ha
        obtain ⟨q, hq, e⟩ := i6 a ha
        exact ⟨q, by simp [hq], e⟩
    · intro q hq
      rcases List.mem_cons.mp hq with rfl | hq
      · simp [QuickList.upd]
      · simp [QuickList.upd, hf q hq, i7 q hq]
  · have hg : s.inited r.sig = false := by simpa using hg
    have hB : (A.step (.newElem r.addr)).Allowed (.newList (E.sent r.sig)) := by
      refine ⟨(i3 r.sig hg).1, ?_⟩
      simp [SingleList.Spec.step, SingleList.set, Ne.symm (hs r.sig), i4]
    obtain ⟨h2, e2, r2⟩ := SingleList.rep_newList r1 _ hB
    have hA : ((A.step (.newElem r.addr)).step (.newList (E.sent r.sig))).Allowed (.push (E.sent r.sig) r.addr) := by
      refine ⟨by simp [SingleList.Spec.step, SingleList.set], by simp [SingleList.Spec.step, SingleList.set], ?_⟩
      rintro ⟨t, l, h1, h2⟩
      simp only [SingleList.Spec.step, SingleList.set] at h1
      split at h1
      · cases h1; simp at h2
      · exact hnin ⟨t, l, h1, h2⟩
    obtain ⟨h3, e3, r3⟩ := SingleList.rep_push r2 _ _ hA
    refine ⟨⟨h3, fun x => if x = r.sig then true else s.inited x, QuickList.upd s.data r.addr (some (r.name, r.func))⟩,
      ((A.step (.newElem r.addr)).step (.newList (E.sent r.sig))).step (.push (E.sent r.sig) r.addr), by simp [link, e1, chain, hg, e2, e3], ?_⟩
    constructor
    · exact r3
    · intro g' hg'
      simp only [SingleList.Spec.step, SingleList.set]
      by_cases e : g' = r.sig
      · subst e
        have := (i3 r.sig hg).2
        simp only [addrs] at this ⊢
        simp [this]
      · have : E.sent g' ≠ E.sent r.sig := fun h => e (hE _ _ h)
        simp only [if_neg e] at hg'
        simp [this, i2 g' hg', addrs, Ne.symm e]
    · intro g' hg'
      simp only [SingleList.Spec.step, SingleList.set]
      have e : g' ≠ r.sig := fun e => by simp [e] at hg'
      have : E.sent g' ≠ E.sent r.sig := fun h => e (hE _ _ h)
      simp only [if_neg e] at hg'
      have h3 := i3 g' hg'
      simp only [addrs] at h3 ⊢
      simp [this, h3.1, Ne.symm e]
      simpa using h3.2
    · intro g
      simp only [SingleList.Spec.step, SingleList.set]
      have := hs g
      simp [Ne.symm this, i4 g]
    · intro a ha
      simp only [SingleList.Spec.step, SingleList.set]
      simp [ha r.sig, i5 a ha]
    · intro a ha
      simp only [SingleList.Spec.step, SingleList.set] at ha
      by_cases e : a = r.addr
      · exact ⟨r, by simp, e.symm⟩
      · simp only [if_neg e] at ha
        obtain ⟨q, hq, e⟩ := i6 a ha
        exact ⟨q, by simp [hq], e⟩
    · intro q hq
      rcases List.mem_cons.mp hq with rfl | hq
      · simp [QuickList.upd]
      · simp [QuickList.upd, hf q hq, i7 q hq]

theorem inv_links {E : Env} (hE : ∀ g g', E.sent g = E.sent g' → g = g') (rs : List Reg) : ∀ (s : St) (log : List Reg) (A : SingleList.Spec), Inv E s log A →
    (∀ r ∈ rs, ∀ g, r.addr ≠ E.sent g) → (rs.map (·.addr)).Nodup → (∀ r ∈ rs, ∀ q ∈ log, q.addr ≠ r.addr) → ∃ s1 A1, links E s rs = .ok s1 ∧ Inv E s1 (rs.reverse ++ log) A1 := by
  induction rs with
  | nil => intro s log A hi _ _ _; exact ⟨s, A, rfl, by simpa using hi⟩
  | cons r rs ih =>
    intro s log A hi h1 h2 h3
    simp only [List.map_cons, List.nodup_cons, List.mem_map, not_exists, not_and] at h2
    obtain ⟨s1, A1, e1, hi1⟩ := inv_link hE hi (h1 r (by simp)) (fun q hq => h3 r (by simp) q hq)
    obtain ⟨s2, A2, e2, hi2⟩ := ih s1 (r :: log) A1 hi1 (fun q hq => h1 q (by simp [hq])) h2.2 (by
      intro q hq p hp
      rcases List.mem_cons.mp hp with rfl | hp
      · exact fun e => h2.1 q hq e.symm
      · exact h3 q (by simp [hq]) p hp)
    exact ⟨s2, A2, by simp [links, e1, e2], by simpa using hi2⟩

theorem findLoop_path (s : St) (e : Nat) (name : Str) (l : List Reg) : ∀ (p : Nat), SingleList.Path s.heap.next p (l.map (·.addr)) e → (∀ r ∈ l, s.heap.al r.addr = true) →
    (∀ r ∈ l, r.addr ≠ e) → (∀ r ∈ l, s.data r.addr = some (r.name, r.func)) → ∀ fuel, l.length < fuel →
    findLoop s e name fuel (s.heap.next p) = .ok (some (some (((l.find? fun r => r.name = name).map (·.addr)).getD e))) := by
  induction l with
  | nil =>
    intro p hp _ _ _ fuel hf
    obtain ⟨f, rfl⟩ : ∃ f, fuel = f + 1 := ⟨fuel - 1, by omega⟩
    simp only [List.map_nil, SingleList.Path] at hp
    simp [findLoop, hp]
  | cons r l ih =>
    intro p hp h1 h2 h3 fuel hf
    obtain ⟨f, rfl⟩ : ∃ f, fuel = f + 1 := ⟨fuel - 1, by simp at hf; omega⟩
    simp only [List.map_cons, SingleList.Path] at hp
    have := ih r.addr hp.2 (fun q hq => h1 q (by simp [hq])) (fun q hq => h2 q (by simp [hq])) (fun q hq => h3 q (by simp [hq])) f (by simpa using hf)
    by_cases e : r.name = name
    · simp [findLoop, hp.1, h2 r (by simp), h1 r (by simp), h3 r (by simp), e]
    · simp [findLoop, hp.1, h2 r (by simp), h1 r (by simp), h3 r (by simp), e, rd, this]

/-- The chain of the type is searched from the last link to the first. -/
theorem find_inv {E : Env} {s : St} {log : List Reg} {A : SingleList.Spec} (hi : Inv E s log A) (g : Sig) (hg : s.inited g = true) (hsep : ∀ r ∈ log, ∀ g, r.addr ≠ E.sent g)
    (name : Str) (fuel : Nat) (hf : log.length < fuel) :
    find E s g name fuel = .ok (some (some (((log.find? fun r => r.sig = g ∧ r.name = name).map (·.addr)).getD (E.sent g)))) := by
  have hl := hi.yes g hg
  have hp := hi.rep.path _ _ hl
  have hal := hi.rep.alL (E.sent g) (by simp [hl])
  have hlen : (log.filter fun r => r.sig = g).length < fuel := Nat.lt_of_le_of_lt (List.length_filter_le _ _) hf
  have := findLoop_path s (E.sent g) name (log.filter fun r => r.sig = g) (E.sent g) hp
    (fun r hr => hi.rep.alE _ (by simp [hi.rep.mem _ _ r.addr hl (List.mem_map.mpr ⟨r, hr, rfl⟩)]))
    (fun r hr => hsep r (List.mem_filter.mp hr).1 g) (fun r hr => hi.data r (List.mem_filter.mp hr).1) fuel hlen
  simp only [find, rd, hal, if_true, Res.ok_bind, this, List.find?_filter]
  congr 6
  funext r
  simp

/-- C110: when all links are constructed, `create` calls the function that was registered last with the name and the type deduced from the arguments, and throws if there is
none. -/
theorem c110_create (E : Env) (rs : List Reg) (hp : Places E rs) (ret : Nat) (name : Str) (args : List Arg) (fuel : Nat) (hf : rs.length < fuel) :
    ∃ s, links E {} rs = .ok s ∧
      create E s ret name args fuel = match lookup rs ⟨ret, args.map deduce⟩ name with | some f => .ok (some f) | none => .throw .general := by
  obtain ⟨s, A, e, hi⟩ := inv_links hp.inj rs {} [] {} (inv_init E) hp.sep hp.nodup (by simp)
  refine ⟨s, e, ?_⟩
  obtain ⟨s1, A1, e1, hi1, hg, hd, _, _⟩ := inv_chain hp.inj hi ⟨ret, args.map deduce⟩
  rw [List.append_nil] at hi1
  have hfind := find_inv hi1 _ hg (fun r hr => hp.sep r (by simpa using hr)) name fuel (by simpa using hf)
  simp only [create, e1, Res.ok_bind, hfind, lookup]
  cases hq : rs.reverse.find? fun r => r.sig = ⟨ret, args.map deduce⟩ ∧ r.name = name with
  | none => simp
  | some r =>
    have hm := List.mem_of_find?_eq_some hq
    have h1 := hp.sep r (by simpa using hm)
    simp [h1, hi1.data r hm]

/-- C110: the value found in a chain is that registered last under the name; the end of the chain is returned if there is none. -/
theorem c110_find (E : Env) (rs : List Reg) (hp : Places E rs) (g : Sig) (name : Str) (fuel : Nat) (hf : rs.length < fuel) :
    ∃ s s1, links E {} rs = .ok s ∧ chain E s g = .ok s1 ∧ ∃ x, find E s1 g name fuel = .ok (some (some x)) ∧
      match lookup rs g name with
      | some f => x ≠ E.sent g ∧ s1.data x = some (name, f)
      | none => x = E.sent g := by
  obtain ⟨s, A, e, hi⟩ := inv_links hp.inj rs {} [] {} (inv_init E) hp.sep hp.nodup (by simp)
  obtain ⟨s1, A1, e1, hi1, hg, hd, _, _⟩ := inv_chain hp.inj hi g
  rw [List.append_nil] at hi1
  have hfind := find_inv hi1 _ hg (fun r hr => hp.sep r (by simpa using hr)) name fuel (by simpa using hf)
  refine ⟨s, s1, e, e1, _, hfind, ?_⟩
  simp only [lookup]
  cases hq : rs.reverse.find? fun r => r.sig = g ∧ r.name = name with
  | none => simp
  | some r =>
    have hm := List.mem_of_find?_eq_some hq
    have h1 := hp.sep r (by simpa using hm)
    have h2 := List.find?_some hq
    simp only [decide_eq_true_eq] at h2
    simp [h1, hi1.data r hm, h2.2]

/-- The function is the only one registered under the name with this result. -/
theorem lookup_single {rs : List Reg} {r : Reg} (hr : r ∈ rs) (hu : ∀ q ∈ rs, q.name = r.name → q.sig.ret = r.sig.ret → q = r) (ps : List PTy) :
    lookup rs ⟨r.sig.ret, ps⟩ r.name = if ps = r.sig.params then some r.func else none := by
  simp only [lookup]
  split
  · next h =>
    cases hq : rs.reverse.find? fun q => q.sig = ⟨r.sig.ret, ps⟩ ∧ q.name = r.name with
    | none =>
      have := List.find?_eq_none.mp hq r (by simpa using hr)
      simp [h] at this
    | some q =>
      have h1 := List.mem_of_find?_eq_some hq
      have h2 := List.find?_some hq
      simp only [decide_eq_true_eq] at h2
      rw [hu q (by simpa using h1) h2.2 (by rw [h2.1])]
      rfl
  · next h =>
    rw [List.find?_eq_none.mpr]
    · rfl
    · intro q hq hc
      simp only [decide_eq_true_eq] at hc
      have := hu q (by simpa using hq) hc.2 (by rw [hc.1])
      rw [this] at hc
      exact h (by rw [hc.1])

/-- The parameter is exactly of the type the argument is passed with: a value for a temporary object, `T&` for a variable, `const T&` for a constant. -/
def Exact (p : PTy) (a : Arg) : Prop :=
  p.base = a.base ∧
  match p.cat with
  | .val => a.lvalue = false
  | .lref => a.lvalue = true ∧ a.isConst = false
  | .clref => a.lvalue = true ∧ a.isConst = true
  | .rref => False

theorem exact_accepts {p : PTy} {a : Arg} (h : Exact p a) : Accepts p a := by
  obtain ⟨b, c⟩ := p
  cases c <;> simp_all [Exact, Accepts]

theorem deduce_exact (p : PTy) (a : Arg) : deduce a = p ↔ Exact p a := by
  obtain ⟨b, c⟩ := p
  obtain ⟨b', k, l⟩ := a
  cases c <;> cases k <;> cases l <;> simp [deduce, Exact, eq_comm]

theorem map_deduce (ps : List PTy) (args : List Arg) : args.map deduce = ps ↔ List.Forall₂ Exact ps args := by
  induction args generalizing ps with
  | nil => cases ps <;> simp
  | cons a as ih => cases ps <;> simp [deduce_exact, ih]

/-- C110, for functions whose parameters are exactly of the types the arguments are passed with: a function that is the only one with its name and result is called.
Missing: other functions that accept the arguments (`c110_inexact_violated`). -/
theorem c110_registered_partial (E : Env) (rs : List Reg) (hp : Places E rs) (r : Reg) (hr : r ∈ rs) (hu : ∀ q ∈ rs, q.name = r.name → q.sig.ret = r.sig.ret → q = r)
    (args : List Arg) (hx : List.Forall₂ Exact r.sig.params args) (fuel : Nat) (hf : rs.length < fuel) :
    ∃ s, links E {} rs = .ok s ∧ create E s r.sig.ret r.name args fuel = .ok (some r.func) := by
  obtain ⟨s, e, h⟩ := c110_create E rs hp r.sig.ret r.name args fuel hf
  exact ⟨s, e, by rw [h, lookup_single hr hu, if_pos ((map_deduce _ _).mpr hx)]⟩

/-- C110 is violated by every other call the function accepts, say with a variable for a parameter that is a value, or a temporary object for a `const T&`: the function
is not found. -/
theorem c110_inexact_violated (E : Env) (rs : List Reg) (hp : Places E rs) (r : Reg) (hr : r ∈ rs) (hu : ∀ q ∈ rs, q.name = r.name → q.sig.ret = r.sig.ret → q = r)
    (args : List Arg) (_hacc : List.Forall₂ Accepts r.sig.params args) (hx : ¬ List.Forall₂ Exact r.sig.params args) (fuel : Nat) (hf : rs.length < fuel) :
    ∃ s, links E {} rs = .ok s ∧ create E s r.sig.ret r.name args fuel = .throw .general := by
  obtain ⟨s, e, h⟩ := c110_create E rs hp r.sig.ret r.name args fuel hf
  exact ⟨s, e, by rw [h, lookup_single hr hu, if_neg (fun e => hx ((map_deduce _ _).mp e))]⟩

/-- C110 is violated by a name that is used twice: nothing is reported, and the function registered first cannot be called any more. -/
theorem c110_duplicate_violated (E : Env) (rs : List Reg) (r q : Reg) (hp : Places E (r :: rs ++ [q])) (hn : q.name = r.name) (hs : q.sig = r.sig) (args : List Arg)
    (ha : args.map deduce = r.sig.params) (fuel : Nat) (hf : rs.length + 2 < fuel) :
    ∃ s, links E {} (r :: rs ++ [q]) = .ok s ∧ create E s r.sig.ret r.name args fuel = .ok (some q.func) := by
  obtain ⟨s, e, h⟩ := c110_create E _ hp r.sig.ret r.name args fuel (by simpa using hf)
  refine ⟨s, e, ?_⟩
  rw [h, ha]
  simp [lookup, hn, hs]

/-- C110 is violated by the end of a link (of a library that is unloaded): it stays in the chain, and a search that comes to it is undefined. -/
theorem c110_unlinked_violated (E : Env) (rs : List Reg) (r : Reg) (hp : Places E (rs ++ [r])) (args : List Arg) (ha : args.map deduce = r.sig.params) (name : Str)
    (fuel : Nat) (hf : rs.length + 1 < fuel) :
    ∃ s s1, links E {} (rs ++ [r]) = .ok s ∧ unlink s r.addr = .ok s1 ∧ create E s1 r.sig.ret name args fuel = .ub := by
  obtain ⟨s, A, e, hi⟩ := inv_links hp.inj _ {} [] {} (inv_init E) hp.sep hp.nodup (by simp)
  have hl : (s.inited r.sig) = true := by
    cases hx : s.inited r.sig with
    | true => rfl
    | false =>
      have := (hi.no _ hx).2
      simp [addrs] at this
  have hy := hi.yes _ hl
  have hpath := hi.rep.path _ _ hy
  have hal := hi.rep.alL _ (by simp [hy] : A.lists (E.sent r.sig) ≠ none)
  have hne := hp.sep r (by simp) r.sig
  refine ⟨s, { s with heap := { s.heap with al := QuickList.upd s.heap.al r.addr false } }, e, rfl, ?_⟩
  simp only [addrs, List.append_nil, List.reverse_append, List.reverse_cons, List.reverse_nil, List.nil_append, List.cons_append, List.filter_cons, decide_true, if_true,
    List.map_cons, SingleList.Path] at hpath
  obtain ⟨f, rfl⟩ : ∃ f, fuel = f + 1 := ⟨fuel - 1, by omega⟩
  simp [create, chain, ha, hl, find, rd, QuickList.upd, Ne.symm hne, hal, findLoop, hpath.1, hne]

/-- C110 is violated by a text with a zero character: it is taken for the name before it. -/
theorem c110_zero_violated (E : Env) (s : St) (g : Sig) (name rest : Str) (hz : ∀ c ∈ name, c ≠ 0) (fuel : Nat) :
    findString E s g (name ++ 0 :: rest) fuel = find E s g name fuel := by
  simp only [findString]
  congr 1
  induction name with
  | nil => simp
  | cons c name ih =>
    have := hz c (by simp)
    simp [this]
    exact ih (fun d hd => hz d (by simp [hd]))

/-! ### Sample: two functions without parameters, one that takes a number -/

/-- Types are countable, so there is a place for each chain. -/
def encP (p : PTy) : Nat := Nat.pair p.base (match p.cat with | .val => 0 | .lref => 1 | .clref => 2 | .rref => 3)

def encL : List PTy → Nat
  | [] => 0
  | p :: ps => Nat.pair (encP p) (encL ps) + 1

theorem encP_inj {p q : PTy} (h : encP p = encP q) : p = q := by
  obtain ⟨a, c⟩ := p
  obtain ⟨b, d⟩ := q
  simp only [encP, Nat.pair_eq_pair] at h
  obtain ⟨rfl, h⟩ := h
  cases c <;> cases d <;> simp_all

theorem encL_inj : ∀ {p q : List PTy}, encL p = encL q → p = q
  | [], [], _ => rfl
  | [], q :: qs, h => by simp [encL] at h
  | p :: ps, [], h => by simp [encL] at h
  | p :: ps, q :: qs, h => by
    simp only [encL, Nat.add_right_cancel_iff, Nat.pair_eq_pair] at h
    rw [encP_inj h.1, encL_inj h.2]

def sampleEnv : Env := ⟨fun g => 2 * Nat.pair g.ret (encL g.params)⟩

def sample : List Reg := [⟨⟨0, []⟩, 11, [97], 100⟩, ⟨⟨0, [⟨7, .val⟩]⟩, 13, [98], 200⟩, ⟨⟨0, []⟩, 15, [99], 300⟩, ⟨⟨0, [⟨7, .clref⟩]⟩, 17, [100], 400⟩]

theorem sample_places : Places sampleEnv sample := by
  refine ⟨?_, ?_, by decide⟩
  · intro g g' h
    obtain ⟨a, p⟩ := g
    obtain ⟨b, q⟩ := g'
    simp only [sampleEnv] at h
    have h := Nat.eq_of_mul_eq_mul_left (by decide) h
    rw [Nat.pair_eq_pair] at h
    rw [h.1, encL_inj h.2]
  · intro r hr g e
    have h1 : r.addr % 2 = 1 := by simp only [sample, List.mem_cons, List.not_mem_nil, or_false] at hr; rcases hr with rfl | rfl | rfl | rfl <;> rfl
    simp only [sampleEnv] at e
    omega

/-- `create<T>("b", 5)`. -/
example : ∃ s, links sampleEnv {} sample = .ok s ∧ create sampleEnv s 0 [98] [⟨7, false, false⟩] 9 = .ok (some 200) :=
  c110_registered_partial sampleEnv sample sample_places ⟨⟨0, [⟨7, .val⟩]⟩, 13, [98], 200⟩ (by decide) (by decide) _ (.cons ⟨rfl, rfl⟩ .nil) 9 (by decide)

/-- `int n = 5; create<T>("b", n)`. -/
example : ∃ s, links sampleEnv {} sample = .ok s ∧ create sampleEnv s 0 [98] [⟨7, false, true⟩] 9 = .throw .general :=
  c110_inexact_violated sampleEnv sample sample_places ⟨⟨0, [⟨7, .val⟩]⟩, 13, [98], 200⟩ (by decide) (by decide) _ (.cons ⟨rfl, trivial⟩ .nil) (by simp [Exact]) 9 (by decide)

/-- `create<T>("d", 5)`, for a function that takes `const int&`. -/
example : ∃ s, links sampleEnv {} sample = .ok s ∧ create sampleEnv s 0 [100] [⟨7, false, false⟩] 9 = .throw .general :=
  c110_inexact_violated sampleEnv sample sample_places ⟨⟨0, [⟨7, .clref⟩]⟩, 17, [100], 400⟩ (by decide) (by decide) _ (.cons ⟨rfl, trivial⟩ .nil) (by simp [Exact]) 9 (by decide)

end Verif.StaticChain
