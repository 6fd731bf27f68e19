import Verif.Observable.Lemmas
import Verif.QuickList.Props

/-! # Properties C16 – C18, C68 -/

namespace Verif.Observable

open Verif.QuickList

/-- The state a history of observer operations leads to: with enough fuel for the loops of `ClearObservers` it runs
without undefined behaviour. -/
def Reaches (ops : List OOp) (os : List Out) (h : Heap) : Prop :=
  ∃ N, ∀ fuel, N ≤ fuel → orun fuel emptyHeap ops = .ok (some (h, os))

/-- A history for the examples: observables 0 and 10, observers 1 … 5; 1, 2, 3 subscribe to 0 and 4 to 10. -/
def exOps : List OOp :=
  [.newObservable 0, .newObservable 10, .newObserver 1, .newObserver 2, .newObserver 3, .newObserver 4, .newObserver 5,
    .subscribe 0 1, .subscribe 0 2, .subscribe 0 3, .subscribe 10 4]

def exOuts : List Out := List.replicate 11 .unit

theorem exRun : ∃ σ, OSpecRun Abs.empty exOps σ exOuts ∧ σ.lists 0 = some [1, 2, 3] ∧ σ.lists 10 = some [4] ∧
    σ.st 5 = .free ∧ σ.st 2 = .linked ∧ σ.Unused 20 :=
  ⟨_, .cons (.newObservable ⟨rfl, rfl⟩) (.cons (.newObservable ⟨rfl, rfl⟩) (.cons (.newObserver ⟨rfl, rfl⟩)
    (.cons (.newObserver ⟨rfl, rfl⟩) (.cons (.newObserver ⟨rfl, rfl⟩) (.cons (.newObserver ⟨rfl, rfl⟩)
    (.cons (.newObserver ⟨rfl, rfl⟩) (.cons (.subscribe (L := []) rfl rfl) (.cons (.subscribe (L := [1]) rfl rfl)
    (.cons (.subscribe (L := [1, 2]) rfl rfl) (.cons (.subscribe (L := []) rfl rfl) .nil)))))))))), rfl, rfl, rfl, rfl,
    ⟨rfl, rfl⟩⟩

/-! ## C16 -/

/-- The callbacks only touch the subscription of the observer that is being called: it stays, unsubscribes or is
destroyed. -/
def OwnOnly (script : Script) : Prop :=
  ∀ calls x, script (calls ++ [x]) = [] ∨ script (calls ++ [x]) = [.unsubscribe x] ∨
    script (calls ++ [x]) = [.unsubscribeSafe x] ∨ script (calls ++ [x]) = [.destroyObserver x]

/-- The observers that stay. -/
def kept (script : Script) : List Nat → List Nat → List Nat
  | _, [] => []
  | calls, x :: L =>
    if script (calls ++ [x]) = [] then x :: kept script (calls ++ [x]) L else kept script (calls ++ [x]) L

/-- Effect of one permitted callback. -/
theorem ownOnly_step {script : Script} (ho : OwnOnly script) {h : Heap} {σ : Abs} (hr : Rep h σ) {s x : Nat}
    {K R calls : List Nat} (hs : σ.lists s = some (K ++ x :: R)) :
    ∃ h' σ' o, (∀ fuel, orun fuel h (script (calls ++ [x])) = .ok (some (h', o))) ∧ Rep h' σ' ∧
      σ'.lists s = some ((K ++ if script (calls ++ [x]) = [] then [x] else []) ++ R) ∧
      (∀ t, t ≠ s → σ'.lists t = σ.lists t) := by
  have hs' : (σ.setList s (K ++ R)).lists s = some (K ++ R) := by simp [Abs.setList]
  have hoth : ∀ t, t ≠ s → (σ.setList s (K ++ R)).lists t = σ.lists t := by
    intro t ht; simp [Abs.setList, upd, ht]
  rcases ho calls x with e | e | e | e
  · exact ⟨h, σ, [], fun _ => by rw [e]; rfl, hr, by simp [e, hs], fun _ _ => rfl⟩
  · obtain ⟨h', e1, e2⟩ := ostep_refines hr (.unsubscribe hs)
    refine ⟨h', _, [.unit], fun fuel => ?_, e2, ?_, hoth⟩
    · rw [e]; simp [orun, e1 fuel (by simp [opNeeds])]
    · simp [e, Abs.setList, Abs.setSt]
  · obtain ⟨h', e1, e2⟩ := ostep_refines hr (.unsubscribeSafeYes hs)
    refine ⟨h', _, [.unit], fun fuel => ?_, e2, ?_, hoth⟩
    · rw [e]; simp [orun, e1 fuel (by simp [opNeeds])]
    · simp [e, Abs.setList, Abs.setSt]
  · obtain ⟨h', e1, e2⟩ := ostep_refines hr (.destroyObserverYes hs)
    refine ⟨h', _, [.unit], fun fuel => ?_, e2, ?_, hoth⟩
    · rw [e]; simp [orun, e1 fuel (by simp [opNeeds])]
    · simp [e, Abs.setList, Abs.setSt]

theorem ring_fwd {h : Heap} {s x : Nat} {K R : List Nat} (hr : RingOf h s (K ++ x :: R)) :
    h.alive x = true ∧ h.fwd x = (R ++ [s]).head? := by
  refine ⟨hr.alive x (by simp), ?_⟩
  obtain ⟨P, p, n, Z, -, hZ, -, -, h3, -⟩ := hr.around
  rw [hZ, h3]; rfl

theorem notifyLoop_own {script : Script} (ho : OwnOnly script) {s : Nat} {R : List Nat} :
    ∀ {fuel : Nat} {h : Heap} {σ : Abs} {K calls : List Nat}, Rep h σ → σ.lists s = some (K ++ R) →
      R.length < fuel →
      ∃ h' σ', notifyLoop script s fuel h (R ++ [s]).head? calls = .ok (some (h', calls ++ R)) ∧ Rep h' σ' ∧
        σ'.lists s = some (K ++ kept script calls R) ∧ (∀ t, t ≠ s → σ'.lists t = σ.lists t) := by
  induction R with
  | nil =>
    intro fuel h σ K calls hr hs hf
    cases fuel with
    | zero => simp at hf
    | succ f =>
      have ha := (hr.ring s _ hs).alive s (by simp)
      exact ⟨h, σ, by simp [notifyLoop, ha], hr, by simpa [kept] using hs, fun _ _ => rfl⟩
  | cons x R ih =>
    intro fuel h σ K calls hr hs hf
    cases fuel with
    | zero => simp at hf
    | succ f =>
      have hR := hr.ring s _ hs
      have ha := hR.alive s (by simp)
      have hxs : x ≠ s := by
        have := hR.nodup
        rintro rfl; simp at this
      obtain ⟨hax, hfx⟩ := ring_fwd hR
      obtain ⟨h1, σ1, o, e1, e2, e3, e4⟩ := ownOnly_step ho hr (calls := calls) hs
      obtain ⟨h2, σ2, e5, e6, e7, e8⟩ := ih (fuel := f) (calls := calls ++ [x]) e2 e3 (by simpa using hf)
      refine ⟨h2, σ2, ?_, e6, ?_, fun t ht => (e8 t ht).trans (e4 t ht)⟩
      · have hne : ¬ (some x = some s) := fun e => hxs (Option.some.inj e)
        simp only [List.cons_append, List.head?_cons, notifyLoop, ha, if_true, hne, if_false, rd_some hax, hfx,
          Res.ok_bind, e1 f, e5]
        simp
      · rw [e7]
        by_cases hk : script (calls ++ [x]) = [] <;> simp [kept, hk]

/-- **C16.** If the callbacks only touch the called observer's own subscription, `Notify` calls every observer that was
subscribed at the start exactly once, in the order of subscription, and nobody else; afterwards exactly the observers
that did not leave are subscribed, in the same order, and the other observables are as before. -/
theorem c16_notify_each_once {ops : List OOp} {σ : Abs} {os : List Out} (hrun : OSpecRun Abs.empty ops σ os)
    {script : Script} (ho : OwnOnly script) {s : Nat} {L : List Nat} (hs : σ.lists s = some L) :
    ∃ h, Reaches ops os h ∧ Shows h s L ∧ ∃ h', (∀ fuel, L.length < fuel →
        notify script fuel h s = .ok (some (h', L))) ∧ Shows h' s (kept script [] L) ∧
      (∀ t M, t ≠ s → σ.lists t = some M → Shows h' t M) := by
  obtain ⟨h, e1, e2⟩ := orun_refines rep_empty hrun
  have hR := e1.ring s L hs
  have hloop : ∀ fuel, L.length < fuel → _ := fun fuel hf =>
    notifyLoop_own ho (fuel := fuel) (K := []) (calls := []) e1 hs hf
  have hfs : h.fwd s = (L ++ [s]).head? := by
    obtain ⟨n, Z, hZ, hf, -⟩ := hR.next (X := []) (p := s) (Y := L) rfl
    rw [hZ, hf]; rfl
  have hnot : ∀ fuel, notify script fuel h s = notifyLoop script s fuel h (L ++ [s]).head? [] := by
    intro fuel
    simp [notify, rd_some (hR.alive s (by simp)), hfs]
  obtain ⟨h', σ', f1, f2, f3, f4⟩ := hloop (L.length + 1) (Nat.lt_succ_self _)
  refine ⟨h, e2, hR.shows, h', ?_, (f2.ring s _ f3).shows, fun t M ht hM => (f2.ring t M ((f4 t ht).trans hM)).shows⟩
  intro fuel hf
  -- the result does not depend on the fuel, once there is enough
  have hdet : ∀ (R : List Nat) (f1 f2 : Nat) (h : Heap) (σ : Abs) (K calls : List Nat), Rep h σ →
      σ.lists s = some (K ++ R) → R.length < f1 → R.length < f2 →
      notifyLoop script s f1 h (R ++ [s]).head? calls = notifyLoop script s f2 h (R ++ [s]).head? calls := by
    intro R
    induction R with
    | nil =>
      intro f1 f2 h σ K calls hr hs h1 h2
      obtain ⟨f1, rfl⟩ : ∃ k, f1 = k + 1 := ⟨f1 - 1, by simp at h1; omega⟩
      obtain ⟨f2, rfl⟩ : ∃ k, f2 = k + 1 := ⟨f2 - 1, by simp at h2; omega⟩
      have ha := (hr.ring s _ hs).alive s (by simp)
      simp [notifyLoop, ha]
    | cons x R ih =>
      intro f1 f2 h σ K calls hr hs h1 h2
      obtain ⟨f1, rfl⟩ : ∃ k, f1 = k + 1 := ⟨f1 - 1, by simp at h1; omega⟩
      obtain ⟨f2, rfl⟩ : ∃ k, f2 = k + 1 := ⟨f2 - 1, by simp at h2; omega⟩
      have hR := hr.ring s _ hs
      have ha := hR.alive s (by simp)
      obtain ⟨hax, hfx⟩ := ring_fwd hR
      obtain ⟨g1, σ1, o, e1, e2, e3, e4⟩ := ownOnly_step ho hr (calls := calls) hs
      simp only [List.cons_append, List.head?_cons, notifyLoop, ha, if_true, rd_some hax, hfx, Res.ok_bind, e1]
      rw [ih f1 f2 g1 σ1 _ _ e2 e3 (by simpa using h1) (by simpa using h2)]
  rw [hnot, hdet L fuel (L.length + 1) h σ [] [] e1 hs hf (Nat.lt_succ_self _), f1]
  simp

/-- Observer 1 unsubscribes, 2 is destroyed, 3 stays. -/
def exScript : Script := fun calls =>
  if calls.getLast? = some 1 then [.unsubscribe 1] else if calls.getLast? = some 2 then [.destroyObserver 2] else []

theorem exScript_own : OwnOnly exScript := by
  intro calls x
  simp only [exScript, List.getLast?_append, List.getLast?_singleton, Option.some_or]
  by_cases h1 : x = 1
  · subst h1; simp
  · by_cases h2 : x = 2
    · subst h2; simp
    · simp [h1, h2]

example : ∃ h h', Reaches exOps exOuts h ∧ notify exScript 4 h 0 = .ok (some (h', [1, 2, 3])) ∧ Shows h' 0 [3] := by
  obtain ⟨σ, hrun, h0, -⟩ := exRun
  obtain ⟨h, e1, -, h', e2, e3, -⟩ := c16_notify_each_once hrun exScript_own h0
  exact ⟨h, h', e1, e2 4 (by decide), e3⟩

/-- The calls of `NotifyWhileTrue`: in order, up to the first that returns false. -/
def callsWhile (ret : List Nat → Bool) : List Nat → List Nat → List Nat
  | calls, [] => calls
  | calls, x :: L => if ret (calls ++ [x]) then callsWhile ret (calls ++ [x]) L else calls ++ [x]

/-- Whether all of them return true. -/
def allTrue (ret : List Nat → Bool) : List Nat → List Nat → Bool
  | _, [] => true
  | calls, x :: L => ret (calls ++ [x]) && allTrue ret (calls ++ [x]) L

theorem notifyWhileLoop_own {script : Script} (ho : OwnOnly script) {ret : List Nat → Bool} {s : Nat} {R : List Nat} :
    ∀ {fuel : Nat} {h : Heap} {σ : Abs} {K calls : List Nat}, Rep h σ → σ.lists s = some (K ++ R) →
      R.length < fuel →
      ∃ h' σ', notifyWhileLoop script ret s fuel h (R ++ [s]).head? calls =
          .ok (some (h', callsWhile ret calls R, allTrue ret calls R)) ∧ Rep h' σ' := by
  induction R with
  | nil =>
    intro fuel h σ K calls hr hs hf
    cases fuel with
    | zero => simp at hf
    | succ f =>
      have ha := (hr.ring s _ hs).alive s (by simp)
      exact ⟨h, σ, by simp [notifyWhileLoop, ha, callsWhile, allTrue], hr⟩
  | cons x R ih =>
    intro fuel h σ K calls hr hs hf
    cases fuel with
    | zero => simp at hf
    | succ f =>
      have hR := hr.ring s _ hs
      have ha := hR.alive s (by simp)
      have hxs : x ≠ s := by
        have := hR.nodup
        rintro rfl; simp at this
      have hne : ¬ (some x = some s) := fun e => hxs (Option.some.inj e)
      obtain ⟨hax, hfx⟩ := ring_fwd hR
      obtain ⟨h1, σ1, o, e1, e2, e3, e4⟩ := ownOnly_step ho hr (calls := calls) hs
      by_cases hret : ret (calls ++ [x]) = true
      · obtain ⟨h2, σ2, e5, e6⟩ := ih (fuel := f) (calls := calls ++ [x]) e2 e3 (by simpa using hf)
        refine ⟨h2, σ2, ?_, e6⟩
        simp only [List.cons_append, List.head?_cons, notifyWhileLoop, ha, if_true, hne, if_false, rd_some hax, hfx,
          Res.ok_bind, e1 f, hret, e5, callsWhile, allTrue]
        simp
      · refine ⟨h1, σ1, ?_, e2⟩
        simp only [List.cons_append, List.head?_cons, notifyWhileLoop, ha, if_true, hne, if_false, rd_some hax, hfx,
          Res.ok_bind, e1 f, hret, callsWhile, allTrue]
        simp

/-- **C16** for `NotifyWhileTrue`: the observers are called in order of subscription up to and including the first whose
callback returns false, and the result says whether all of them returned true. -/
theorem c16_notify_while_true {ops : List OOp} {σ : Abs} {os : List Out} (hrun : OSpecRun Abs.empty ops σ os)
    {script : Script} (ho : OwnOnly script) (ret : List Nat → Bool) {s : Nat} {L : List Nat}
    (hs : σ.lists s = some L) :
    ∃ h, Reaches ops os h ∧ ∀ fuel, L.length < fuel → ∃ h',
      notifyWhileTrue script ret fuel h s = .ok (some (h', callsWhile ret [] L, allTrue ret [] L)) := by
  obtain ⟨h, e1, e2⟩ := orun_refines rep_empty hrun
  have hR := e1.ring s L hs
  have hfs : h.fwd s = (L ++ [s]).head? := by
    obtain ⟨n, Z, hZ, hf, -⟩ := hR.next (X := []) (p := s) (Y := L) rfl
    rw [hZ, hf]; rfl
  refine ⟨h, e2, fun fuel hf => ?_⟩
  obtain ⟨h', σ', f1, f2⟩ := notifyWhileLoop_own ho (ret := ret) (K := []) (calls := []) e1 hs hf
  refine ⟨h', ?_⟩
  simp only [notifyWhileTrue, rd_some (hR.alive s (by simp)), hfs, Res.ok_bind, f1]

/-- The second observer returns false: the third is not called. -/
example : ∃ h h', Reaches exOps exOuts h ∧
    notifyWhileTrue exScript (fun c => c.length < 2) 4 h 0 = .ok (some (h', [1, 2], false)) := by
  obtain ⟨σ, hrun, h0, -⟩ := exRun
  obtain ⟨h, e1, e2⟩ := c16_notify_while_true hrun exScript_own (fun c => decide (c.length < 2)) h0
  obtain ⟨h', e3⟩ := e2 4 (by decide)
  exact ⟨h, h', e1, e3⟩

/-! ## C17 -/

/-- **C17 is false**: the callback of the first observer unsubscribes (or destroys) the second; the loop then calls
the second observer though it is not subscribed (last part: the second callback stops `NotifyWhileTrue`, so that we
can see that it was made) and follows its null link, or touches a destroyed object. -/
theorem c17_notify_any_callback_violated :
    ∃ h, Reaches exOps exOuts h ∧
      (∀ fuel, notify (fun c => if c = [1] then [.unsubscribe 2] else []) (fuel + 4) h 0 = .ub) ∧
      (∀ fuel, notify (fun c => if c = [1] then [.destroyObserver 2] else []) (fuel + 4) h 0 = .ub) ∧
      (∃ h', notifyWhileTrue (fun c => if c = [1] then [.unsubscribe 2] else []) (fun c => c = [1]) 4 h 0 =
        .ok (some (h', [1, 2], false)) ∧ isSubscribed h' 2 = .ok false) :=
  ⟨_, ⟨0, fun _ _ => rfl⟩, fun _ => rfl, fun _ => rfl, _, rfl, rfl⟩

/-- The callbacks never take away the observer that follows the one being called, and keep the observable alive;
otherwise they may do whatever a program may do: subscribe, unsubscribe, destroy and move observers and observables.
`Polite script s n σ calls i`: this holds for the next `n` calls of the loop that stands at `i`. -/
def Polite (script : Script) (s : Nat) : Nat → Abs → List Nat → Nat → Prop
  | 0, _, _, _ => True
  | n + 1, σ, calls, i => i = s ∨ ∃ X Y, σ.lists s = some (X ++ i :: Y) ∧ ∃ σ' os L j,
      OSpecRun σ (script (calls ++ [i])) σ' os ∧ σ'.lists s = some L ∧ (Y ++ [s]).head? = some j ∧
      (j = s ∨ j ∈ L) ∧ Polite script s n σ' (calls ++ [i]) j

theorem orun_fuel {h : Heap} {fuel : Nat} {ops : List OOp} {h' : Heap} {os : List Out} {N : Nat}
    (he : ∀ f, N ≤ f → orun f h ops = .ok (some (h', os))) :
    orun fuel h ops = .ok (some (h', os)) ∨ orun fuel h ops = .ok none := by
  have hcl : ∀ (n m : Nat) (h : Heap) (s : Nat), n ≤ m → (clearObservers n h s = clearObservers m h s) ∨
      clearObservers n h s = .ok none := by
    intro n
    induction n with
    | zero => intro m h s _; exact Or.inr rfl
    | succ n ih =>
      intro m h s hm
      obtain ⟨m, rfl⟩ : ∃ k, m = k + 1 := ⟨m - 1, by omega⟩
      simp only [clearObservers]
      cases isEmpty h s with
      | throw e => left; rfl
      | ub => left; rfl
      | ok b =>
        cases b with
        | true => left; rfl
        | false =>
          simp only [Res.ok_bind, Bool.false_eq_true, if_false]
          cases popFront h s with
          | throw e => left; rfl
          | ub => left; rfl
          | ok v =>
            simp only [Res.ok_bind]
            exact ih m v.1 s (by omega)
  have hst : ∀ (n m : Nat) (h : Heap) (op : OOp), n ≤ m → (ostep n h op = ostep m h op) ∨ ostep n h op = .ok none := by
    intro n m h op hm
    cases op <;> try exact Or.inl rfl
    case destroyObservable s =>
      simp only [ostep, Observable.destroyObservable]
      rcases hcl n m h s hm with e | e
      · rw [e]; exact Or.inl rfl
      · rw [e]; exact Or.inr rfl
    case moveAssignObservable s t =>
      simp only [ostep, Observable.moveAssignObservable]
      rcases hcl n m h s hm with e | e
      · rw [e]; exact Or.inl rfl
      · rw [e]; exact Or.inr rfl
  have hrun : ∀ (ops : List OOp) (n m : Nat) (h : Heap), n ≤ m → (orun n h ops = orun m h ops) ∨ orun n h ops = .ok none := by
    intro ops
    induction ops with
    | nil => intro n m h _; exact Or.inl rfl
    | cons op ops ih =>
      intro n m h hm
      simp only [orun]
      rcases hst n m h op hm with e | e
      · rw [e]
        cases ostep m h op with
        | throw e => left; rfl
        | ub => left; rfl
        | ok v =>
          cases v with
          | none => left; rfl
          | some v =>
            simp only [Res.ok_bind]
            rcases ih n m v.1 hm with e | e
            · rw [e]; exact Or.inl rfl
            · rw [e]; exact Or.inr rfl
      · rw [e]; exact Or.inr rfl
  rcases hrun ops fuel (max fuel N) h (by omega) with e | e
  · left; rw [e]; exact he _ (by omega)
  · exact Or.inr e

theorem notifyLoop_polite {script : Script} {s : Nat} : ∀ {fuel : Nat} {h : Heap} {σ : Abs} {calls : List Nat} {i : Nat}
    {L : List Nat}, Rep h σ → σ.lists s = some L → Polite script s fuel σ calls i →
      ∃ r, notifyLoop script s fuel h (some i) calls = .ok r := by
  intro fuel
  induction fuel with
  | zero => intro h σ calls i L hr hs hp; exact ⟨none, rfl⟩
  | succ n ih =>
    intro h σ calls i L hr hs hp
    have ha := (hr.ring s _ hs).alive s (by simp)
    rcases hp with rfl | ⟨X, Y, hX, σ', os, L', j, hrun, hs', hj, -, hp⟩
    · exact ⟨some (h, calls), by simp [notifyLoop, ha]⟩
    · have hR := hr.ring s _ hX
      have his : i ≠ s := by
        have := hR.nodup
        rintro rfl; simp at this
      have hne : ¬ (some i = some s) := fun e => his (Option.some.inj e)
      obtain ⟨hai, hfi⟩ := ring_fwd hR
      obtain ⟨h', e1, N, e2⟩ := orun_refines hr hrun
      obtain ⟨r, e3⟩ := ih (calls := calls ++ [i]) e1 hs' hp
      rw [hj] at hfi
      rcases orun_fuel (fuel := n) e2 with e | e
      · exact ⟨r, by simp only [notifyLoop, ha, if_true, hne, if_false, rd_some hai, hfi, Res.ok_bind, e, e3]⟩
      · exact ⟨none, by simp [notifyLoop, ha, his, rd_some hai, hfi, e]⟩

/-- **C17, what does hold.** However long `Notify` runs, it has no undefined behaviour and calls only observers that
are subscribed at that moment, provided that no callback takes away the observer that is next in the list or destroys
the observable.  Missing: callbacks that do that, see `c17_notify_any_callback_violated`. -/
theorem c17_notify_polite_partial {ops : List OOp} {σ : Abs} {os : List Out} (hrun : OSpecRun Abs.empty ops σ os)
    {script : Script} {s i : Nat} {L : List Nat} (hs : σ.lists s = some L) (hi : (L ++ [s]).head? = some i)
    {fuel : Nat} (hp : Polite script s fuel σ [] i) :
    ∃ h, Reaches ops os h ∧ ∃ r, notify script fuel h s = .ok r := by
  obtain ⟨h, e1, e2⟩ := orun_refines rep_empty hrun
  have hR := e1.ring s L hs
  have hfs : h.fwd s = some i := by
    obtain ⟨n, Z, hZ, hf, -⟩ := hR.next (X := []) (p := s) (Y := L) rfl
    rw [hf, ← hi, hZ]; rfl
  obtain ⟨r, e3⟩ := notifyLoop_polite e1 hs hp
  exact ⟨h, e2, r, by simp [notify, rd_some (hR.alive s (by simp)), hfs, e3]⟩

/-- The callback of 1 unsubscribes the third observer and subscribes 5 to the same observable; the callback of 2
destroys the first observer. -/
def politeScript : Script := fun calls =>
  if calls = [1] then [.unsubscribe 3, .subscribe 0 5] else if calls = [1, 2] then [.destroyObserver 1] else []

example : ∃ σ, OSpecRun Abs.empty exOps σ exOuts ∧ σ.lists 0 = some [1, 2, 3] ∧ Polite politeScript 0 10 σ [] 1 := by
  refine ⟨_, .cons (.newObservable ⟨rfl, rfl⟩) (.cons (.newObservable ⟨rfl, rfl⟩) (.cons (.newObserver ⟨rfl, rfl⟩)
    (.cons (.newObserver ⟨rfl, rfl⟩) (.cons (.newObserver ⟨rfl, rfl⟩) (.cons (.newObserver ⟨rfl, rfl⟩)
    (.cons (.newObserver ⟨rfl, rfl⟩) (.cons (.subscribe (L := []) rfl rfl) (.cons (.subscribe (L := [1]) rfl rfl)
    (.cons (.subscribe (L := [1, 2]) rfl rfl) (.cons (.subscribe (L := []) rfl rfl) .nil)))))))))), rfl, ?_⟩
  refine .inr ⟨[], [2, 3], rfl, _, _, [1, 2, 5], 2, .cons (.unsubscribe (s := 0) (X := [1, 2]) (Y := []) rfl)
    (.cons (.subscribe (L := [1, 2]) rfl rfl) .nil), rfl, rfl, .inr (by decide), ?_⟩
  refine .inr ⟨[1], [5], rfl, _, _, [2, 5], 5, .cons (.destroyObserverYes (s := 0) (X := []) (Y := [2, 5]) rfl) .nil, rfl,
    rfl, .inr (by decide), ?_⟩
  exact .inr ⟨[2], [], rfl, _, _, [2, 5], 0, .nil, rfl, rfl, .inl rfl, .inl rfl⟩

/-! ## C18 -/

/-- **C18.** After every history of creating, subscribing, unsubscribing, moving and destroying observers and
observables: nothing was undefined; no link of a living object leads to a destroyed object; the observables hold
exactly the living observers the specification says, so a destroyed observer is in no list; an observer reports to be
subscribed exactly if it is in the list of a living observable, in particular not after its observable was
destroyed. -/
theorem c18_no_dangling_links {ops : List OOp} {σ : Abs} {os : List Out} (hrun : OSpecRun Abs.empty ops σ os) :
    ∃ h, Reaches ops os h ∧
      (∀ x y, h.alive x = true → h.fwd x = some y ∨ h.bwd x = some y → h.alive y = true) ∧
      (∀ s L, σ.lists s = some L → Shows h s L ∧ ∀ a ∈ L, h.alive a = true) ∧
      (∀ a, (σ.st a ≠ .none ↔ h.alive a = true ∧ σ.lists a = none)) ∧
      (∀ a, σ.st a ≠ .none →
        (isSubscribed h a = .ok true ↔ ∃ s L, σ.lists s = some L ∧ a ∈ L) ∧
        (isSubscribed h a = .ok false ↔ ∀ s L, σ.lists s = some L → a ∉ L)) := by
  obtain ⟨h, e1, e2⟩ := orun_refines rep_empty hrun
  have hns := orun_noStale hrun (fun a => by simp [Abs.empty])
  refine ⟨h, e2, fun x y hx hl => links_alive e1 hns hx hl,
    fun s L hs => ⟨(e1.ring s L hs).shows, fun a ha => (e1.ring s L hs).alive a (by simp [ha])⟩, ?_, ?_⟩
  · intro a
    constructor
    · intro ha
      refine ⟨?_, ?_⟩
      · cases hst : σ.st a with
        | none => exact absurd hst ha
        | free => exact (e1.free a hst).1
        | stale => exact absurd hst (hns a)
        | linked =>
          obtain ⟨s, L, hs, hm⟩ := e1.linked' a hst
          exact (e1.ring s L hs).alive a (by simp [hm])
      · cases hl : σ.lists a with
        | none => rfl
        | some L => exact absurd (e1.sent a L hl) ha
    · intro ⟨ha, hl⟩ hst
      rw [e1.dead a ⟨hst, hl⟩] at ha
      cases ha
  · intro a ha
    cases hst : σ.st a with
    | none => exact absurd hst ha
    | stale => exact absurd hst (hns a)
    | free =>
      have hno : ∀ s L, σ.lists s = some L → a ∉ L := by
        intro s L hs hm
        rw [e1.linked s L a hs hm] at hst; cases hst
      have hinc := e1.included_free hst
      simp only [isSubscribed, hinc]
      refine ⟨⟨fun h => by simp at h, fun ⟨s, L, hs, hm⟩ => absurd hm (hno s L hs)⟩, ⟨fun _ => hno, fun _ => trivial⟩⟩
    | linked =>
      obtain ⟨s, L, hs, hm⟩ := e1.linked' a hst
      obtain ⟨X, Y, rfl⟩ := List.append_of_mem hm
      have hinc := e1.included_linked hs
      simp only [isSubscribed, hinc]
      exact ⟨⟨fun _ => ⟨s, _, hs, hm⟩, fun _ => trivial⟩, ⟨fun h => by simp at h, fun h => absurd hm (h s _ hs)⟩⟩

/-- Observer 2 is destroyed, then observable 10; observer 4 reports not to be subscribed. -/
example : ∃ h, Reaches (exOps ++ [.destroyObserver 2, .destroyObservable 10]) (exOuts ++ [.unit, .unit]) h ∧
    Shows h 0 [1, 3] ∧ isSubscribed h 4 = .ok false ∧ isSubscribed h 3 = .ok true := by
  have hrun : ∃ σ, OSpecRun Abs.empty (exOps ++ [.destroyObserver 2, .destroyObservable 10]) σ
      (exOuts ++ [.unit, .unit]) ∧ σ.lists 0 = some [1, 3] ∧ σ.st 4 = .free ∧ σ.st 3 = .linked ∧
      (∀ s L, σ.lists s = some L → s = 0) :=
    ⟨_, .cons (.newObservable ⟨rfl, rfl⟩) (.cons (.newObservable ⟨rfl, rfl⟩) (.cons (.newObserver ⟨rfl, rfl⟩)
      (.cons (.newObserver ⟨rfl, rfl⟩) (.cons (.newObserver ⟨rfl, rfl⟩) (.cons (.newObserver ⟨rfl, rfl⟩)
      (.cons (.newObserver ⟨rfl, rfl⟩) (.cons (.subscribe (L := []) rfl rfl) (.cons (.subscribe (L := [1]) rfl rfl)
      (.cons (.subscribe (L := [1, 2]) rfl rfl) (.cons (.subscribe (L := []) rfl rfl)
      (.cons (.destroyObserverYes (s := 0) (X := [1]) (Y := [3]) rfl) (.cons (.destroyObservable (L := [4]) rfl)
      .nil)))))))))))), rfl, rfl, rfl, by
        intro s L hs
        by_cases h0 : s = 0
        · exact h0
        by_cases h1 : s = 10
        · subst h1; simp [setFree, Abs.dropList] at hs
        simp [setFree, Abs.dropList, Abs.setList, Abs.setSt, Abs.empty, upd, h0, h1] at hs⟩
  obtain ⟨σ, hrun, h0, h4, h3, hall⟩ := hrun
  obtain ⟨h, e1, -, e2, -, e3⟩ := c18_no_dangling_links hrun
  refine ⟨h, e1, (e2 0 _ h0).1, ?_, ?_⟩
  · refine ((e3 4 (by rw [h4]; decide)).2).2 ?_
    intro s L hs
    obtain rfl := hall s L hs
    rw [h0] at hs; cases hs
    decide
  · exact ((e3 3 (by rw [h3]; decide)).1).2 ⟨0, _, h0, by decide⟩

/-! ## C68: moving an observable to itself -/

/-- **C68 is false**: move-assigning an observable to itself unsubscribes all its observers, though nothing should
change.  This happens for every observable. -/
theorem c68_self_move_observable_violated {ops : List OOp} {σ : Abs} {os : List Out}
    (hrun : OSpecRun Abs.empty ops σ os) {s : Nat} {L : List Nat} (hs : σ.lists s = some L) :
    ∃ h, Reaches ops os h ∧ Shows h s L ∧ ∃ h', (∀ fuel, L.length < fuel →
        moveAssignObservable fuel h s s = .ok (some h')) ∧ Shows h' s [] ∧
      ∀ a ∈ L, isSubscribed h a = .ok true ∧ isSubscribed h' a = .ok false := by
  obtain ⟨h, e1, e2⟩ := orun_refines rep_empty hrun
  obtain ⟨h1, e3, e4⟩ := clearObservers_rep e1 hs (Nat.lt_succ_self L.length)
  refine ⟨h, e2, (e1.ring s L hs).shows, h1, ?_, (e4.ring s [] (by simp [setFree, Abs.setList])).shows, ?_⟩
  · intro fuel hf
    simp [moveAssignObservable, clearObservers_mono e3 hf, moveAssignList]
  · intro a ha
    obtain ⟨X, Y, rfl⟩ := List.append_of_mem ha
    exact ⟨e1.included_linked hs, e4.included_free (by simp [setFree])⟩

/-- **C68, what does hold**: an observable without observers. -/
theorem c68_self_move_observable_partial {ops : List OOp} {σ : Abs} {os : List Out}
    (hrun : OSpecRun Abs.empty ops σ os) {s : Nat} (hs : σ.lists s = some []) :
    ∃ h, Reaches ops os h ∧ ∀ fuel, 0 < fuel → moveAssignObservable fuel h s s = .ok (some h) := by
  obtain ⟨h, e1, e2⟩ := orun_refines rep_empty hrun
  refine ⟨h, e2, ?_⟩
  intro fuel hf
  obtain ⟨k, rfl⟩ : ∃ k, fuel = k + 1 := ⟨fuel - 1, by omega⟩
  simp [moveAssignObservable, clearObservers, (e1.ring s _ hs).isEmpty, moveAssignList]

example : ∃ h h', Reaches exOps exOuts h ∧ Shows h 0 [1, 2, 3] ∧ moveAssignObservable 4 h 0 0 = .ok (some h') ∧
    Shows h' 0 [] := by
  obtain ⟨σ, hrun, h0, -⟩ := exRun
  obtain ⟨h, e1, e2, h', e3, e4, -⟩ := c68_self_move_observable_violated hrun h0
  exact ⟨h, h', e1, e2, e3 4 (by decide), e4⟩

example : ∃ σ, OSpecRun Abs.empty [.newObservable 0] σ [.unit] ∧ σ.lists 0 = some [] :=
  ⟨_, .cons (.newObservable ⟨rfl, rfl⟩) .nil, rfl⟩

end Verif.Observable
