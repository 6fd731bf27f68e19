import Verif.IntervalMap.ThrowLemmas

/-! # Interval maps and exceptions (C150) -/

namespace Verif.IntervalMap

variable {V : Type} [DecidableEq V]

/-- All calls have keys of the key type. -/
def CallsOk (K : KeyType) (h : List (Call V)) : Prop := ∀ c ∈ h, K.lo ≤ c.a ∧ c.b ≤ K.hi

theorem inv_runX {K : KeyType} (h : List (Call V)) {m m' : Map V} (hm : InvC False K m) (hr : CallsOk K h)
    (hrun : runX K m h = some m') : InvC False K m' := by
  induction h generalizing m with
  | nil => cases hrun; exact hm
  | cons c h ih =>
    have hr1 := hr c List.mem_cons_self
    have hr2 : CallsOk K h := fun y hy => hr y (List.mem_cons_of_mem _ hy)
    simp only [runX] at hrun
    by_cases hab : c.a ≤ c.b
    · obtain ⟨h1, h2, _⟩ := assignX_spec hm c.F hr1.1 hab hr1.2 c.v
      cases hA : assignX K c.F m c.a c.b c.v with
      | ok m1 => simp only [hA] at hrun; exact ih (h1 m1 hA).1 hr2 hrun
      | throw m1 x => simp only [hA] at hrun; exact ih (h2 m1 x hA).1 hr2 hrun
      | ub => simp only [hA] at hrun; cases hrun
    · have hA : assignX K c.F m c.a c.b c.v = .ok m := by unfold assignX; rw [if_neg hab]
      simp only [hA] at hrun
      exact ih hm hr2 hrun

/-- C150: in every map that calls leave, also such as threw, a call that throws has done one of two things: it has given the
keys `a … b` their value, and the other keys have what they had (or the gap was closed); or no key has got another value,
and the keys that have lost theirs are in `[a, b]` or had the value of `a`, together with all keys from there to `a`.  The
first only if the comparison of values threw. Missing: that the map is as it was (`c150_strong_violated`). -/
theorem c150_thrown_partial (K : KeyType) (h : List (Call V)) (hr : CallsOk K h) (m : Map V) (hrun : runX K [] h = some m)
    (F : Faults) (a b : Int) (v : V) (ha : K.lo ≤ a) (hab : a ≤ b) (hb : b ≤ K.hi) (m' : Map V) (x : Exn)
    (ht : assignX K F m a b v = .throw m' x) :
    (Done (look m) a b v (look m') ∧ (F .eqLeft = some x ∨ F .eqRight = some x)) ∨
    (Lost (look m) a b (look m') ∧ ((x = .runtime ∧ b = K.hi ∧ look m b ≠ none) ∨
      F .head = some x ∨ F .tailCopy = some x ∨ F .tailNode = some x ∨ F .copy = some x ∨ F .node = some x)) := by
  have hm := inv_runX h (inv_nil K).weak hr hrun
  exact ((assignX_spec hm F ha hab hb v).2.1 m' x ht).2.symm

/-- C150: after any exceptions, a call that returns does what it does without them: the keys `a … b` have the value, those
in a gap towards a neighbour with this value too, all others what they had. -/
theorem c150_returned (K : KeyType) (h : List (Call V)) (hr : CallsOk K h) (m : Map V) (hrun : runX K [] h = some m)
    (F : Faults) (a b : Int) (v : V) (ha : K.lo ≤ a) (hab : a ≤ b) (hb : b ≤ K.hi) (m' : Map V)
    (ht : assignX K F m a b v = .ok m') (k : Int) (w : V) :
    look m' k = some w ↔ ((a ≤ k ∧ k ≤ b) ∧ w = v) ∨ (¬ (a ≤ k ∧ k ≤ b) ∧ look m k = some w) ∨
      (w = v ∧ InGap (look m) a b v k) := by
  have hm := inv_runX h (inv_nil K).weak hr hrun
  exact ((assignX_spec hm F ha hab hb v).1 m' ht).2 k w

/-- C150: after any exceptions, the map answers consistently: `contains` is true exactly for the keys for which `at` gives a
value, `at` throws `out_of_range` for the others, and nothing is undefined. -/
theorem c150_consistent (K : KeyType) (h : List (Call V)) (hr : CallsOk K h) (m : Map V) (hrun : runX K [] h = some m) (k : Int) :
    (contains m k = true ∧ ∃ v, at' m k = .ok v ∧ look m k = some v) ∨
    (contains m k = false ∧ at' m k = .throw .outOfRange ∧ look m k = none) := by
  have hm := inv_runX h (inv_nil K).weak hr hrun
  cases hk : look m k with
  | some v =>
    left
    have := (at_iff hm k v).2 ((look_iff hm k v).2 hk)
    exact ⟨(contains_iff m k).2 ⟨v, this⟩, v, this, rfl⟩
  | none =>
    right
    have h1 := (at_throw hm k).2 ((none_iff (look_iff hm) k).2 hk)
    refine ⟨?_, h1, rfl⟩
    cases hc : contains m k with
    | false => rfl
    | true =>
      obtain ⟨v, hv⟩ := (contains_iff m k).1 hc
      rw [h1] at hv; cases hv

theorem runX_append {K : KeyType} (h1 h2 : List (Call V)) (m : Map V) :
    runX K m (h1 ++ h2) = (runX K m h1).bind (fun m => runX K m h2) := by
  induction h1 generalizing m with
  | nil => rfl
  | cons c h1 ih =>
    simp only [List.cons_append, runX]
    cases assignX K c.F m c.a c.b c.v with
    | ok m1 => exact ih m1
    | throw m1 x => exact ih m1
    | ub => rfl

/-- C150: no key ever has a value that was not given to it: after any history, with any exceptions, if a key has a value,
then one of the calls assigned this value to an interval with this key, or next to a gap with this key in it. -/
theorem c150_never_wrong (K : KeyType) (h : List (Call V)) (hr : CallsOk K h) (m : Map V) (hrun : runX K [] h = some m)
    (k : Int) (w : V) (hk : look m k = some w) :
    ∃ h1 c h2 m1, h = h1 ++ c :: h2 ∧ runX K [] h1 = some m1 ∧ c.v = w ∧
      ((c.a ≤ k ∧ k ≤ c.b) ∨ InGap (look m1) c.a c.b w k) := by
  have key : ∀ (n : Nat) (h : List (Call V)), h.length = n → CallsOk K h → ∀ m, runX K [] h = some m → ∀ k w,
      look m k = some w → ∃ h1 c h2 m1, h = h1 ++ c :: h2 ∧ runX K [] h1 = some m1 ∧ c.v = w ∧
        ((c.a ≤ k ∧ k ≤ c.b) ∨ InGap (look m1) c.a c.b w k) := by
    intro n
    induction n with
    | zero =>
      intro h hn hr m hrun k w hk
      cases List.length_eq_zero_iff.1 hn
      cases hrun
      cases hk
    | succ n ih =>
      intro h hn hr m hrun k w hk
      rcases List.eq_nil_or_concat h with rfl | ⟨h0, c, rfl⟩
      · cases hn
      · rw [List.concat_eq_append] at *
        have hn0 : h0.length = n := by simpa using hn
        have hr0 : CallsOk K h0 := fun y hy => hr y (List.mem_append_left _ hy)
        have hrc := hr c (by simp)
        rw [runX_append] at hrun
        cases h0run : runX K [] h0 with
        | none => rw [h0run] at hrun; cases hrun
        | some m0 =>
          rw [h0run] at hrun
          simp only [Option.bind_some, runX] at hrun
          have old : look m0 k = some w → ∃ h1 c' h2 m1, h0 ++ [c] = h1 ++ c' :: h2 ∧ runX K [] h1 = some m1 ∧ c'.v = w ∧
              ((c'.a ≤ k ∧ k ≤ c'.b) ∨ InGap (look m1) c'.a c'.b w k) := by
            intro h1
            obtain ⟨h1, c', h2, m1, h3, h4, h5⟩ := ih h0 hn0 hr0 m0 h0run k w h1
            exact ⟨h1, c', h2 ++ [c], m1, by rw [h3]; simp, h4, h5⟩
          have new : c.v = w → ((c.a ≤ k ∧ k ≤ c.b) ∨ InGap (look m0) c.a c.b w k) →
              ∃ h1 c' h2 m1, h0 ++ [c] = h1 ++ c' :: h2 ∧ runX K [] h1 = some m1 ∧ c'.v = w ∧
              ((c'.a ≤ k ∧ k ≤ c'.b) ∨ InGap (look m1) c'.a c'.b w k) :=
            fun h1 h2 => ⟨h0, c, [], m0, rfl, h0run, h1, h2⟩
          by_cases hab : c.a ≤ c.b
          · have hm0 := inv_runX h0 (inv_nil K).weak hr0 h0run
            obtain ⟨s1, s2, _⟩ := assignX_spec hm0 c.F hrc.1 hab hrc.2 c.v
            cases hA : assignX K c.F m0 c.a c.b c.v with
            | ub => simp only [hA] at hrun; cases hrun
            | ok m1 =>
              simp only [hA] at hrun
              cases hrun
              rcases ((s1 m hA).2 k w).1 hk with ⟨h1, h2⟩ | ⟨_, h1⟩ | ⟨h1, h2⟩
              · exact new h2.symm (.inl h1)
              · exact old h1
              · exact new h1.symm (.inr (h1 ▸ h2))
            | throw m1 x =>
              simp only [hA] at hrun
              cases hrun
              rcases (s2 m x hA).2 with ⟨h1, _⟩ | ⟨h1, _⟩
              · rcases h1 k with h2 | ⟨h2, _⟩
                · exact old (h2 ▸ hk)
                · rw [hk] at h2; cases h2
              · rcases h1 k with h2 | ⟨h2, h3⟩
                · rw [hk, put] at h2
                  split at h2
                  · rename_i hin
                    exact new (Option.some.inj h2).symm (.inl hin)
                  · exact old h2.symm
                · rw [hk] at h3
                  have h3 := Option.some.inj h3
                  exact new h3.symm (.inr (h3 ▸ h2))
          · have hA : assignX K c.F m0 c.a c.b c.v = .ok m0 := by unfold assignX; rw [if_neg hab]
            simp only [hA] at hrun
            cases hrun
            exact old hk
  exact key h.length h rfl hr m hrun k w hk

/-- C150: no history of calls is undefined that leaves out the greatest key, or whose keys are unsigned or narrower than
`int`; whatever throws. -/
theorem c150_defined (K : KeyType) (h : List (Call V)) (hr : CallsOk K h)
    (ht : K.wraps = true ∨ ∀ c ∈ h, c.b < K.hi) : ∃ m, runX K [] h = some m := by
  have key : ∀ (h : List (Call V)) m, InvC False K m → CallsOk K h → (K.wraps = true ∨ ∀ c ∈ h, c.b < K.hi) →
      ∃ m', runX K m h = some m' := by
    intro h
    induction h with
    | nil => exact fun m _ _ _ => ⟨m, rfl⟩
    | cons c h ih =>
      intro m hm hr ht
      have hr1 := hr c List.mem_cons_self
      have hr2 : CallsOk K h := fun y hy => hr y (List.mem_cons_of_mem _ hy)
      have ht2 : K.wraps = true ∨ ∀ c ∈ h, c.b < K.hi := ht.imp id (fun h' y hy => h' y (List.mem_cons_of_mem _ hy))
      simp only [runX]
      by_cases hab : c.a ≤ c.b
      · obtain ⟨s1, s2, s3⟩ := assignX_spec hm c.F hr1.1 hab hr1.2 c.v
        cases hA : assignX K c.F m c.a c.b c.v with
        | ok m1 => exact ih m1 (s1 m1 hA).1 hr2 ht2
        | throw m1 x => exact ih m1 (s2 m1 x hA).1 hr2 ht2
        | ub =>
          obtain ⟨h1, h2, _⟩ := s3 hA
          rcases ht with ht | ht
          · rw [ht] at h1; cases h1
          · have := ht c List.mem_cons_self; omega
      · have hA : assignX K c.F m c.a c.b c.v = .ok m := by unfold assignX; rw [if_neg hab]
        simp only [hA]
        exact ih m hm hr2 ht2
  exact key h [] (inv_nil K).weak hr ht

/-- C150: without faults this is the `assign` of C51. -/
theorem c150_no_faults (K : KeyType) (m : Map V) (a b : Int) (v : V) : assignX K (fun _ => none) m a b v = assign K m a b v := by
  have h1 : ∀ m' : Map V, insertMergeX (fun _ => none) m' a b v = insertMerge m' a b v := by
    intro m'
    rcases insertMergeX_cases (fun _ => none) m' a b v with h | ⟨x, h, _⟩ | ⟨_, _, ⟨x, h, _⟩ | ⟨x, h, _⟩⟩
    · exact h
    · rcases h with h | h <;> cases h
    · cases h
    · cases h
  unfold assignX assign
  simp only [h1]
  split
  · rcases cutAX_cases K (fun _ => none) m a b (fun m rb => cutB K m b rb fun m => insertMerge m a b v) with
      h | ⟨_, _, _, ⟨x, h, _⟩ | ⟨_, _, _, _, _, x, h, _⟩⟩
    · exact h
    · cases h
    · rcases h with h | h <;> cases h
  · rfl

def noFaults : Faults := fun _ => none

/-- Only the given operation throws. -/
def failAt (p : Point) : Faults := fun q => if q = p then some (.user 1) else none

def before : List (Call Nat) := [⟨0, 99, 1, noFaults⟩, ⟨150, 199, 2, noFaults⟩, ⟨100, 120, 7, failAt .eqLeft⟩]

example : CallsOk byte before := by simp [CallsOk, before, byte]
example : runX byte [] before = some [⟨99, 0, 1⟩, ⟨120, 100, 7⟩, ⟨199, 150, 2⟩] := by decide +kernel
-- every fault
example : ∀ p, (match assignX byte (failAt p) [⟨99, 0, 1⟩, ⟨120, 100, 7⟩, ⟨199, 150, 2⟩] 30 40 3 with
    | .throw m x => some (m, x)
    | _ => none) = match p with
      | .head => some ([⟨120, 100, 7⟩, ⟨199, 150, 2⟩], .user 1)
      | .tailCopy => some ([⟨29, 0, 1⟩, ⟨120, 100, 7⟩, ⟨199, 150, 2⟩], .user 1)
      | .tailNode => some ([⟨29, 0, 1⟩, ⟨120, 100, 7⟩, ⟨199, 150, 2⟩], .user 1)
      | .copy => some ([⟨29, 0, 1⟩, ⟨99, 41, 1⟩, ⟨120, 100, 7⟩, ⟨199, 150, 2⟩], .user 1)
      | .node => some ([⟨29, 0, 1⟩, ⟨99, 41, 1⟩, ⟨120, 100, 7⟩, ⟨199, 150, 2⟩], .user 1)
      | .eqLeft => some ([⟨29, 0, 1⟩, ⟨40, 30, 3⟩, ⟨99, 41, 1⟩, ⟨120, 100, 7⟩, ⟨199, 150, 2⟩], .user 1)
      | .eqRight => some ([⟨29, 0, 1⟩, ⟨40, 30, 3⟩, ⟨99, 41, 1⟩, ⟨120, 100, 7⟩, ⟨199, 150, 2⟩], .user 1) := by
  intro p; cases p <;> decide +kernel

/-- C150 is violated: a call that runs out of memory does not leave the map as it was; keys that it does not assign, on the left and on
the right of `[a, b]`, have lost their values. -/
theorem c150_strong_violated (K : KeyType) (x y a b : Int) (v w : V) (F : Faults) (e : Exn) (hF : F .head = some e)
    (hx : K.lo ≤ x) (hxa : x < a) (hab : a ≤ b) (hby : b < y) (_hy : y ≤ K.hi) :
    ∃ m m', run K [] [(x, y, v)] = .ok m ∧ assignX K F m a b w = .throw m' e ∧
      (∀ k, x ≤ k → k ≤ y → look m k = some v ∧ look m' k = none) := by
  refine ⟨[⟨y, x, v⟩], [], ?_, ?_, ?_⟩
  · have hxy : x ≤ y := by omega
    simp [run, assign, hxy, cutA, lower, cutB, insertMerge, emplace, insertSorted, mergeLeft, mergeRight, prev, next]
  · have hay : a ≤ y := by omega
    have hlo : K.lo < a := by omega
    simp [assignX, hab, cutAX, lower, hay, hxa, previousKey, hlo, guarded, hF, erase]
  · intro k h1 h2
    simp [look, at', lower, h1, h2]

end Verif.IntervalMap
