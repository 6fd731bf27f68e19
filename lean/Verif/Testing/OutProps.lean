import Verif.Testing.OutModel
import Verif.SingleList.Props

/-! # C117: the output of the tests, and the chain of tests -/

namespace Verif.Testing

/-! ### Specification -/

/-- All repetitions of a test: what is written and how it ends. -/
def Spec.runs (loop : Nat) (ts : List OTest) : List (Str × Outcome) :=
  ts.flatMap fun t => (List.range (if loop ≠ 0 then loop else 1)).map fun i => (t.written i, t.outcome i)

/-- The runs before the first that does not pass, and that one. -/
def Spec.First (l : List (Str × Outcome)) (before : List (Str × Outcome)) (s : Str) (o : Outcome) : Prop :=
  ∃ after, l = before ++ (s, o) :: after ∧ (∀ r ∈ before, r.2 = .pass) ∧ o ≠ .pass

/-! ### Proofs -/

/-- The runs one after the other. -/
def runList (m : Mode) : List (Str × Outcome) → Out → Res Unit × Out
  | [], o => (.ok (), o)
  | (s, .pass) :: l, o => runList m l (if m = .failed then { put m o s with last := [] } else put m o s)
  | (s, .fail) :: _, o => (.throw .test, put m o s)
  | (s, .other) :: _, o => (.throw .general, put m o s)

theorem runList_append (m : Mode) (l k : List (Str × Outcome)) (o : Out) :
    runList m (l ++ k) o = match runList m l o with | (.ok _, o) => runList m k o | r => r := by
  induction l generalizing o with
  | nil => rfl
  | cons x l ih =>
    obtain ⟨s, r⟩ := x
    cases r with
    | pass => simp only [List.cons_append, runList]; rw [ih]
    | fail => rfl
    | other => rfl

theorem repeatOut_eq (m : Mode) (t : OTest) (n i : Nat) (o : Out) :
    repeatOut m t i n o = runList m ((List.range' i n).map fun i => (t.written i, t.outcome i)) o := by
  induction n generalizing i o with
  | zero => rfl
  | succ n ih =>
    simp only [List.range'_succ, List.map_cons, repeatOut]
    cases h : t.outcome i with
    | pass => simp only [runList]; exact ih _ _
    | fail => rfl
    | other => rfl

theorem runAllOut_eq (m : Mode) (hm : m ≠ .invalid) (loop : Nat) (ts : List OTest) (o : Out) : runAllOut m loop ts o = runList m (Spec.runs loop ts) o := by
  induction ts generalizing o with
  | nil => rfl
  | cons t ts ih =>
    have h1 : runOut m loop t o = runList m ((List.range (if loop ≠ 0 then loop else 1)).map fun i => (t.written i, t.outcome i)) o := by
      rw [runOut, if_neg hm, repeatOut_eq, List.range_eq_range']
    simp only [Spec.runs, List.flatMap_cons, runList_append, runAllOut, h1]
    generalize runList m _ o = r
    match r with
    | (.ok u, o1) => exact ih o1
    | (.throw e, o1) => rfl
    | (.ub, o1) => rfl

theorem first_or_all (l : List (Str × Outcome)) : (∀ r ∈ l, r.2 = .pass) ∨ ∃ b s o, Spec.First l b s o := by
  induction l with
  | nil => left; simp
  | cons x l ih =>
    obtain ⟨s, o⟩ := x
    by_cases h : o = .pass
    · rcases ih with ih | ⟨b, s', o', after, e, h1, h2⟩
      · left; intro r hr
        rcases List.mem_cons.1 hr with rfl | hr
        · exact h
        · exact ih r hr
      · refine .inr ⟨(s, o) :: b, s', o', after, by simp [e], ?_, h2⟩
        intro r hr
        rcases List.mem_cons.1 hr with rfl | hr
        · exact h
        · exact h1 r hr
    · exact .inr ⟨[], s, o, l, rfl, by simp, h⟩

/-- What passing runs leave. -/
def after (m : Mode) (b : List (Str × Outcome)) (o : Out) : Out :=
  match m with
  | .all => { o with shown := o.shown ++ (b.map (·.1)).flatten }
  | .failed => if b = [] then o else { o with last := [] }
  | _ => o

theorem runList_pass (m : Mode) (b : List (Str × Outcome)) (h : ∀ r ∈ b, r.2 = .pass) (o : Out) : runList m b o = (.ok (), after m b o) := by
  induction b generalizing o with
  | nil => cases m <;> simp [runList, after]
  | cons x b ih =>
    obtain ⟨s, r⟩ := x
    have hr : r = .pass := h (s, r) (by simp)
    subst hr
    simp only [runList]
    rw [ih (fun r hr => h r (by simp [hr]))]
    cases m <;> simp [after, put]

/-- What the runs leave if one does not pass. -/
theorem runList_first (m : Mode) (l b : List (Str × Outcome)) (s : Str) (o : Outcome) (h : Spec.First l b s o) (u : Out) :
    runList m l u = (if o = .fail then .throw .test else .throw .general, put m (after m b u) s) := by
  obtain ⟨k, rfl, h1, h2⟩ := h
  rw [runList_append, runList_pass m b h1]
  cases o with
  | pass => exact absurd rfl h2
  | fail => rfl
  | other => rfl

/-- C117, for tests that fail with a `TestException`: the default shows exactly what the run that failed has written, `all` shows all that was written by the runs until then, `null` shows nothing.
Missing: tests that fail with another exception (`c117_other_violated`). -/
theorem c117_output_partial (loop : Nat) (ts : List OTest) (b : List (Str × Outcome)) (s : Str) (h : Spec.First (Spec.runs loop ts) b s .fail) :
    runTestsOut .failed loop ts = (.ok false, s) ∧ runTestsOut .all loop ts = (.ok false, (b.map (·.1)).flatten ++ s) ∧ runTestsOut .null loop ts = (.ok false, []) := by
  refine ⟨?_, ?_, ?_⟩ <;>
    simp only [runTestsOut, runAllOut_eq _ (show Mode.failed ≠ .invalid by decide), runAllOut_eq _ (show Mode.all ≠ .invalid by decide), runAllOut_eq _ (show Mode.null ≠ .invalid by decide),
      runList_first _ _ _ _ _ h, if_true]
  · by_cases hb : b = [] <;> simp [put, after, hb]
  · simp [put, after]
  · simp [put, after]

/-- C117: if all tests pass, `all` shows all that was written and the default shows nothing. -/
theorem c117_passed (loop : Nat) (ts : List OTest) (h : ∀ r ∈ Spec.runs loop ts, r.2 = .pass) :
    runTestsOut .failed loop ts = (.ok true, []) ∧ runTestsOut .all loop ts = (.ok true, ((Spec.runs loop ts).map (·.1)).flatten) ∧ runTestsOut .null loop ts = (.ok true, []) := by
  refine ⟨?_, ?_, ?_⟩ <;>
    simp only [runTestsOut, runAllOut_eq _ (show Mode.failed ≠ .invalid by decide), runAllOut_eq _ (show Mode.all ≠ .invalid by decide), runAllOut_eq _ (show Mode.null ≠ .invalid by decide),
      runList_pass _ _ h]
  · by_cases hb : Spec.runs loop ts = [] <;> simp [after, hb]
  · simp [after]
  · simp [after]

/-- C117 is violated by tests that fail with any other exception: by default nothing of their output is shown, and the exception leaves the runner. -/
theorem c117_other_violated (loop : Nat) (ts : List OTest) (b : List (Str × Outcome)) (s : Str) (h : Spec.First (Spec.runs loop ts) b s .other) :
    runTestsOut .failed loop ts = (.throw .general, []) := by
  simp only [runTestsOut, runAllOut_eq _ (show Mode.failed ≠ .invalid by decide), runList_first _ _ _ _ _ h]
  by_cases hb : b = [] <;> simp [put, after, hb]

/-- C117 is violated by a map that is used again after a test failed: the last output has what both tests wrote. -/
theorem c117_again_violated (t u : OTest) (ht : t.outcome 0 = .fail) (hu : u.outcome 0 = .fail) :
    (runOut .failed 0 u (runOut .failed 0 t {}).2).2.last = t.written 0 ++ u.written 0 := by
  simp [runOut, repeatOut, ht, hu, put]

/-! ### The chain -/

open SingleList in
theorem shutdown_rep (l : List Nat) : ∀ (h : SingleList.St) (A : SingleList.Spec) (c : Nat), Rep h A → A.lists c = some l → (∀ a, A.elems a ≠ some true) → (∀ s, s ≠ c → A.lists s = none) →
    ∀ fuel, l.length < fuel → ∃ h1 A1, shutdown h c fuel = .ok (some h1) ∧ Rep h1 A1 ∧ A1.lists c = some [] ∧ A1.elems = A.elems ∧ (∀ s, s ≠ c → A1.lists s = none) := by
  induction l with
  | nil =>
    intro h A c r hl _ ho fuel hf
    obtain ⟨f, rfl⟩ : ∃ f, fuel = f + 1 := ⟨fuel - 1, by omega⟩
    refine ⟨h, A, ?_, r, hl, rfl, ho⟩
    have hs := r.alL c (by simp [hl])
    have hp := r.path c _ hl
    simp only [Path] at hp
    simp [shutdown, SingleList.empty, QuickList.Single.empty, QuickList.rd, hs, hp]
  | cons a l ih =>
    intro h A c r hl he ho fuel hf
    obtain ⟨f, rfl⟩ : ∃ f, fuel = f + 1 := ⟨fuel - 1, by simp at hf; omega⟩
    obtain ⟨h2, e2, r2⟩ := rep_pop r c ⟨a, l, hl⟩
    have hpop := popFront_eq r hl
    have e3 : h2 = ⟨h.al, QuickList.upd (QuickList.upd h.next c (h.next a)) a none⟩ := by
      simp [step, hpop] at e2
      exact e2.symm
    have hs := r.alL c (by simp [hl])
    have hp := r.path c _ hl
    simp only [Path] at hp
    have hne : a ≠ c := fun e => r.ne hl (t := c) (by simp [hl]) (by simp [e])
    obtain ⟨h1, A1, s1, s2, s3, s4, s5⟩ := ih h2 (A.step (.pop c)) c r2 (by simp [Spec.step, SingleList.set, hl]) (by simpa [Spec.step] using he)
      (fun s hsc => by simp [Spec.step, SingleList.set, hsc, ho s hsc]) f (by simpa using hf)
    refine ⟨h1, A1, ?_, s2, s3, s4, s5⟩
    rw [e3] at s1
    simp [shutdown, SingleList.empty, QuickList.Single.empty, QuickList.rd, hs, hp.1, hne, hpop, s1]

open SingleList in
theorem linkTests_run (c : Nat) (links : List Nat) : ∀ (A : SingleList.Spec) (l : List Nat), A.lists c = some l → (∀ s, s ≠ c → A.lists s = none) → (∀ a ∈ links, A.elems a = none ∧ a ≠ c ∧ a ∉ l) → links.Nodup →
    (∀ a, A.elems a ≠ some true) →
    Spec.AllowedAll A (links.flatMap fun a => [.newElem a, .push c a]) ∧ (A.run (links.flatMap fun a => [.newElem a, .push c a])).lists c = some (links.reverse ++ l) ∧
    (∀ s, s ≠ c → (A.run (links.flatMap fun a => [.newElem a, .push c a])).lists s = none) ∧
    (∀ a, (A.run (links.flatMap fun a => [.newElem a, .push c a])).elems a ≠ some true) ∧
    (∀ a, a ∈ links → (A.run (links.flatMap fun a => [.newElem a, .push c a])).elems a ≠ none) ∧
    (∀ a, A.elems a ≠ none → (A.run (links.flatMap fun a => [.newElem a, .push c a])).elems a ≠ none) := by
  induction links with
  | nil => intro A l hl ho _ _ ht; exact ⟨trivial, by simpa [Spec.run] using hl, ho, ht, by simp, fun a h => h⟩
  | cons a links ih =>
    intro A l hl ho hn hd ht
    obtain ⟨n1, n2, n3⟩ := hn a (by simp)
    obtain ⟨d1, d2⟩ := List.nodup_cons.1 hd
    have key := ih ((A.step (.newElem a)).step (.push c a)) (a :: l) (by simp [Spec.step, SingleList.set, hl]) (fun s hs => by simp [Spec.step, SingleList.set, hs, ho s hs])
      (fun b hb => by
        have hba : b ≠ a := fun e => d1 (e ▸ hb)
        have := hn b (by simp [hb])
        simp [Spec.step, SingleList.set, hba, this])
      d2 (fun b => by by_cases hb : b = a <;> simp [Spec.step, SingleList.set, hb, ht])
    obtain ⟨k1, k2, k3, k4, k5, k6⟩ := key
    simp only [List.flatMap_cons, List.cons_append, List.nil_append, Spec.AllowedAll, Spec.run]
    refine ⟨⟨?_, ?_, k1⟩, by simpa using k2, k3, k4, ?_, ?_⟩
    · exact ⟨ho a n2, n1⟩
    · refine ⟨by simp [Spec.step, hl], by simp [Spec.step, SingleList.set], ?_⟩
      rintro ⟨s, k, hs, hk⟩
      simp only [Spec.step] at hs
      by_cases hsc : s = c
      · subst hsc
        rw [hl] at hs
        cases hs
        exact n3 hk
      · rw [ho s hsc] at hs
        cases hs
    · intro b hb
      rcases List.mem_cons.1 hb with rfl | hb
      · exact k6 b (by simp [Spec.step, SingleList.set])
      · exact k5 b hb
    · intro b hb
      refine k6 b ?_
      by_cases hba : b = a <;> simp [Spec.step, SingleList.set, hba, hb]

/-- C117: the chain has all tests of the program, and `Shutdown` leaves it empty and no test in a list, so nothing refers to tests that end. -/
theorem c117_shutdown (c : Nat) (links : List Nat) (hd : links.Nodup) (hc : c ∉ links) :
    ∃ h h1, SingleList.run {} (linkTests c links) = .ok h ∧ (∀ fuel, links.length < fuel → SingleList.elements h c fuel = .ok (some links.reverse)) ∧
      (∀ fuel, links.length < fuel → shutdown h c fuel = .ok (some h1)) ∧ SingleList.empty h1 c = .ok true ∧ ∀ a ∈ links, SingleList.included h1 a = .ok false := by
  have ⟨k1, k2, k3, k4, k5, k6⟩ := linkTests_run c links (SingleList.Spec.step {} (.newList c)) [] (by simp [SingleList.Spec.step, SingleList.set])
    (fun s hs => by simp [SingleList.Spec.step, SingleList.set, hs]) (fun a ha => ⟨rfl, fun e => hc (e ▸ ha), by simp⟩) hd (fun a => by simp [SingleList.Spec.step])
  have ha : SingleList.Spec.AllowedAll {} (linkTests c links) := ⟨⟨rfl, rfl⟩, k1⟩
  obtain ⟨h, hr, r⟩ := SingleList.rep_run _ {} {} SingleList.rep_init ha
  have hl : (SingleList.Spec.run {} (linkTests c links)).lists c = some links.reverse := by simpa [linkTests, SingleList.Spec.run] using k2
  have hel : ∀ a, (SingleList.Spec.run {} (linkTests c links)).elems a ≠ some true := k4
  have hol : ∀ s, s ≠ c → (SingleList.Spec.run {} (linkTests c links)).lists s = none := k3
  obtain ⟨h', hr', hcon⟩ := SingleList.c109_contents _ ha
  have : h' = h := by rw [hr] at hr'; cases hr'; rfl
  subst this
  obtain ⟨h1, A1, s1, s2, s3, s4, s5⟩ := shutdown_rep links.reverse h' _ c r hl hel hol (links.length + 1) (by simp)
  refine ⟨h', h1, hr, fun fuel hf => (hcon c _ hl fuel (by simpa using hf)).1, fun fuel hf => ?_, ?_, fun a ham => ?_⟩
  · obtain ⟨h2, A2, t1, _⟩ := shutdown_rep links.reverse h' _ c r hl hel hol fuel (by simpa using hf)
    have mono : ∀ (f g : Nat) (h x : SingleList.St), f ≤ g → shutdown h c f = .ok (some x) → shutdown h c g = .ok (some x) := by
      intro f
      induction f with
      | zero => intro g h x _ hx; simp [shutdown] at hx
      | succ f ih =>
        intro g h x hg hx
        obtain ⟨g, rfl⟩ : ∃ g', g = g' + 1 := ⟨g - 1, by omega⟩
        simp only [shutdown] at hx ⊢
        rw [Res.bind_eq_ok] at hx
        obtain ⟨e, he, hx⟩ := hx
        rw [he]
        simp only [Res.ok_bind]
        split at hx
        · rw [Res.bind_eq_ok] at hx
          obtain ⟨p, hp, hx⟩ := hx
          rw [if_pos ‹_›, hp]
          simp only [Res.ok_bind]
          exact ih g _ _ (by omega) hx
        · rw [if_neg ‹_›]; exact hx
    exact mono _ _ _ _ hf s1
  · have hs := s2.alL c (by simp [s3])
    have hp := s2.path c _ s3
    simp only [SingleList.Path] at hp
    simp [SingleList.empty, QuickList.Single.empty, QuickList.rd, hs, hp]
  · have he : A1.elems a ≠ none := by rw [s4]; exact k5 a ham
    have hf : A1.elems a = some false := by
      cases hx : A1.elems a with
      | none => exact absurd hx he
      | some b => cases b with
        | true => rw [s4] at hx; exact absurd hx (hel a)
        | false => rfl
    have hi : ¬ A1.InList a := by
      rintro ⟨s, k, hs, hk⟩
      by_cases hsc : s = c
      · subst hsc; rw [s3] at hs; cases hs; simp at hk
      · rw [s5 s hsc] at hs; cases hs
    simp [SingleList.included, QuickList.rd, s2.alE a he, s2.free a hf hi]

/-! ### Samples -/

def sampleT (s : Str) (o : Outcome) : OTest := ⟨fun _ => s, fun i => if i = 1 then o else .pass⟩

example : Spec.First (Spec.runs 2 [sampleT [1] .pass, sampleT [2, 3] .fail, sampleT [4] .pass]) [([1], .pass), ([1], .pass), ([2, 3], .pass)] [2, 3] .fail :=
  ⟨[([4], .pass), ([4], .pass)], rfl, by simp, by decide⟩
example : runTestsOut .failed 2 [sampleT [1] .pass, sampleT [2, 3] .fail] = (.ok false, [2, 3]) := rfl
example : runTestsOut .failed 2 [sampleT [1] .other] = (.throw .general, []) := rfl
example : [10, 11, 12].Nodup ∧ 1 ∉ [10, 11, 12] := by decide

end Verif.Testing
