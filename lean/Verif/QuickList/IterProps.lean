import Verif.QuickList.IterLemmas

/-! # Property C175: iterators of `quick_list` and loops that remove elements -/

namespace Verif.QuickList

/-- **C175** (steps). After any history of any lists, `begin()` (`rbegin()`) is at the first place of the sequence "elements in the direction of the iterator, then the end", `end()` is at the last place,
`++` leads from each place to the following and from the end to the first, `--` is its inverse, the places of one list are all different, and at the place of an element `*i` is this element. -/
theorem c175_steps {ops : List Op} {σ : Abs} {os : List Out} (hrun : SpecRun Abs.empty ops σ os) {s : Nat} {L : List Nat} (hs : σ.lists s = some L) (back : Bool) :
    ∃ h, run emptyHeap ops = .ok (h, os) ∧
      (∃ x, (dir back L ++ [s])[0]? = some x ∧ Iter.begin h s back = .ok ⟨some x, back⟩) ∧
      (∃ x, (dir back L ++ [s])[L.length]? = some x ∧ Iter.stop s back = ⟨some x, back⟩) ∧
      (∀ (n x y : Nat), (dir back L ++ [s])[n]? = some x → (dir back L ++ [s])[(n + 1) % (L.length + 1)]? = some y →
        Iter.inc h ⟨some x, back⟩ = .ok ⟨some y, back⟩ ∧ Iter.dec h ⟨some y, back⟩ = .ok ⟨some x, back⟩) ∧
      (∀ (m n x y : Nat), (dir back L ++ [s])[m]? = some x → (dir back L ++ [s])[n]? = some y → (Iter.eq ⟨some x, back⟩ ⟨some y, back⟩ = true ↔ m = n)) ∧
      (∀ (n x : Nat), (dir back L)[n]? = some x → Iter.deref ⟨some x, back⟩ = .ok x) := by
  obtain ⟨h, e1, e2⟩ := run_refines rep_empty hrun
  have hr := e2.ring s L hs
  have hlen : (dir back L).length = L.length := length_dir back L
  refine ⟨h, e1, ?_, ?_, ?_, ?_, fun _ _ _ => rfl⟩
  · refine ⟨(dir back L).head?.getD s, ?_, begin_ok back hr⟩
    cases dir back L <;> simp
  · exact ⟨s, by rw [← hlen]; simp, rfl⟩
  · intro n x y hx hy
    rw [← hlen] at hy
    obtain ⟨h1, h2, h3, h4⟩ := (hr.seen back).cyc hx hy
    rw [seen_alive] at h1 h2
    constructor
    · have : rd h.alive (if back then h.bwd else h.fwd) (some x) = .ok (some y) := by rw [seen_fwd, rd_some h1, h3]
      simp only [Iter.inc, this, Res.ok_bind]; rfl
    · have : rd h.alive (if back then h.fwd else h.bwd) (some y) = .ok (some x) := by rw [seen_bwd, rd_some h2, h4]
      simp only [Iter.dec, this, Res.ok_bind]; rfl
  · intro m n x y hx hy
    have hnd : (dir back L ++ [s]).Nodup := by
      have h1 := (hr.seen back).nodup
      rw [List.nodup_cons] at h1
      rw [List.nodup_append]
      exact ⟨h1.2, by simp, fun a ha b hb => by
        simp at hb; subst hb; rintro rfl; exact h1.1 ha⟩
    have hlt : m < (dir back L ++ [s]).length := (List.getElem?_eq_some_iff.1 hx).1
    have : Iter.eq ⟨some x, back⟩ ⟨some y, back⟩ = true ↔ x = y := by simp [Iter.eq]
    rw [this]
    constructor
    · rintro rfl
      exact (List.getElem?_inj hlt hnd).1 (hx.trans hy.symm)
    · rintro rfl
      rw [hx] at hy; exact Option.some.inj hy

/-- In list 1, 2, 3 the iterator at 2 goes to 3, in reverse to 1, and from 1 in reverse to the end. -/
example : ∃ h, run emptyHeap exampleOps = .ok (h, exampleOuts) ∧ Iter.inc h ⟨some 2, false⟩ = .ok ⟨some 3, false⟩ ∧ Iter.begin h 0 true = .ok ⟨some 3, true⟩ := by
  obtain ⟨σ, hrun, h0, -⟩ := exampleRun
  obtain ⟨h, e1, -, -, e4, -⟩ := c175_steps hrun h0 false
  obtain ⟨h', e1', ⟨x, hx, e2'⟩, -⟩ := c175_steps hrun h0 true
  rw [e1] at e1'; cases e1'
  cases hx
  exact ⟨h, e1, (e4 1 2 3 rfl rfl).1, e2'⟩

/-- **C175** (stay). An iterator is not invalidated by anything that leaves its element in some list: whatever the history, if the element is finally in some list `t` — the same or another one, by
splicing or by moving the list, or after it was excluded and inserted again — an iterator that was at this element before is still at it, and continues with the elements that follow it there. -/
theorem c175_stay {ops ops' : List Op} {σ σ' : Abs} {os os' : List Out} (hrun : SpecRun Abs.empty ops σ os) (hrun' : SpecRun σ ops' σ' os') {back : Bool} {t a : Nat} {M X Y : List Nat}
    (ht : σ'.lists t = some M) (hM : dir back M = X ++ a :: Y) {i : Iter} (hi : i.back = back) (ha : i.deref = .ok a) :
    ∃ h h', run emptyHeap ops = .ok (h, os) ∧ run h ops' = .ok (h', os') ∧ i.inc h' = .ok ⟨some (Y.head?.getD t), back⟩ ∧ i.dec h' = .ok ⟨some (X.getLast?.getD t), back⟩ := by
  obtain ⟨h, e1, e2⟩ := run_refines rep_empty hrun
  obtain ⟨h', e3, e4⟩ := run_refines e2 hrun'
  refine ⟨h, h', e1, e3, ?_⟩
  have hat : i = ⟨some a, back⟩ := by
    cases i with
    | mk p b =>
      cases p with
      | none => simp [Iter.deref] at ha
      | some p => simp [Iter.deref] at ha hi; rw [hi, ha]
  have hM' : dir (!back) M = Y.reverse ++ a :: X.reverse := by
    have : dir (!back) M = (dir back M).reverse := by cases back <;> simp [dir]
    rw [this, hM]; simp
  have h1 := inc_ok (e4.ring t M ht) hM
  have h2 := inc_ok (e4.ring t M ht) hM'
  rw [hat]
  refine ⟨h1, ?_⟩
  have h3 : rd h'.alive (if back then h'.fwd else h'.bwd) (some a) = .ok (some (X.getLast?.getD t)) := by
    simp only [Iter.inc] at h2
    obtain ⟨p, h4, h5⟩ := Res.bind_eq_ok.1 h2
    cases h5
    rw [List.head?_reverse] at h4
    rw [← h4]
    cases back <;> rfl
  simp only [Iter.dec, h3, Res.ok_bind]; rfl

/-- List 0 is spliced to the end of list 10: an iterator at 1 continues with 2 there, and 4 comes before it. -/
example : ∃ h h', run emptyHeap exampleOps = .ok (h, exampleOuts) ∧ run h [.spliceBack 10 0] = .ok (h', [.unit]) ∧ Iter.inc h' (Iter.ofElem 1 false) = .ok ⟨some 2, false⟩ ∧
    Iter.dec h' (Iter.ofElem 1 false) = .ok ⟨some 4, false⟩ := by
  obtain ⟨σ, hrun, h0, h10, -⟩ := exampleRun
  exact c175_stay (a := 1) (t := 10) (M := [4, 1, 2, 3]) (X := [4]) (Y := [2, 3]) (back := false) hrun
    (.cons (.spliceBack (by decide) h10 h0) .nil) (by simp [Abs.setList, upd]) rfl rfl rfl

/-- **C175** (walk). A loop that advances its iterator before it handles an element may do anything with any elements and lists, as long as the element that comes next is still in the list
afterwards: it runs without undefined behaviour, ends, visits what the walk over the mathematical list visits, and leaves all lists as they should be. -/
theorem c175_walk {ops : List Op} {σ σ' : Abs} {os : List Out} (hrun : SpecRun Abs.empty ops σ os) {s : Nat} {L : List Nat} (hs : σ.lists s = some L) {back : Bool}
    {body : List Nat → Nat → List Op} {out : List Nat} (hw : SpecWalk body s back σ (dir back L).head? [] σ' out) :
    ∃ h i n h', run emptyHeap ops = .ok (h, os) ∧ Iter.begin h s back = .ok i ∧ (∀ fuel, n ≤ fuel → walk body s fuel h i [] = .ok (some (h', out))) ∧
      ∀ t M, σ'.lists t = some M → Shows h' t M := by
  obtain ⟨h, e1, e2⟩ := run_refines rep_empty hrun
  obtain ⟨n, h', e3, e4⟩ := walk_ok hw e2
  exact ⟨h, _, n, h', e1, begin_ok back (e2.ring s L hs), e3, fun t M ht => (e4.ring t M ht).shows⟩

/-- While list 0 is walked, element 5 is added at the end when 1 is visited, and is visited, too. -/
example : ∃ h i n h', run emptyHeap exampleOps = .ok (h, exampleOuts) ∧ Iter.begin h 0 false = .ok i ∧
    (∀ fuel, n ≤ fuel → walk (fun _ x => if x = 1 then [.pushBack 0 5] else []) 0 fuel h i [] = .ok (some (h', [1, 2, 3, 5]))) ∧ Shows h' 0 [1, 2, 3, 5] := by
  obtain ⟨σ, hrun, h0, h10, h5, -⟩ := exampleRun
  have hl : ((σ.setList 0 [1, 2, 3, 5]).setSt 5 .linked).lists 0 = some [1, 2, 3, 5] := by simp [Abs.setList, Abs.setSt]
  obtain ⟨h, i, n, h', e1, e2, e3, e4⟩ := c175_walk (back := false) (out := [1, 2, 3, 5]) (body := fun _ x => if x = 1 then [.pushBack 0 5] else []) hrun h0
    (.step (X := []) (Y := [2, 3]) h0 rfl (.cons (.pushBack h0 (.inl h5)) .nil) (fun y hy => ⟨_, hl, by cases hy; simp⟩)
      (.step (X := [1]) (Y := [3, 5]) hl rfl .nil (fun y hy => ⟨_, hl, by cases hy; simp⟩)
        (.step (X := [1, 2]) (Y := [5]) hl rfl .nil (fun y hy => ⟨_, hl, by cases hy; simp⟩)
          (.step (X := [1, 2, 3]) (Y := []) hl rfl .nil (by simp) .stop))))
  exact ⟨h, i, n, h', e1, e2, e3, e4 0 _ hl⟩

/-- **C175** (removal). The loop `while (i != end()) { T * p = *(i++); … }` that keeps, excludes, destroys (the destructor excludes it) or moves to the end of another list each element it meets, as `act` says, visits every
element exactly once in the direction of the iterator, whatever `act` is.  Afterwards the list consists of the kept elements in their order, each other list got the elements for it in the order of
the walk, and the excluded elements are in no list. -/
theorem c175_remove_while_walking {ops : List Op} {σ : Abs} {os : List Out} (hrun : SpecRun Abs.empty ops σ os) {s : Nat} {L : List Nat} (hs : σ.lists s = some L) (back : Bool) (act : Nat → What)
    (hact : ∀ x ∈ L, ∀ t, act x = .moveTo t → t ≠ s ∧ ∃ M, σ.lists t = some M) :
    ∃ h i n h', run emptyHeap ops = .ok (h, os) ∧ Iter.begin h s back = .ok i ∧ (∀ fuel, n ≤ fuel → walk (bodyOf act) s fuel h i [] = .ok (some (h', dir back L))) ∧
      Shows h' s (L.filter (fun x => act x = .keep)) ∧
      (∀ t M, t ≠ s → σ.lists t = some M → Shows h' t (M ++ (dir back L).filter (fun x => act x = .moveTo t))) ∧
      (∀ x ∈ L, act x = .erase → included h' x = .ok false) := by
  obtain ⟨h, e1, e2⟩ := run_refines rep_empty hrun
  have hr := e2.ring s L hs
  have hnd : (dir back L).Nodup := nodup_dir.2 (List.nodup_cons.1 hr.nodup).2
  obtain ⟨σ', w1, ⟨L', w2, w2'⟩, w3, w4, w5, w6⟩ := sorting_walk (act := act) (back := back) (dir back L) (σ := σ) (K := []) (L := L) [] hs rfl (by simpa using hnd)
    (fun x hx => hact x (mem_dir.1 hx))
  obtain ⟨n, h', e3, e4⟩ := walk_ok w1 e2
  have hL' : L' = L.filter (fun x => act x = .keep) := by
    rw [← dir_dir back L', w2', List.nil_append, filter_dir, dir_dir]
  refine ⟨h, _, n, h', e1, begin_ok back hr, by simpa using e3, ?_, ?_, ?_⟩
  · rw [← hL']; exact (e4.ring s L' w2).shows
  · intro t M hts ht
    exact (e4.ring t _ (by rw [w3 t hts, ht]; rfl)).shows
  · intro x hx hxe
    exact e4.included_free (w5 x (mem_dir.2 hx) hxe)

/-- Of list 1, 2, 3, walked backwards, 1 is destroyed, 2 is kept and 3 moved to list 10. -/
example : ∃ h i n h', run emptyHeap exampleOps = .ok (h, exampleOuts) ∧ Iter.begin h 0 true = .ok i ∧
    (∀ fuel, n ≤ fuel → walk (bodyOf (fun x => if x = 1 then .destroy else if x = 2 then .keep else .moveTo 10)) 0 fuel h i [] = .ok (some (h', [3, 2, 1]))) ∧
    Shows h' 0 [2] ∧ Shows h' 10 [4, 3] := by
  obtain ⟨σ, hrun, h0, h10, -⟩ := exampleRun
  obtain ⟨h, i, n, h', e1, e2, e3, e4, e5, -⟩ := c175_remove_while_walking hrun h0 true (fun x => if x = 1 then .destroy else if x = 2 then .keep else .moveTo 10)
    (by
      intro x hx t ht
      simp at hx
      rcases hx with rfl | rfl | rfl <;> simp at ht
      subst ht
      exact ⟨by decide, _, h10⟩)
  exact ⟨h, i, n, h', e1, e2, e3, e4, e5 10 _ (by decide) h10⟩

/-- **C175** (the other loop). The usual loop `for (i = …; i != end(); ++i)`, which advances after the body, is undefined whenever it excludes some element. -/
theorem c175_late_increment_undefined {ops : List Op} {σ : Abs} {os : List Out} (hrun : SpecRun Abs.empty ops σ os) {s : Nat} {L : List Nat} (hs : σ.lists s = some L) (back : Bool) (p : Nat → Bool)
    (hp : ∃ x ∈ L, p x = true) :
    ∃ h i n, run emptyHeap ops = .ok (h, os) ∧ Iter.begin h s back = .ok i ∧ ∀ fuel, n ≤ fuel → walkLate (fun _ x => if p x then [.erase x] else []) s fuel h i [] = .ub := by
  obtain ⟨h, e1, e2⟩ := run_refines rep_empty hrun
  have hr := e2.ring s L hs
  have hmain : ∀ (Y X vis : List Nat), dir back L = X ++ Y → (∃ x ∈ Y, p x = true) →
      ∃ n, ∀ fuel, n ≤ fuel → walkLate (fun _ x => if p x then [.erase x] else []) s fuel h ⟨some (Y.head?.getD s), back⟩ vis = .ub := by
    intro Y
    induction Y with
    | nil => intro X vis _ ⟨x, hx, _⟩; cases hx
    | cons x Y ih =>
      intro X vis hL hex
      have hne : x ≠ s := by
        have h1 := hr.nodup
        rw [List.nodup_cons] at h1
        rintro rfl
        exact h1.1 (mem_dir.1 (by rw [hL]; simp : x ∈ dir back L))
      have hneq : Iter.eq ⟨some x, back⟩ (Iter.stop s back) = false := by simp [Iter.eq, Iter.stop, hne]
      by_cases hpx : p x = true
      · obtain ⟨A, B, hAB, -⟩ := dir_split hL
        obtain ⟨h1, e3, e4⟩ := run_refines e2 (.cons (.erase (σ := σ) (s := s) (X := A) (Y := B) (a := x) (by rw [hs, hAB])) .nil)
        obtain ⟨f1, f2, f3⟩ := e4.free x (by simp [Abs.setList, Abs.setSt])
        refine ⟨2, ?_⟩
        intro fuel hf
        obtain ⟨f, rfl⟩ : ∃ f, fuel = f + 1 + 1 := ⟨fuel - 2, by omega⟩
        have hinc : Iter.inc h1 ⟨some x, back⟩ = .ok ⟨none, back⟩ := by
          have : rd h1.alive (if back then h1.bwd else h1.fwd) (some x) = .ok none := by
            cases back <;> simp [rd_some f1, f2, f3]
          simp only [Iter.inc, this, Res.ok_bind]; rfl
        have hneq2 : Iter.eq ⟨none, back⟩ (Iter.stop s back) = false := by simp [Iter.eq, Iter.stop]
        simp only [List.head?_cons, Option.getD_some]
        rw [walkLate]
        simp only [hneq, Bool.false_eq_true, if_false, Iter.deref, Res.ok_bind, hpx, if_true, e3, hinc]
        rw [walkLate]
        simp only [hneq2, Bool.false_eq_true, if_false, Iter.deref]
        rfl
      · obtain ⟨n, hn⟩ := ih (X ++ [x]) (vis ++ [x]) (by simpa using hL) (by
          obtain ⟨z, hz, hpz⟩ := hex
          rcases List.mem_cons.1 hz with rfl | hz
          · exact absurd hpz hpx
          · exact ⟨z, hz, hpz⟩)
        refine ⟨n + 1, ?_⟩
        intro fuel hf
        obtain ⟨f, rfl⟩ : ∃ f, fuel = f + 1 := ⟨fuel - 1, by omega⟩
        have hinc := inc_ok hr hL
        have hpx' : p x = false := by simpa using hpx
        simp only [List.head?_cons, Option.getD_some]
        rw [walkLate]
        simp only [hneq, Bool.false_eq_true, if_false, Iter.deref, Res.ok_bind, hpx', run, hinc]
        exact hn f (by omega)
  obtain ⟨n, hn⟩ := hmain (dir back L) [] [] rfl (by obtain ⟨x, hx, hpx⟩ := hp; exact ⟨x, mem_dir.2 hx, hpx⟩)
  exact ⟨h, _, n, e1, begin_ok back hr, hn⟩

example : ∃ h i n, run emptyHeap exampleOps = .ok (h, exampleOuts) ∧ Iter.begin h 0 false = .ok i ∧ ∀ fuel, n ≤ fuel → walkLate (fun _ x => if x == 2 then [.erase x] else []) 0 fuel h i [] = .ub := by
  obtain ⟨σ, hrun, h0, -⟩ := exampleRun
  exact c175_late_increment_undefined hrun h0 false (· == 2) ⟨2, by simp, rfl⟩

/-- **C175** (its limit). The condition on the next element is needed: if the body excludes the element that comes next, the loop still visits this element, which is in no list any more, and is undefined
after that. -/
theorem c175_next_removed_undefined : ∃ h i, run emptyHeap exampleOps = .ok (h, exampleOuts) ∧ Iter.begin h 0 false = .ok i ∧
    ∀ fuel, 3 ≤ fuel → walk (fun _ x => if x = 1 then [.erase 2] else []) 0 fuel h i [] = .ub := by
  obtain ⟨σ, hrun, h0, -⟩ := exampleRun
  obtain ⟨h, e1, e2⟩ := run_refines rep_empty hrun
  have hr := e2.ring 0 _ h0
  obtain ⟨h1, e3, e4⟩ := run_refines e2 (.cons (.erase (σ := σ) (s := 0) (X := [1]) (Y := [3]) (a := 2) h0) .nil)
  obtain ⟨f1, f2, f3⟩ := e4.free 2 (by simp [Abs.setList, Abs.setSt])
  refine ⟨h, _, e1, begin_ok false hr, ?_⟩
  intro fuel hf
  obtain ⟨f, rfl⟩ : ∃ f, fuel = f + 1 + 1 + 1 := ⟨fuel - 3, by omega⟩
  have i1 : Iter.inc h ⟨some 1, false⟩ = .ok ⟨some 2, false⟩ := inc_ok hr (X := []) (Y := [2, 3]) rfl
  have i2 : Iter.inc h1 ⟨some 2, false⟩ = .ok ⟨none, false⟩ := by
    have : rd h1.alive h1.fwd (some 2) = .ok none := by rw [rd_some f1, f2]
    simp only [Iter.inc, Bool.false_eq_true, if_false, this, Res.ok_bind]; rfl
  have n1 : Iter.eq ⟨some 1, false⟩ (Iter.stop 0 false) = false := by decide
  have n2 : Iter.eq ⟨some 2, false⟩ (Iter.stop 0 false) = false := by decide
  have n3 : Iter.eq ⟨none, false⟩ (Iter.stop 0 false) = false := by decide
  change walk _ 0 _ h ⟨some 1, false⟩ [] = .ub
  rw [walk]
  simp only [n1, Bool.false_eq_true, if_false, Iter.postInc, i1, Res.ok_bind, pure, Iter.deref, if_true, e3]
  rw [walk]
  simp only [n2, Bool.false_eq_true, if_false, Iter.postInc, i2, Res.ok_bind, pure, Iter.deref, Nat.reduceEqDiff, run]
  rw [walk]
  simp only [n3, Bool.false_eq_true, if_false, Iter.postInc, Iter.inc, rd]
  rfl

end Verif.QuickList
