import Verif.QuickList.IterModel
import Verif.QuickList.Props

/-! # Lemmas about the iterators of `quick_list` -/

namespace Verif.QuickList

/-- The elements in the order in which an iterator meets them. -/
def dir (back : Bool) (L : List Nat) : List Nat := if back then L.reverse else L

theorem nodup_rev {L : List Nat} : L.reverse.Nodup ↔ L.Nodup := by
  unfold List.Nodup
  rw [List.pairwise_reverse]
  constructor <;> intro h <;> exact h.imp (fun h => Ne.symm h)

/-- The heap seen by reverse iterators. -/
def Heap.flip (h : Heap) : Heap := ⟨h.alive, h.bwd, h.fwd⟩

theorem Chain.flip {h : Heap} : ∀ {C : List Nat}, Chain h C → Chain h.flip C.reverse := by
  intro C
  induction C with
  | nil => intro _; trivial
  | cons a C ih =>
    intro hc
    cases C with
    | nil => trivial
    | cons b r =>
      obtain ⟨h1, h2, h3⟩ := hc
      have h4 := ih h3
      rw [List.reverse_cons] at h4 ⊢
      rw [List.reverse_cons, List.append_assoc, List.singleton_append, chain_split]
      exact ⟨h4, h2, h1, trivial⟩

theorem RingOf.flip {h : Heap} {s : Nat} {L : List Nat} (hr : RingOf h s L) : RingOf h.flip s L.reverse := by
  refine ⟨?_, ?_, ?_⟩
  · have := hr.chain.flip
    simpa using this
  · have := hr.nodup
    rw [List.nodup_cons] at this ⊢
    exact ⟨by simpa using this.1, nodup_rev.2 this.2⟩
  · intro x hx
    exact hr.alive x (by simpa using hx)

/-- The heap seen by an iterator. -/
def Heap.seen (h : Heap) (back : Bool) : Heap := if back then h.flip else h

theorem RingOf.seen {h : Heap} {s : Nat} {L : List Nat} (hr : RingOf h s L) (back : Bool) : RingOf (h.seen back) s (dir back L) := by
  cases back
  · exact hr
  · exact hr.flip

@[simp] theorem seen_alive (h : Heap) (back : Bool) : (h.seen back).alive = h.alive := by cases back <;> rfl

theorem seen_fwd (h : Heap) (back : Bool) : (if back then h.bwd else h.fwd) = (h.seen back).fwd := by cases back <;> rfl

theorem seen_bwd (h : Heap) (back : Bool) : (if back then h.fwd else h.bwd) = (h.seen back).bwd := by cases back <;> rfl

/-- The neighbours on the closed sequence, counted from the first element; the end comes last. -/
theorem RingOf.cyc {h : Heap} {s : Nat} {L : List Nat} (hr : RingOf h s L) {n : Nat} {x y : Nat} (hx : (L ++ [s])[n]? = some x) (hy : (L ++ [s])[(n + 1) % (L.length + 1)]? = some y) :
    h.alive x = true ∧ h.alive y = true ∧ h.fwd x = some y ∧ h.bwd y = some x := by
  have hlinks := chain_links hr.chain
  have hal : ∀ {m z : Nat}, (L ++ [s])[m]? = some z → h.alive z = true := by
    intro m z hz
    have := List.mem_of_getElem? hz
    exact hr.alive z (by simpa [or_comm] using this)
  refine ⟨hal hx, hal hy, ?_⟩
  have hn : n < L.length + 1 := by
    have := (List.getElem?_eq_some_iff.1 hx).1
    simpa using this
  by_cases hlast : n = L.length
  · subst hlast
    have hxs : x = s := by simpa using hx.symm
    subst hxs
    rw [Nat.mod_self] at hy
    cases hL : L ++ [x] with
    | nil => simp at hL
    | cons z Z =>
      rw [hL] at hy
      have hzy : z = y := by simpa using hy
      subst hzy
      exact hlinks [] x z Z (by simp [hL])
  · rw [Nat.mod_eq_of_lt (by omega)] at hy
    obtain ⟨h1, h2⟩ := List.getElem?_eq_some_iff.1 hx
    obtain ⟨h3, h4⟩ := List.getElem?_eq_some_iff.1 hy
    refine hlinks (s :: (L ++ [s]).take n) x y ((L ++ [s]).drop (n + 2)) ?_
    have e1 : (L ++ [s]).drop n = x :: (L ++ [s]).drop (n + 1) := by rw [List.drop_eq_getElem_cons h1, h2]
    have e2 : (L ++ [s]).drop (n + 1) = y :: (L ++ [s]).drop (n + 2) := by rw [List.drop_eq_getElem_cons h3, h4]
    rw [List.cons_append, ← e2, ← e1, List.take_append_drop]

theorem dir_dir (back : Bool) (L : List Nat) : dir back (dir back L) = L := by cases back <;> simp [dir]

theorem mem_dir {back : Bool} {L : List Nat} {x : Nat} : x ∈ dir back L ↔ x ∈ L := by cases back <;> simp [dir]

theorem length_dir (back : Bool) (L : List Nat) : (dir back L).length = L.length := by cases back <;> simp [dir]

theorem nodup_dir {back : Bool} {L : List Nat} : (dir back L).Nodup ↔ L.Nodup := by
  cases back
  · rfl
  · exact nodup_rev

theorem filter_dir (back : Bool) (L : List Nat) (p : Nat → Bool) : (dir back L).filter p = dir back (L.filter p) := by
  cases back <;> simp [dir]

theorem dir_split {back : Bool} {L K Y : List Nat} {x : Nat} (h : dir back L = K ++ x :: Y) : ∃ A B, L = A ++ x :: B ∧ dir back (A ++ B) = K ++ Y := by
  cases back
  · exact ⟨K, Y, h, rfl⟩
  · refine ⟨Y.reverse, K.reverse, ?_, ?_⟩
    · have : L = (K ++ x :: Y).reverse := by rw [← h]; simp [dir]
      rw [this]; simp
    · simp [dir]

/-- From an element on: the next one, or the end. -/
theorem RingOf.after {h : Heap} {s : Nat} {L X Y : List Nat} {x : Nat} (hr : RingOf h s L) (hL : L = X ++ x :: Y) :
    h.alive x = true ∧ h.fwd x = some (Y.head?.getD s) := by
  subst hL
  refine ⟨hr.alive x (by simp), ?_⟩
  obtain ⟨P, p, n, Z, _, h2, _, _, h3, _⟩ := hr.around
  rw [h3]
  cases Y with
  | nil => simp at h2; simp [h2.1]
  | cons y Y => simp at h2; simp [h2.1]

theorem RingOf.first {h : Heap} {s : Nat} {L : List Nat} (hr : RingOf h s L) : h.alive s = true ∧ h.fwd s = some (L.head?.getD s) := by
  refine ⟨hr.alive s (by simp), ?_⟩
  cases L with
  | nil => exact hr.chain.1
  | cons a L => exact hr.chain.1

theorem inc_ok {h : Heap} {back : Bool} {s : Nat} {L X Y : List Nat} {x : Nat} (hr : RingOf h s L) (hL : dir back L = X ++ x :: Y) :
    Iter.inc h ⟨some x, back⟩ = .ok ⟨some (Y.head?.getD s), back⟩ := by
  obtain ⟨h1, h2⟩ := (hr.seen back).after hL
  rw [seen_alive] at h1
  have : rd h.alive (if back then h.bwd else h.fwd) (some x) = .ok (some (Y.head?.getD s)) := by
    rw [seen_fwd, rd_some h1, h2]
  simp only [Iter.inc, this, Res.ok_bind]
  rfl

theorem begin_ok {h : Heap} (back : Bool) {s : Nat} {L : List Nat} (hr : RingOf h s L) : Iter.begin h s back = .ok ⟨some ((dir back L).head?.getD s), back⟩ := by
  obtain ⟨h1, h2⟩ := (hr.seen back).first
  rw [seen_alive] at h1
  have : rd h.alive (if back then h.bwd else h.fwd) (some s) = .ok (some ((dir back L).head?.getD s)) := by
    rw [seen_fwd, rd_some h1, h2]
  simp only [Iter.begin, this, Res.ok_bind]
  rfl

/-- A walk over the list `s` with a loop that advances before it handles an element, without links: the cursor is the next element, or `none` at the end.  Whatever the body does,
the element that comes next must still be in the list afterwards. -/
inductive SpecWalk (body : List Nat → Nat → List Op) (s : Nat) (back : Bool) : Abs → Option Nat → List Nat → Abs → List Nat → Prop where
  | stop {σ vis} : SpecWalk body s back σ none vis σ vis
  | step {σ x vis L X Y σ' os σ'' out} : σ.lists s = some L → dir back L = X ++ x :: Y → SpecRun σ (body vis x) σ' os →
      (∀ y, Y.head? = some y → ∃ L', σ'.lists s = some L' ∧ y ∈ L') → SpecWalk body s back σ' Y.head? (vis ++ [x]) σ'' out →
      SpecWalk body s back σ (some x) vis σ'' out

theorem walk_ok {body : List Nat → Nat → List Op} {s : Nat} {back : Bool} {σ σ' : Abs} {c : Option Nat} {vis out : List Nat} (hw : SpecWalk body s back σ c vis σ' out) :
    ∀ {h : Heap}, Rep h σ → ∃ n h', (∀ fuel, n ≤ fuel → walk body s fuel h ⟨some (c.getD s), back⟩ vis = .ok (some (h', out))) ∧ Rep h' σ' := by
  induction hw with
  | @stop σ vis =>
    intro h hr
    refine ⟨1, h, ?_, hr⟩
    intro fuel hf
    obtain ⟨f, rfl⟩ : ∃ f, fuel = f + 1 := ⟨fuel - 1, by omega⟩
    simp [walk, Iter.eq, Iter.stop]
  | @step σ x vis L X Y σ1 os σ2 out hs hL hrun _ _ ih =>
    intro h hr
    have hring := hr.ring s L hs
    have hne : x ≠ s := by
      have h1 := hring.nodup
      rw [List.nodup_cons] at h1
      rintro rfl
      exact h1.1 (mem_dir.1 (by rw [hL]; simp : x ∈ dir back L))
    obtain ⟨h1, e1, e2⟩ := run_refines hr hrun
    obtain ⟨n, h', e3, e4⟩ := ih e2
    refine ⟨n + 1, h', ?_, e4⟩
    intro fuel hf
    obtain ⟨f, rfl⟩ : ∃ f, fuel = f + 1 := ⟨fuel - 1, by omega⟩
    have hi := inc_ok hring hL
    simp only [Option.getD_some]
    have hneq : Iter.eq ⟨some x, back⟩ (Iter.stop s back) = false := by simp [Iter.eq, Iter.stop, hne]
    simp only [walk, hneq, Bool.false_eq_true, if_false, Iter.postInc, hi, Res.ok_bind, pure, Iter.deref, e1]
    exact e3 f (by omega)

/-- What a loop does with an element. -/
inductive What where
  | keep
  | erase
  /-- the element's destructor excludes it, as that of an observer (Awl/Observable.h:47-50) does; for elements that are deleted while they are linked see C176 -/
  | destroy
  | moveTo (t : Nat)
deriving DecidableEq, Repr

/-- The operations that do it. -/
def bodyOf (act : Nat → What) (_ : List Nat) (x : Nat) : List Op :=
  match act x with
  | .keep => []
  | .erase => [.erase x]
  | .destroy => [.destroyElem x]
  | .moveTo t => [.erase x, .pushBack t x]

theorem sorting_walk {act : Nat → What} {s : Nat} {back : Bool} : ∀ (Y : List Nat) {σ : Abs} {K L : List Nat} (vis : List Nat), σ.lists s = some L → dir back L = K ++ Y → (K ++ Y).Nodup →
    (∀ x ∈ Y, ∀ t, act x = .moveTo t → t ≠ s ∧ ∃ M, σ.lists t = some M) →
    ∃ σ', SpecWalk (bodyOf act) s back σ Y.head? vis σ' (vis ++ Y) ∧ (∃ L', σ'.lists s = some L' ∧ dir back L' = K ++ Y.filter (fun x => act x = .keep)) ∧
      (∀ t, t ≠ s → σ'.lists t = (σ.lists t).map (fun M => M ++ Y.filter (fun x => act x = .moveTo t))) ∧
      (∀ z, z ∉ Y → σ'.st z = σ.st z) ∧ (∀ z ∈ Y, act z = .erase → σ'.st z = .free) ∧ (∀ z ∈ Y, act z = .destroy → σ'.st z = .none) := by
  intro Y
  induction Y with
  | nil =>
    intro σ K L vis hs hL _ _
    refine ⟨σ, by simpa using SpecWalk.stop, ⟨L, hs, by simpa using hL⟩, ?_, fun _ _ => rfl, by simp, by simp⟩
    intro t _
    cases σ.lists t <;> simp
  | cons x Y ih =>
    intro σ K L vis hs hL hnd hact
    have hnd' : (K ++ Y).Nodup := by
      rw [List.nodup_append] at hnd ⊢
      obtain ⟨a1, a2, a3⟩ := hnd
      exact ⟨a1, (List.nodup_cons.1 a2).2, fun a ha b hb => a3 a ha b (by simp [hb])⟩
    have hxY : x ∉ Y := by
      rw [List.nodup_append] at hnd
      exact (List.nodup_cons.1 hnd.2.1).1
    have hmem : ∀ {L' : List Nat}, dir back L' = K ++ Y → ∀ y, Y.head? = some y → y ∈ L' := by
      intro L' h y hy
      rw [← mem_dir (back := back), h]
      have := List.mem_of_mem_head? hy
      simp [this]
    obtain ⟨A, B, hAB, hAB'⟩ := dir_split hL
    cases ha : act x with
    | keep =>
      obtain ⟨σ', w1, ⟨L', w2, w2'⟩, w3, w4, w5, w6⟩ := ih (K := K ++ [x]) (vis ++ [x]) hs (by simpa using hL) (by simpa using hnd) (fun y hy => hact y (by simp [hy]))
      refine ⟨σ', ?_, ⟨L', w2, by rw [w2']; simp [ha]⟩, ?_, ?_, ?_, ?_⟩
      · have hb : bodyOf act vis x = [] := by simp [bodyOf, ha]
        refine SpecWalk.step (os := []) hs hL (by rw [hb]; exact .nil) (fun y hy => ⟨L, hs, ?_⟩) (by simpa using w1)
        rw [← mem_dir (back := back), hL]
        have := List.mem_of_mem_head? hy
        simp [this]
      · intro t ht
        rw [w3 t ht]
        simp [ha]
      · intro z hz
        exact w4 z (fun h => hz (by simp [h]))
      · intro z hz hze
        rcases List.mem_cons.1 hz with rfl | hz
        · rw [ha] at hze; cases hze
        · exact w5 z hz hze
      · intro z hz hze
        rcases List.mem_cons.1 hz with rfl | hz
        · rw [ha] at hze; cases hze
        · exact w6 z hz hze
    | erase =>
      have hs1 : ((σ.setList s (A ++ B)).setSt x .free).lists s = some (A ++ B) := by simp [Abs.setList, Abs.setSt]
      have hother : ∀ t, t ≠ s → ((σ.setList s (A ++ B)).setSt x .free).lists t = σ.lists t := by
        intro t ht; simp [Abs.setList, Abs.setSt, upd_other _ _ ht]
      have hst : ∀ z, z ≠ x → ((σ.setList s (A ++ B)).setSt x .free).st z = σ.st z := by
        intro z hz; simp [Abs.setList, Abs.setSt, upd_other _ _ hz]
      obtain ⟨σ', w1, ⟨L', w2, w2'⟩, w3, w4, w5, w6⟩ := ih (K := K) (vis ++ [x]) hs1 hAB' hnd' (fun y hy t ht => by
        obtain ⟨q1, q2⟩ := hact y (by simp [hy]) t ht
        exact ⟨q1, by rw [hother t q1]; exact q2⟩)
      refine ⟨σ', ?_, ⟨L', w2, by rw [w2']; simp [ha]⟩, ?_, ?_, ?_, ?_⟩
      · have hb : bodyOf act vis x = [.erase x] := by simp [bodyOf, ha]
        refine SpecWalk.step (os := [.unit]) hs hL (by rw [hb]; exact .cons (.erase (by rw [hs, hAB])) .nil) (fun y hy => ⟨_, hs1, hmem hAB' y hy⟩) (by simpa using w1)
      · intro t ht
        rw [w3 t ht, hother t ht]
        simp [ha]
      · intro z hz
        rw [w4 z (fun h => hz (by simp [h])), hst z (fun h => hz (by simp [h]))]
      · intro z hz hze
        rcases List.mem_cons.1 hz with rfl | hz
        · rw [w4 z hxY]; simp [Abs.setList, Abs.setSt]
        · exact w5 z hz hze
      · intro z hz hze
        rcases List.mem_cons.1 hz with rfl | hz
        · rw [ha] at hze; cases hze
        · exact w6 z hz hze
    | destroy =>
      have hs1 : ((σ.setList s (A ++ B)).setSt x .none).lists s = some (A ++ B) := by simp [Abs.setList, Abs.setSt]
      have hother : ∀ t, t ≠ s → ((σ.setList s (A ++ B)).setSt x .none).lists t = σ.lists t := by
        intro t ht; simp [Abs.setList, Abs.setSt, upd_other _ _ ht]
      have hst : ∀ z, z ≠ x → ((σ.setList s (A ++ B)).setSt x .none).st z = σ.st z := by
        intro z hz; simp [Abs.setList, Abs.setSt, upd_other _ _ hz]
      obtain ⟨σ', w1, ⟨L', w2, w2'⟩, w3, w4, w5, w6⟩ := ih (K := K) (vis ++ [x]) hs1 hAB' hnd' (fun y hy t ht => by
        obtain ⟨q1, q2⟩ := hact y (by simp [hy]) t ht
        exact ⟨q1, by rw [hother t q1]; exact q2⟩)
      refine ⟨σ', ?_, ⟨L', w2, by rw [w2']; simp [ha]⟩, ?_, ?_, ?_, ?_⟩
      · have hb : bodyOf act vis x = [.destroyElem x] := by simp [bodyOf, ha]
        refine SpecWalk.step (os := [.unit]) hs hL (by rw [hb]; exact .cons (.destroyLinked (by rw [hs, hAB])) .nil) (fun y hy => ⟨_, hs1, hmem hAB' y hy⟩) (by simpa using w1)
      · intro t ht
        rw [w3 t ht, hother t ht]
        simp [ha]
      · intro z hz
        rw [w4 z (fun h => hz (by simp [h])), hst z (fun h => hz (by simp [h]))]
      · intro z hz hze
        rcases List.mem_cons.1 hz with rfl | hz
        · rw [ha] at hze; cases hze
        · exact w5 z hz hze
      · intro z hz hze
        rcases List.mem_cons.1 hz with rfl | hz
        · rw [w4 z hxY]; simp [Abs.setList, Abs.setSt]
        · exact w6 z hz hze
    | moveTo u =>
      obtain ⟨hus, M, hM⟩ := hact x (by simp) u ha
      have hu1 : ((σ.setList s (A ++ B)).setSt x .free).lists u = some M := by simp [Abs.setList, Abs.setSt, upd_other _ _ hus, hM]
      let σ1 := (((σ.setList s (A ++ B)).setSt x .free).setList u (M ++ [x])).setSt x .linked
      have hs1 : σ1.lists s = some (A ++ B) := by simp [σ1, Abs.setList, Abs.setSt, upd_other _ _ (Ne.symm hus)]
      have hu2 : σ1.lists u = some (M ++ [x]) := by simp [σ1, Abs.setList, Abs.setSt]
      have hother : ∀ t, t ≠ s → t ≠ u → σ1.lists t = σ.lists t := by
        intro t ht htu; simp [σ1, Abs.setList, Abs.setSt, upd_other _ _ ht, upd_other _ _ htu]
      have hst : ∀ z, z ≠ x → σ1.st z = σ.st z := by
        intro z hz; simp [σ1, Abs.setList, Abs.setSt, upd_other _ _ hz]
      obtain ⟨σ', w1, ⟨L', w2, w2'⟩, w3, w4, w5, w6⟩ := ih (σ := σ1) (K := K) (vis ++ [x]) hs1 hAB' hnd' (fun y hy t ht => by
        obtain ⟨q1, q2⟩ := hact y (by simp [hy]) t ht
        refine ⟨q1, ?_⟩
        by_cases htu : t = u
        · exact ⟨_, by rw [htu]; exact hu2⟩
        · rw [hother t q1 htu]; exact q2)
      refine ⟨σ', ?_, ⟨L', w2, by rw [w2']; simp [ha]⟩, ?_, ?_, ?_, ?_⟩
      · have hb : bodyOf act vis x = [.erase x, .pushBack u x] := by simp [bodyOf, ha]
        refine SpecWalk.step (os := [.unit, .unit]) (σ' := σ1) hs hL (by
          rw [hb]
          exact .cons (.erase (by rw [hs, hAB])) (.cons (.pushBack hu1 (Or.inl (by simp [Abs.setList, Abs.setSt]))) .nil)) (fun y hy => ⟨_, hs1, hmem hAB' y hy⟩) (by simpa using w1)
      · intro t ht
        rw [w3 t ht]
        by_cases htu : t = u
        · subst htu
          rw [hu2, hM]
          simp [ha]
        · rw [hother t ht htu]
          have : ¬ u = t := fun h => htu h.symm
          simp [ha, this]
      · intro z hz
        rw [w4 z (fun h => hz (by simp [h])), hst z (fun h => hz (by simp [h]))]
      · intro z hz hze
        rcases List.mem_cons.1 hz with rfl | hz
        · rw [ha] at hze; cases hze
        · exact w5 z hz hze
      · intro z hz hze
        rcases List.mem_cons.1 hz with rfl | hz
        · rw [ha] at hze; cases hze
        · exact w6 z hz hze

end Verif.QuickList
