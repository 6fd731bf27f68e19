import Verif.VectorSet.AllocLemmas

/-!
# C131: a vector set gives back the memory it takes, through the allocator it was given

Specification: the memory is a table of the blocks that are taken, each with the allocator it was taken from (`W.heap`).  `Leaked w p`: the block `p` is taken and is the node of no set.
`given`: which allocator each set was given, as a function of the calls alone.
-/

namespace Verif.VectorSet.Mem

/-- No `emplace` of a key that is in the set already, unless the allocator of the set is the standard one. -/
def Fair (d : Nat) (bad : Nat → Bool) (ops : List Op) : Prop :=
  ∀ pre i k post, ops = pre ++ .emplace i k :: post → ∀ w ts, run d bad W.init pre = .ok (w, ts) →
    ∀ s, w.sets i = some s → s.node = 0 ∨ k ∉ s.nodes.map (·.1)

/-- The allocator each set was given: by the constructor, or by the set it was copied, moved or assigned from.  A call that threw constructed nothing. -/
def given1 (g : Nat → Option Nat) (op : Op) (threw : Bool) : Nat → Option Nat :=
  match op with
  | .new i a | .newList i a _ | .newRange i a _ => fun j => if j = i then (if threw then none else some a) else g j
  | .newCopy i l | .newMove i l => fun j => if j = i then (if threw then none else g l) else g j
  | .move i l => fun j => if j = i then g l else g j
  | .destroy i => fun j => if j = i then none else g j
  | .insert .. | .emplace .. | .erase .. | .clear _ | .copy .. => g

def given : (Nat → Option Nat) → List Op → List Bool → Nat → Option Nat
  | g, op :: l, t :: ts => given (given1 g op t) l ts
  | g, _, _ => g

/-! ### Helpers about histories -/

theorem run_cons_ok {d : Nat} {bad : Nat → Bool} {w w' : W} {op : Op} {l : List Op} {ts : List Bool} (h : run d bad w (op :: l) = .ok (w', ts)) :
    ∃ w1 t ts', step d bad w op = .ok (w1, t) ∧ run d bad w1 l = .ok (w', ts') ∧ ts = t :: ts' := by
  rw [run] at h
  obtain ⟨⟨w1, t⟩, h1, h2⟩ := Res.bind_eq_ok.1 h
  obtain ⟨⟨w2, ts'⟩, h3, h4⟩ := Res.bind_eq_ok.1 h2
  cases h4
  exact ⟨w1, t, ts', h1, h3, rfl⟩

theorem run_snoc {d : Nat} {bad : Nat → Bool} {w0 w w1 : W} {t : Bool} (pre : List Op) {ts : List Bool} {op : Op} (h : run d bad w0 pre = .ok (w, ts))
    (h' : step d bad w op = .ok (w1, t)) : run d bad w0 (pre ++ [op]) = .ok (w1, ts ++ [t]) := by
  induction pre generalizing w0 ts with
  | nil =>
    cases h
    rw [List.nil_append, run, h', Res.ok_bind]
    simp only [run, Res.ok_bind, List.nil_append]
  | cons o l ih =>
    obtain ⟨w2, t2, ts', h1, h2, rfl⟩ := run_cons_ok h
    rw [List.cons_append, run, h1, Res.ok_bind]
    simp only []
    rw [ih h2, Res.ok_bind]
    rfl

/-- Everything at once, from any point of a fair history on. -/
theorem run_all {d : Nat} {bad : Nat → Bool} {ops : List Op} (hf : Fair d bad ops) (pre post : List Op) (he : ops = pre ++ post) {w : W} {ts : List Bool}
    (hr : run d bad W.init pre = .ok (w, ts)) (hw : Inv w) :
    run d bad w post ≠ .ub ∧ ∀ w' ts', run d bad w post = .ok (w', ts') → Inv w' ∧ (∀ p, Leaked w p → Leaked w' p) ∧
      ((∀ t ∈ ts', t = false) → ∀ p, Leaked w' p → Leaked w p) ∧ ((∃ t ∈ ts', t = true) → ∃ p, Leaked w' p) := by
  induction post generalizing pre w ts with
  | nil =>
    refine ⟨by simp [run], ?_⟩
    intro w' ts' h
    cases h
    exact ⟨hw, fun _ h => h, fun _ _ h => h, by simp⟩
  | cons op l ih =>
    have hal : Allowed w op := by
      cases op with
      | emplace i k => exact hf pre i k l he w ts hr
      | _ => exact trivial
    rcases step_ok d bad hw op hal with ⟨h1, _⟩ | ⟨⟨w1, t⟩, h1, h2⟩
    · rw [run, h1]
      refine ⟨by simp [bind, Res.bind], ?_⟩
      intro w' ts' h; cases h
    · obtain ⟨h3, h4⟩ := ih (pre ++ [op]) (by rw [he]; simp) (run_snoc pre hr h1) h2.inv
      rw [run, h1, Res.ok_bind]
      simp only []
      constructor
      · intro h
        cases h5 : run d bad w1 l with
        | ok r => rw [h5, Res.ok_bind] at h; cases h
        | throw e => rw [h5] at h; cases h
        | ub => exact h3 h5
      · intro w' ts' h
        obtain ⟨⟨w2, ts2⟩, h5, h6⟩ := Res.bind_eq_ok.1 h
        cases h6
        obtain ⟨h7, h8, h9, h10⟩ := h4 w2 ts2 h5
        refine ⟨h7, fun p hp => h8 p (h2.keep p hp), ?_, ?_⟩
        · intro hts p hp
          exact h2.same (hts t (by simp)) p (h9 (fun t ht => hts t (by simp [ht])) p hp)
        · rintro ⟨t', ht', rfl⟩
          rcases List.mem_cons.1 ht' with h11 | h11
          · obtain ⟨p, hp⟩ := h2.lost h11.symm
            exact ⟨p, h8 p hp⟩
          · exact h10 ⟨true, h11, rfl⟩

theorem leaked_init (p : Nat) : ¬ Leaked W.init p := fun h => h.1 rfl

/-! ### The allocator -/

theorem insert_alloc {bad : Nat → Bool} {w : W} {i k : Nat} {r : W × Bool} (h : insert bad w i k = .ok r) (j : Nat) :
    (r.1.sets j).map (·.alloc) = (w.sets j).map (·.alloc) ∧ (r.1.sets j).map (·.node) = (w.sets j).map (·.node) := by
  unfold insert at h
  cases hs : w.sets i with
  | none => rw [hs] at h; cases h
  | some s =>
    rw [hs] at h
    simp only [] at h
    split at h
    · cases h; exact ⟨rfl, rfl⟩
    · split at h
      · cases h; exact ⟨rfl, rfl⟩
      · cases h
        by_cases hj : j = i
        · subst hj; simp only [put_self, hs]; exact ⟨rfl, rfl⟩
        · simp only [put_other _ _ hj]; exact ⟨rfl, rfl⟩

theorem insertAll_alloc {bad : Nat → Bool} {i : Nat} (l : List Nat) {w : W} {r : W × Bool} (h : insertAll bad i l w = .ok r) (j : Nat) :
    (r.1.sets j).map (·.alloc) = (w.sets j).map (·.alloc) ∧ (r.1.sets j).map (·.node) = (w.sets j).map (·.node) := by
  induction l generalizing w with
  | nil => cases h; exact ⟨rfl, rfl⟩
  | cons k l ih =>
    rw [insertAll] at h
    obtain ⟨⟨w1, t⟩, h1, h2⟩ := Res.bind_eq_ok.1 h
    have h3 := insert_alloc h1 j
    split at h2
    · cases h2; exact h3
    · have h4 := ih h2
      exact ⟨h4.1.trans h3.1, h4.2.trans h3.2⟩

theorem giveAll_sets (a : Nat) (l : List (Nat × Nat)) {w w' : W} (h : giveAll a l w = .ok w') : w'.sets = w.sets := by
  induction l generalizing w with
  | nil => cases h; rfl
  | cons x l ih =>
    rw [giveAll] at h
    obtain ⟨w1, h1, h2⟩ := Res.bind_eq_ok.1 h
    unfold W.give at h1
    split at h1
    · cases h1; exact (ih h2).trans rfl
    · cases h1

theorem clear_alloc {w w' : W} {i : Nat} (h : clear w i = .ok w') (j : Nat) :
    (w'.sets j).map (·.alloc) = (w.sets j).map (·.alloc) ∧ (w'.sets j).map (·.node) = (w.sets j).map (·.node) := by
  unfold clear at h
  cases hs : w.sets i with
  | none => rw [hs] at h; cases h
  | some s =>
    rw [hs] at h
    obtain ⟨w1, h1, h2⟩ := Res.bind_eq_ok.1 h
    cases h2
    have h3 := giveAll_sets _ _ h1
    by_cases hj : j = i
    · subst hj; rw [put_self, hs]; exact ⟨rfl, rfl⟩
    · rw [put_other _ _ hj, h3]; exact ⟨rfl, rfl⟩

theorem construct_alloc {bad : Nat → Bool} {w : W} {i a n : Nat} {keys : List Nat} {r : W × Bool} (h : construct bad w i ⟨a, n, []⟩ keys = .ok r) (j : Nat) :
    (r.1.sets j).map (·.alloc) = (if j = i then (if r.2 then none else some a) else (w.sets j).map (·.alloc)) ∧
    (r.1.sets j).map (·.node) = (if j = i then (if r.2 then none else some n) else (w.sets j).map (·.node)) := by
  unfold construct at h
  split at h
  · cases h
  · obtain ⟨⟨w1, t⟩, h1, h2⟩ := Res.bind_eq_ok.1 h
    have h3 := insertAll_alloc keys h1 j
    cases t with
    | true =>
      cases h2
      by_cases hj : j = i
      · subst hj; simp [put_self]
      · simp only [if_true, put_other _ _ hj, if_neg hj] at h3 ⊢
        exact h3
    | false =>
      cases h2
      by_cases hj : j = i
      · subst hj; rw [put_self] at h3; simpa using h3
      · rw [put_other _ _ hj] at h3; simpa [hj] using h3

/-- The calls of the constructor with a list of elements get the default allocator. -/
def ListsDefault (d : Nat) : Op → Prop
  | .newList _ a _ => a = d
  | _ => True

theorem step_alloc {d : Nat} {bad : Nat → Bool} {w w1 : W} {op : Op} {t : Bool} (h : step d bad w op = .ok (w1, t)) {g : Nat → Option Nat}
    (hg : ∀ j, (w.sets j).map (·.alloc) = g j) :
    (∀ j, (w1.sets j).map (·.alloc) = given1 g op t j) ∧
    (ListsDefault d op → (∀ j, (w.sets j).map (·.node) = g j) → ∀ j, (w1.sets j).map (·.node) = given1 g op t j) := by
  cases op with
  | new i a =>
    have h1 := fun j => construct_alloc h j
    exact ⟨fun j => by rw [(h1 j).1, hg j]; rfl, fun _ hn j => by rw [(h1 j).2, hn j]; rfl⟩
  | newList i a keys =>
    have h1 := fun j => construct_alloc h j
    exact ⟨fun j => by rw [(h1 j).1, hg j]; rfl, fun hd hn j => by rw [(h1 j).2, hn j, ← show a = d from hd]; rfl⟩
  | newRange i a keys =>
    simp only [step] at h
    split at h
    · cases h
    · obtain ⟨⟨w2, t2⟩, h1, h2⟩ := Res.bind_eq_ok.1 h
      have h3 := fun j => insertAll_alloc keys h1 j
      cases t2 with
      | true =>
        obtain ⟨w3, h4, h5⟩ := Res.bind_eq_ok.1 h2
        cases h5
        have h6 := fun j => clear_alloc h4 j
        constructor
        · intro j
          by_cases hj : j = i
          · subst hj; simp [put_self, given1]
          · rw [put_other _ _ hj, (h6 j).1, (h3 j).1, put_other _ _ hj, hg j]; simp [given1, hj]
        · intro _ hn j
          by_cases hj : j = i
          · subst hj; simp [put_self, given1]
          · rw [put_other _ _ hj, (h6 j).2, (h3 j).2, put_other _ _ hj, hn j]; simp [given1, hj]
      | false =>
        cases h2
        constructor
        · intro j
          rw [(h3 j).1]
          by_cases hj : j = i
          · subst hj; simp [put_self, given1]
          · rw [put_other _ _ hj, hg j]; simp [given1, hj]
        · intro _ hn j
          rw [(h3 j).2]
          by_cases hj : j = i
          · subst hj; simp [put_self, given1]
          · rw [put_other _ _ hj, hn j]; simp [given1, hj]
  | newCopy i l =>
    simp only [step] at h
    cases hl : w.sets l with
    | none => rw [hl] at h; cases h
    | some s =>
      rw [hl] at h
      have h1 := fun j => construct_alloc h j
      have h2 : g l = some s.alloc := by rw [← hg l, hl]; rfl
      refine ⟨fun j => ?_, fun _ hn j => ?_⟩
      · rw [(h1 j).1, hg j]; simp only [given1, h2]
      · have h3 : g l = some s.node := by rw [← hn l, hl]; rfl
        rw [(h1 j).2, hn j]; simp only [given1, h3]
  | newMove i l =>
    simp only [step] at h
    cases hl : w.sets l with
    | none => rw [hl] at h; cases h
    | some s =>
      rw [hl] at h
      simp only [] at h
      split at h
      · cases h
      · cases h
        have key : ∀ (f : S → Nat), (∀ x y : S, x.alloc = y.alloc → x.node = y.node → f x = f y) → (∀ j, (w.sets j).map f = g j) →
            ∀ j, ((((w.put l (some { s with nodes := [] })).put i (some s)).sets j).map f) = given1 g (.newMove i l) false j := by
          intro f hf hgf j
          have h2 : g l = some (f s) := by rw [← hgf l, hl]; rfl
          by_cases hj : j = i
          · subst hj; simp [put_self, given1, h2]
          · rw [put_other _ _ hj]
            by_cases hjl : j = l
            · subst hjl; simp only [put_self, given1, if_neg hj, h2, Option.map_some, Option.some.injEq]; exact hf _ _ rfl rfl
            · rw [put_other _ _ hjl, hgf j]; simp [given1, hj]
        exact ⟨key _ (fun _ _ h _ => h) hg, fun _ hn => key _ (fun _ _ _ h => h) hn⟩
  | insert i k =>
    have h1 := fun j => insert_alloc h j
    exact ⟨fun j => by rw [(h1 j).1, hg j]; rfl, fun _ hn j => by rw [(h1 j).2, hn j]; rfl⟩
  | emplace i k =>
    simp only [step, emplace] at h
    cases hs : w.sets i with
    | none => rw [hs] at h; cases h
    | some s =>
      rw [hs] at h
      simp only [] at h
      split at h
      · cases h; exact ⟨hg, fun _ hn => hn⟩
      · split at h
        · obtain ⟨w2, h1, h2⟩ := Res.bind_eq_ok.1 h
          cases h2
          unfold W.give at h1
          split at h1
          · cases h1; exact ⟨hg, fun _ hn => hn⟩
          · cases h1
        · cases h
          constructor
          · intro j
            by_cases hj : j = i
            · subst hj; rw [put_self]; exact (by rw [hs] : Option.map S.alloc (some s) = (w.sets j).map (·.alloc)).trans (hg j)
            · rw [put_other _ _ hj]; exact hg j
          · intro _ hn j
            by_cases hj : j = i
            · subst hj; rw [put_self]; exact (by rw [hs] : Option.map S.node (some s) = (w.sets j).map (·.node)).trans (hn j)
            · rw [put_other _ _ hj]; exact hn j
  | erase i k =>
    simp only [step, erase] at h
    cases hs : w.sets i with
    | none => rw [hs] at h; cases h
    | some s =>
      rw [hs] at h
      simp only [] at h
      split at h
      · cases h; exact ⟨hg, fun _ hn => hn⟩
      · obtain ⟨w2, h1, h2⟩ := Res.bind_eq_ok.1 h
        cases h2
        unfold W.give at h1
        split at h1
        · cases h1
          constructor
          · intro j
            by_cases hj : j = i
            · subst hj; rw [put_self]; exact (by rw [hs] : Option.map S.alloc (some s) = (w.sets j).map (·.alloc)).trans (hg j)
            · rw [put_other _ _ hj]; exact hg j
          · intro _ hn j
            by_cases hj : j = i
            · subst hj; rw [put_self]; exact (by rw [hs] : Option.map S.node (some s) = (w.sets j).map (·.node)).trans (hn j)
            · rw [put_other _ _ hj]; exact hn j
        · cases h1
  | clear i =>
    obtain ⟨w2, h1, h2⟩ := Res.bind_eq_ok.1 h
    cases h2
    have h3 := fun j => clear_alloc h1 j
    exact ⟨fun j => by rw [(h3 j).1, hg j]; rfl, fun _ hn j => by rw [(h3 j).2, hn j]; rfl⟩
  | destroy i =>
    obtain ⟨w2, h1, h2⟩ := Res.bind_eq_ok.1 h
    cases h2
    have h3 := fun j => clear_alloc h1 j
    constructor
    · intro j
      by_cases hj : j = i
      · subst hj; simp [put_self, given1]
      · rw [put_other _ _ hj, (h3 j).1, hg j]; simp [given1, hj]
    · intro _ hn j
      by_cases hj : j = i
      · subst hj; simp [put_self, given1]
      · rw [put_other _ _ hj, (h3 j).2, hn j]; simp [given1, hj]
  | copy i l =>
    obtain ⟨w2, h1, h2⟩ := Res.bind_eq_ok.1 h
    have h3 := fun j => clear_alloc h1 j
    split at h2
    · cases h2
    · have h4 := fun j => insertAll_alloc _ h2 j
      exact ⟨fun j => by rw [(h4 j).1, (h3 j).1, hg j]; rfl, fun _ hn j => by rw [(h4 j).2, (h3 j).2, hn j]; rfl⟩
  | move i l =>
    obtain ⟨w2, h1, h2⟩ := Res.bind_eq_ok.1 h
    have h3 := fun j => clear_alloc h1 j
    split at h2
    · cases h2
    · rename_i s hl
      cases h2
      have key : ∀ (f : S → Nat), (∀ x y : S, x.alloc = y.alloc → x.node = y.node → f x = f y) → (∀ j, (w2.sets j).map f = g j) →
          ∀ j, ((((w2.put i (some s)).put l (some { s with nodes := if i = l then s.nodes else [] })).sets j).map f) = given1 g (.move i l) false j := by
        intro f hf hgf j
        have h2 : g l = some (f s) := by rw [← hgf l, hl]; rfl
        have h3 : f { s with nodes := if i = l then s.nodes else [] } = f s := hf _ _ rfl rfl
        by_cases hjl : j = l
        · subst hjl; simp only [put_self, given1, h2, Option.map_some, h3]; simp
        · rw [put_other _ _ hjl]
          by_cases hj : j = i
          · subst hj; simp [put_self, given1, h2]
          · rw [put_other _ _ hj, hgf j]; simp [given1, hj]
      exact ⟨key _ (fun _ _ h _ => h) (fun j => (h3 j).1.trans (hg j)), fun _ hn => key _ (fun _ _ _ h => h) (fun j => (h3 j).2.trans (hn j))⟩

theorem run_alloc1 {d : Nat} {bad : Nat → Bool} (ops : List Op) {w w' : W} {ts : List Bool} (h : run d bad w ops = .ok (w', ts)) {g : Nat → Option Nat}
    (hg : ∀ j, (w.sets j).map (·.alloc) = g j) (j : Nat) : (w'.sets j).map (·.alloc) = given g ops ts j := by
  induction ops generalizing w ts g with
  | nil => cases h; exact hg j
  | cons op l ih =>
    obtain ⟨w1, t, ts', h1, h2, rfl⟩ := run_cons_ok h
    exact ih h2 (step_alloc h1 hg).1

theorem run_alloc {d : Nat} {bad : Nat → Bool} (ops : List Op) {w w' : W} {ts : List Bool} (h : run d bad w ops = .ok (w', ts)) {g : Nat → Option Nat}
    (hg : ∀ j, (w.sets j).map (·.alloc) = g j) (hn : ∀ j, (w.sets j).map (·.node) = g j) (hd : ∀ op ∈ ops, ListsDefault d op) (j : Nat) :
    (w'.sets j).map (·.node) = given g ops ts j := by
  induction ops generalizing w ts g with
  | nil => cases h; exact hn j
  | cons op l ih =>
    obtain ⟨w1, t, ts', h1, h2, rfl⟩ := run_cons_ok h
    have h3 := step_alloc h1 hg
    exact ih h2 h3.1 (h3.2 (hd op (by simp)) hn) (fun o ho => hd o (by simp [ho]))

/-! ### What an exception loses -/

theorem insert_one {bad : Nat → Bool} {w w' : W} (h : Inv w) {i k : Nat} (hr : insert bad w i k = .ok (w', true)) :
    ∃ p, ∀ q, Leaked w' q ↔ Leaked w q ∨ q = p := by
  unfold insert at hr
  cases hs : w.sets i with
  | none => rw [hs] at hr; cases hr
  | some s =>
    rw [hs] at hr
    simp only [] at hr
    split at hr
    · cases hr
    · split at hr
      · cases hr; exact ⟨w.next, leaked_take h _⟩
      · cases hr

theorem insertAll_one {bad : Nat → Bool} {i : Nat} (l : List Nat) {w w' : W} (h : Inv w) {s : S} (hs : w.sets i = some s) (hr : insertAll bad i l w = .ok (w', true)) :
    ∃ p, ∀ q, Leaked w' q ↔ Leaked w q ∨ q = p := by
  induction l generalizing w s with
  | nil => cases hr
  | cons k l ih =>
    rw [insertAll] at hr
    obtain ⟨⟨w1, t⟩, h1, h2, s1, h3, _⟩ := insert_ok bad h hs k
    rw [h1, Res.ok_bind] at hr
    cases t with
    | true => cases hr; exact insert_one h h1
    | false =>
      obtain ⟨p, hp⟩ := ih h2.inv h3 hr
      exact ⟨p, fun q => by rw [hp q]; exact or_congr ⟨h2.same rfl q, h2.keep q⟩ Iff.rfl⟩

/-- The calls that construct elements in a set that exists. -/
def Existing : Op → Prop
  | .insert .. | .emplace .. | .copy .. | .newRange .. => True
  | _ => False

theorem step_one {d : Nat} {bad : Nat → Bool} {w w' : W} (h : Inv w) {op : Op} (ho : Existing op) (hr : step d bad w op = .ok (w', true)) :
    ∃ p, ∀ q, Leaked w' q ↔ Leaked w q ∨ q = p := by
  cases op with
  | insert i k => exact insert_one h hr
  | emplace i k =>
    simp only [step, emplace] at hr
    cases hs : w.sets i with
    | none => rw [hs] at hr; cases hr
    | some s =>
      rw [hs] at hr
      simp only [] at hr
      split at hr
      · cases hr; exact ⟨w.next, leaked_take h _⟩
      · split at hr
        · obtain ⟨w2, _, h2⟩ := Res.bind_eq_ok.1 hr
          cases h2
        · cases hr
  | copy i j =>
    cases hi : w.sets i with
    | none => simp only [step, clear, hi] at hr; cases hr
    | some s =>
      simp only [step, clear_ok h hi, Res.ok_bind] at hr
      split at hr
      · cases hr
      · obtain ⟨p, hp⟩ := insertAll_one _ (inv_cleared h hi) (put_self _ _ _) hr
        exact ⟨p, fun q => by rw [hp q, leaked_cleared hi]⟩
  | newRange i a keys =>
    cases hi : w.sets i with
    | some s => simp only [step, hi, Option.isSome_some, if_true] at hr; cases hr
    | none =>
      obtain ⟨⟨w1, t⟩, h1, h2, s', h5, _⟩ := insertAll_ok bad i keys (inv_put_empty h i a a) (put_self w i _)
      simp only [step, hi, Option.isSome_none, Bool.false_eq_true, if_false, h1, Res.ok_bind] at hr
      cases t with
      | false => cases hr
      | true =>
        simp only [if_true, clear_ok h2.inv h5, Res.ok_bind] at hr
        cases hr
        obtain ⟨p, hp⟩ := insertAll_one _ (inv_put_empty h i a a) (put_self w i _) h1
        exact ⟨p, fun q => by
          rw [leaked_put_none_iff (w := cleared w1 i s') (s := { s' with nodes := [] }) (put_self _ _ _) rfl q, leaked_cleared h5, hp q, leaked_put_new hi a a q]⟩
  | _ => exact ho.elim

theorem run_append {d : Nat} {bad : Nat → Bool} {w0 w1 : W} (l l' : List Op) {ts : List Bool} (h : run d bad w0 (l ++ l') = .ok (w1, ts)) :
    ∃ w ts1 ts2, run d bad w0 l = .ok (w, ts1) ∧ run d bad w l' = .ok (w1, ts2) ∧ ts = ts1 ++ ts2 := by
  induction l generalizing w0 ts with
  | nil => exact ⟨w0, [], ts, rfl, h, rfl⟩
  | cons op l ih =>
    obtain ⟨w2, t, ts', h1, h2, rfl⟩ := run_cons_ok h
    obtain ⟨w, ts1, ts2, h3, h4, rfl⟩ := ih h2
    refine ⟨w, t :: ts1, ts2, ?_, h4, rfl⟩
    rw [run, h1, Res.ok_bind]
    simp only []
    rw [h3, Res.ok_bind]

/-! ### The property -/

/-- In a fair history nothing is given back twice, or to an allocator it is not from: no call is undefined. -/
theorem c131_no_double_free_partial (d : Nat) (bad : Nat → Bool) (ops : List Op) (hf : Fair d bad ops) : run d bad W.init ops ≠ .ub :=
  (run_all hf [] ops rfl rfl inv_init).1

/-- In a fair history in which no call throws, every block that is taken is the node of exactly one set; so a set that is cleared or destroyed leaves nothing behind,
and if there are no sets left nothing is taken. -/
theorem c131_no_leak_partial (d : Nat) (bad : Nat → Bool) (ops : List Op) (hf : Fair d bad ops) (w : W) (ts : List Bool) (hr : run d bad W.init ops = .ok (w, ts))
    (hts : ∀ t ∈ ts, t = false) :
    (∀ p, w.heap p ≠ none → ∃ i s, w.sets i = some s ∧ p ∈ s.nodes.map (·.2) ∧ ∀ j t, w.sets j = some t → p ∈ t.nodes.map (·.2) → j = i) ∧
    ((∀ i, w.sets i = none) → ∀ p, w.heap p = none) := by
  obtain ⟨h1, _, h3, _⟩ := (run_all hf [] ops rfl rfl inv_init).2 w ts hr
  have h4 : ∀ p, w.heap p ≠ none → Owned w p := fun p hp => Classical.byContradiction fun hn => leaked_init p (h3 hts p ⟨hp, hn⟩)
  constructor
  · intro p hp
    obtain ⟨i, s, hs, hps⟩ := h4 p hp
    refine ⟨i, s, hs, hps, ?_⟩
    intro j t ht hpt
    exact Classical.byContradiction fun hji => h1.disj j i t s hji ht hs p hpt hps
  · intro hn p
    cases hp : w.heap p with
    | none => rfl
    | some a =>
      obtain ⟨i, s, hs, _⟩ := h4 p (by rw [hp]; simp)
      rw [hn i] at hs; cases hs

/-- In a fair history, if the constructor with a list of elements gets no other than the default allocator, every node of every set is from the allocator the set was given. -/
theorem c131_allocator_partial (d : Nat) (bad : Nat → Bool) (ops : List Op) (hf : Fair d bad ops) (hd : ∀ i a keys, Op.newList i a keys ∈ ops → a = d)
    (w : W) (ts : List Bool) (hr : run d bad W.init ops = .ok (w, ts)) (i : Nat) :
    (w.sets i = none → given (fun _ => none) ops ts i = none) ∧
    ∀ s, w.sets i = some s → ∃ a, given (fun _ => none) ops ts i = some a ∧ ∀ p ∈ s.nodes.map (·.2), w.heap p = some a := by
  obtain ⟨h1, _, _, _⟩ := (run_all hf [] ops rfl rfl inv_init).2 w ts hr
  have h2 := run_alloc ops hr (g := fun _ => none) (fun _ => rfl) (fun _ => rfl) (fun op ho => by
    cases op with
    | newList i a keys => exact hd i a keys ho
    | _ => exact trivial) i
  constructor
  · intro hs; rw [hs] at h2; exact h2.symm
  · intro s hs
    rw [hs] at h2
    exact ⟨s.node, h2.symm, h1.own i s hs⟩

/-- `get_allocator()` of every set is the allocator the set was given, after every history. -/
theorem c131_get_allocator (d : Nat) (bad : Nat → Bool) (ops : List Op) (w : W) (ts : List Bool) (hr : run d bad W.init ops = .ok (w, ts)) (i : Nat) :
    (w.sets i).map getAllocator = given (fun _ => none) ops ts i :=
  run_alloc1 ops hr (g := fun _ => none) (fun _ => rfl) i

/-- Every exception loses memory for good: in a fair history in which some call throws, at the end a block is taken that no set has. -/
theorem c131_throw_violated (d : Nat) (bad : Nat → Bool) (ops : List Op) (hf : Fair d bad ops) (w : W) (ts : List Bool) (hr : run d bad W.init ops = .ok (w, ts))
    (hts : true ∈ ts) : ∃ p, w.heap p ≠ none ∧ ∀ i s, w.sets i = some s → p ∉ s.nodes.map (·.2) := by
  obtain ⟨_, _, _, h⟩ := (run_all hf [] ops rfl rfl inv_init).2 w ts hr
  obtain ⟨p, h1, h2⟩ := h ⟨true, hts, rfl⟩
  exact ⟨p, h1, fun i s hs hp => h2 ⟨i, s, hs, hp⟩⟩

/-- If `insert`, `emplace`, a copy assignment or the constructor with a range throws, exactly one block is lost with it: all other nodes are in a set or given back. -/
theorem c131_throw_partial (d : Nat) (bad : Nat → Bool) (ops : List Op) (op : Op) (ho : Existing op) (hf : Fair d bad (ops ++ [op])) (w : W) (ts : List Bool)
    (hr : run d bad W.init (ops ++ [op]) = .ok (w, ts ++ [true])) (hts : ∀ t ∈ ts, t = false) :
    ∃ p, ∀ q, w.heap q ≠ none → (∃ i s, w.sets i = some s ∧ q ∈ s.nodes.map (·.2)) ∨ q = p := by
  obtain ⟨w1, ts1, ts2, h1, h2, h3⟩ := run_append ops [op] hr
  have hf' : Fair d bad ops := fun pre i k post he => hf pre i k (post ++ [op]) (by rw [he]; simp)
  obtain ⟨h4, _, h6, _⟩ := (run_all hf' [] ops rfl rfl inv_init).2 w1 ts1 h1
  obtain ⟨w2, t, ts', h7, h8, rfl⟩ := run_cons_ok h2
  cases h8
  obtain ⟨rfl, h10⟩ := List.append_inj' h3 rfl
  cases h10
  obtain ⟨p, hp⟩ := step_one h4 ho h7
  refine ⟨p, fun q hq => ?_⟩
  by_cases hqo : Owned w q
  · exact .inl hqo
  · rcases (hp q).1 ⟨hq, hqo⟩ with h | h
    · exact absurd (h6 hts q h) (leaked_init q)
    · exact .inr h

/-- The constructor with a list of elements takes no memory from the allocator it gets: all nodes are from a default constructed one. -/
theorem c131_init_list_violated (d a k : Nat) (hd : a ≠ d) (bad : Nat → Bool) (hk : bad k = false) :
    ∃ w, run d bad W.init [.newList 0 a [k]] = .ok (w, [false]) ∧ w.heap 0 = some d ∧ ∀ p, w.heap p ≠ some a := by
  refine ⟨((W.init.put 0 (some ⟨a, d, []⟩)).take d).put 0 (some ⟨a, d, [(k, 0)]⟩), ?_, rfl, ?_⟩
  · simp [run, step, construct, insertAll, insert, W.init, W.put, W.take, hk, bind, Res.bind]
  · intro p
    show (if p = 0 then some d else none) ≠ some a
    split
    · simpa using Ne.symm hd
    · simp

/-- `emplace` of a key that is in the set already frees the new node with `delete`, whatever allocator it is from. -/
theorem c131_emplace_violated (d a k : Nat) (ha : a ≠ 0) (bad : Nat → Bool) (hk : bad k = false) :
    run d bad W.init [.new 0 a, .insert 0 k, .emplace 0 k] = .ub := by
  simp [run, step, construct, insertAll, insert, emplace, W.init, hk, W.give, W.take, W.put, ha, bind, Res.bind]

/-- The constructor with a list of elements, if an exception leaves it, loses all nodes it has made, not only the last. -/
theorem c131_construct_violated (d a : Nat) (keys : List Nat) (hn : keys.Nodup) (k : Nat) (bad : Nat → Bool) (hk : bad k = true) (hb : ∀ x ∈ keys, bad x = false) :
    ∃ w, run d bad W.init [.newList 0 a (keys ++ [k])] = .ok (w, [true]) ∧ (∀ i, w.sets i = none) ∧ ∀ p, p ≤ keys.length ↔ w.heap p ≠ none := by
  have hkk : k ∉ keys := fun h => by rw [hb k h] at hk; cases hk
  have key : ∀ (l : List Nat) (w : W) (s : S), w.sets 0 = some s → s.node = d → (∀ i, i ≠ 0 → w.sets i = none) → (∀ p, p < w.next ↔ w.heap p ≠ none) → l.Nodup →
      (∀ x ∈ l, x ∉ s.nodes.map (·.1)) → (∀ x ∈ l, bad x = false) → k ∉ s.nodes.map (·.1) → k ∉ l →
      ∃ w', insertAll bad 0 (l ++ [k]) w = .ok (w', true) ∧ (∀ i, i ≠ 0 → w'.sets i = none) ∧ ∀ p, p < w.next + l.length + 1 ↔ w'.heap p ≠ none := by
    intro l
    induction l with
    | nil =>
      intro w s hs _ ho hh _ _ _ hks _
      refine ⟨w.take s.node, ?_, ho, ?_⟩
      · have h1 : s.nodes.any (·.1 == k) = false := by
          rw [Bool.eq_false_iff]; intro h
          obtain ⟨x, hx, hxk⟩ := List.any_eq_true.1 h
          exact hks (List.mem_map.2 ⟨x, hx, by simpa using hxk⟩)
        simp only [List.nil_append, insertAll, insert, hs, h1, Bool.false_eq_true, if_false, hk, if_true, Res.ok_bind]
      · intro p
        show _ ↔ (if p = w.next then some s.node else w.heap p) ≠ none
        by_cases hp : p = w.next
        · simp [hp]
        · rw [if_neg hp, ← hh p]; simp only [List.length_nil]; omega
    | cons x l ih =>
      intro w s hs hd ho hh hn hx hb hks hkl
      have h1 : s.nodes.any (·.1 == x) = false := by
        rw [Bool.eq_false_iff]; intro h
        obtain ⟨y, hy, hyk⟩ := List.any_eq_true.1 h
        exact hx x (by simp) (List.mem_map.2 ⟨y, hy, by simpa using hyk⟩)
      have h2 : insert bad w 0 x = .ok ((w.take s.node).put 0 (some { s with nodes := s.nodes ++ [(x, w.next)] }), false) := by
        simp only [insert, hs, h1, hb x (by simp), Bool.false_eq_true, if_false]
      rw [List.cons_append, insertAll, h2, Res.ok_bind]
      simp only [Bool.false_eq_true, if_false]
      simp only [List.nodup_cons] at hn
      obtain ⟨w', h3, h4, h5⟩ := ih ((w.take s.node).put 0 (some { s with nodes := s.nodes ++ [(x, w.next)] })) _ (put_self _ _ _) hd
        (fun i hi => by rw [put_other _ _ hi]; exact ho i hi)
        (fun p => by
          show p < w.next + 1 ↔ (if p = w.next then some s.node else w.heap p) ≠ none
          by_cases hp : p = w.next
          · simp [hp]
          · rw [if_neg hp, ← hh p]; omega)
        hn.2
        (fun y hy => by
          simp only [List.map_append, List.map_cons, List.map_nil, List.mem_append, List.mem_singleton, not_or]
          exact ⟨hx y (by simp [hy]), fun h => hn.1 (h ▸ hy)⟩)
        (fun y hy => hb y (by simp [hy]))
        (by
          simp only [List.map_append, List.map_cons, List.map_nil, List.mem_append, List.mem_singleton, not_or]
          exact ⟨hks, fun h => hkl (by simp [h])⟩)
        (fun h => hkl (by simp [h]))
      refine ⟨w', h3, h4, fun p => ?_⟩
      rw [← h5 p]
      show _ ↔ p < w.next + 1 + l.length + 1
      simp only [List.length_cons]; omega
  obtain ⟨w', h1, h2, h3⟩ := key keys (W.init.put 0 (some ⟨a, d, []⟩)) ⟨a, d, []⟩ (put_self _ _ _) rfl (fun i hi => by rw [put_other _ _ hi]; rfl)
    (fun p => by show p < 0 ↔ (none : Option Nat) ≠ none; simp) hn (by simp) hb (by simp) hkk
  refine ⟨w'.put 0 none, ?_, ?_, ?_⟩
  · simp only [run, step, construct]
    rw [if_neg (by simp [W.init]), h1]
    rfl
  · intro i
    by_cases hi : i = 0
    · subst hi; exact put_self _ _ _
    · rw [put_other _ _ hi]; exact h2 i hi
  · intro p
    show _ ↔ w'.heap p ≠ none
    rw [← h3 p]
    show _ ↔ p < 0 + keys.length + 1
    omega

/-! ### Examples -/

/-- Two sets with different allocators, assignments both ways, and all is given back. -/
def demo : List Op :=
  [.new 0 5, .insert 0 1, .insert 0 2, .newRange 1 7 [3, 4, 3], .newCopy 2 1, .move 0 1, .erase 0 4, .copy 1 2, .emplace 2 9, .clear 1, .destroy 0, .destroy 1, .destroy 2]

theorem demo_fair : Fair 0 (fun _ => false) demo := by
  intro pre i k post he w ts hr s hs
  have hpre : pre = demo.take 8 ∧ i = 2 ∧ k = 9 := by
    unfold demo at he
    rcases pre with _ | ⟨_, _ | ⟨_, _ | ⟨_, _ | ⟨_, _ | ⟨_, _ | ⟨_, _ | ⟨_, _ | ⟨_, _ | ⟨_, _ | ⟨_, _ | ⟨_, _ | ⟨_, _ | ⟨_, pre⟩⟩⟩⟩⟩⟩⟩⟩⟩⟩⟩⟩⟩ <;>
      simp at he
    obtain ⟨rfl, rfl, rfl, rfl, rfl, rfl, rfl, rfl, ⟨rfl, rfl⟩, _⟩ := he
    exact ⟨rfl, rfl, rfl⟩
  obtain ⟨rfl, rfl, rfl⟩ := hpre
  right
  have : w.sets 2 = some ⟨7, 7, [(3, 4), (4, 5)]⟩ := by
    cases hr
    rfl
  rw [this] at hs
  cases hs
  decide

example : ∃ w ts, run 0 (fun _ => false) W.init demo = .ok (w, ts) ∧ (∀ t ∈ ts, t = false) ∧ (∀ i, w.sets i = none) ∧ w.next = 9 := by
  refine ⟨_, _, rfl, by decide, ?_, rfl⟩
  intro i
  by_cases h0 : i = 0
  · subst h0; rfl
  · by_cases h1 : i = 1
    · subst h1; rfl
    · by_cases h2 : i = 2
      · subst h2; rfl
      · simp [W.put, W.take, W.init, h0, h1, h2]

/-- The value of the second element cannot be constructed. -/
example : ∃ w ts, run 0 (fun k => k == 2) W.init [.new 0 5, .insert 0 1, .insert 0 2, .destroy 0] = .ok (w, ts) ∧ true ∈ ts ∧ w.heap 1 = some 5 :=
  ⟨_, _, rfl, by decide, rfl⟩

/-- The third element of a range cannot be constructed: the first two are given back. -/
example : ∃ w, run 0 (fun k => k == 2) W.init ([.new 0 5] ++ [.newRange 1 7 [0, 1, 2]]) = .ok (w, [false] ++ [true]) ∧ w.heap 0 = none ∧ w.heap 1 = none ∧ w.heap 2 = some 7 :=
  ⟨_, rfl, rfl, rfl, rfl⟩

example : run 0 (fun _ => false) W.init [.new 0 0, .insert 0 1, .emplace 0 1, .destroy 0] ≠ .ub := by simp [run, step, construct, insertAll, insert, emplace, W.init, W.give, W.take, W.put, bind, Res.bind, clear, giveAll]

end Verif.VectorSet.Mem
