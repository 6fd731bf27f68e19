import Verif.VectorSet.AllocModel

/-! # Lemmas -/

namespace Verif.VectorSet.Mem

/-- The addresses of the nodes. -/
def S.addrs (s : S) : List Nat := s.nodes.map (·.2)

/-- Some set has a node there. -/
def Owned (w : W) (p : Nat) : Prop := ∃ i s, w.sets i = some s ∧ p ∈ s.addrs

/-- The block is taken and no set has a node there, so nobody can give it back. -/
def Leaked (w : W) (p : Nat) : Prop := w.heap p ≠ none ∧ ¬ Owned w p

structure Inv (w : W) : Prop where
  own : ∀ i s, w.sets i = some s → ∀ p ∈ s.addrs, w.heap p = some s.node
  nd : ∀ i s, w.sets i = some s → s.addrs.Nodup
  disj : ∀ i j s t, i ≠ j → w.sets i = some s → w.sets j = some t → ∀ p ∈ s.addrs, p ∉ t.addrs
  fresh : ∀ p, w.heap p ≠ none → p < w.next

theorem inv_init : Inv W.init := by
  refine ⟨?_, ?_, ?_, ?_⟩ <;> simp [W.init]

theorem put_sets (w : W) (i : Nat) (s : Option S) (j : Nat) : (w.put i s).sets j = if j = i then s else w.sets j := rfl
theorem put_self (w : W) (i : Nat) (s : Option S) : (w.put i s).sets i = s := by simp [W.put]
theorem put_other (w : W) {i j : Nat} (s : Option S) (h : j ≠ i) : (w.put i s).sets j = w.sets j := by simp [W.put, h]

theorem inv_put {w : W} (h : Inv w) (i : Nat) (s : S) (h1 : ∀ p ∈ s.addrs, w.heap p = some s.node) (h2 : s.addrs.Nodup)
    (h3 : ∀ j t, j ≠ i → w.sets j = some t → ∀ p ∈ s.addrs, p ∉ t.addrs) : Inv (w.put i (some s)) := by
  refine ⟨?_, ?_, ?_, h.fresh⟩
  · intro j t hj
    by_cases hji : j = i
    · subst hji; rw [put_self] at hj; cases hj; exact h1
    · rw [put_other _ _ hji] at hj; exact h.own j t hj
  · intro j t hj
    by_cases hji : j = i
    · subst hji; rw [put_self] at hj; cases hj; exact h2
    · rw [put_other _ _ hji] at hj; exact h.nd j t hj
  · intro j j' t t' hjj hj hj' p hp hp'
    by_cases hji : j = i
    · subst hji; rw [put_self] at hj; cases hj
      rw [put_other _ _ (Ne.symm hjj)] at hj'
      exact h3 j' t' (Ne.symm hjj) hj' p hp hp'
    · rw [put_other _ _ hji] at hj
      by_cases hji' : j' = i
      · subst hji'; rw [put_self] at hj'; cases hj'
        exact h3 j t hji hj p hp' hp
      · rw [put_other _ _ hji'] at hj'
        exact h.disj j j' t t' hjj hj hj' p hp hp'

theorem inv_put_empty {w : W} (h : Inv w) (i a n : Nat) : Inv (w.put i (some ⟨a, n, []⟩)) :=
  inv_put h i _ (by simp [S.addrs]) (by simp [S.addrs]) (by simp [S.addrs])

theorem inv_put_none {w : W} (h : Inv w) (i : Nat) : Inv (w.put i none) := by
  have key : ∀ j t, (w.put i none).sets j = some t → w.sets j = some t := by
    intro j t hj
    rw [put_sets] at hj; split at hj
    · cases hj
    · exact hj
  exact ⟨fun j t hj => h.own j t (key j t hj), fun j t hj => h.nd j t (key j t hj),
    fun j j' t t' hjj hj hj' => h.disj j j' t t' hjj (key j t hj) (key j' t' hj'), h.fresh⟩

theorem owned_lt {w : W} (h : Inv w) {i : Nat} {s : S} (hs : w.sets i = some s) {p : Nat} (hp : p ∈ s.addrs) : p < w.next :=
  h.fresh p (by rw [h.own i s hs p hp]; simp)

theorem inv_take {w : W} (h : Inv w) (a : Nat) : Inv (w.take a) := by
  refine ⟨?_, h.nd, h.disj, ?_⟩
  · intro i s hs p hp
    have := owned_lt h hs hp
    show (if p = w.next then some a else w.heap p) = _
    rw [if_neg (by omega)]
    exact h.own i s hs p hp
  · intro p hp
    show p < w.next + 1
    by_cases hpn : p = w.next
    · omega
    · have : w.heap p ≠ none := by
        have hp' : (if p = w.next then some a else w.heap p) ≠ none := hp
        rwa [if_neg hpn] at hp'
      have := h.fresh p this
      omega

theorem leaked_take {w : W} (h : Inv w) (a p : Nat) : Leaked (w.take a) p ↔ Leaked w p ∨ p = w.next := by
  unfold Leaked
  have ho : Owned (w.take a) p ↔ Owned w p := Iff.rfl
  rw [ho]
  show (if p = w.next then some a else w.heap p) ≠ none ∧ _ ↔ _
  by_cases hp : p = w.next
  · rw [if_pos hp]
    constructor
    · intro _; exact .inr hp
    · intro _
      refine ⟨by simp, ?_⟩
      rintro ⟨i, s, hs, hps⟩
      have := owned_lt h hs hps
      omega
  · rw [if_neg hp]
    simp [hp]

/-- The new node is put into the set. -/
theorem inv_add {w : W} (h : Inv w) {i : Nat} {s : S} (hs : w.sets i = some s) (k : Nat) :
    Inv ((w.take s.node).put i (some { s with nodes := s.nodes ++ [(k, w.next)] })) := by
  have ha : ∀ p, p ∈ ({ s with nodes := s.nodes ++ [(k, w.next)] } : S).addrs ↔ p ∈ s.addrs ∨ p = w.next := by
    intro p; simp [S.addrs]
  refine inv_put (inv_take h s.node) i _ ?_ ?_ ?_
  · intro p hp
    rcases (ha p).1 hp with hp | hp
    · exact (inv_take h s.node).own i s hs p hp
    · subst hp
      show (if w.next = w.next then some s.node else _) = _
      rw [if_pos rfl]
  · show (List.map (·.2) (s.nodes ++ [(k, w.next)])).Nodup
    rw [List.map_append]
    refine List.nodup_append.2 ⟨h.nd i s hs, by simp, ?_⟩
    intro a haa b hb
    have := owned_lt h hs (p := a) haa
    simp at hb
    omega
  · intro j t hj ht p hp hpt
    have ht' : w.sets j = some t := ht
    rcases (ha p).1 hp with hp | hp
    · exact h.disj i j s t (Ne.symm hj) hs ht' p hp hpt
    · have := owned_lt h ht' hpt
      omega

theorem leaked_add {w : W} (h : Inv w) {i : Nat} {s : S} (hs : w.sets i = some s) (k p : Nat) :
    Leaked ((w.take s.node).put i (some { s with nodes := s.nodes ++ [(k, w.next)] })) p ↔ Leaked w p := by
  have ha : ∀ p, p ∈ ({ s with nodes := s.nodes ++ [(k, w.next)] } : S).addrs ↔ p ∈ s.addrs ∨ p = w.next := by
    intro p; simp [S.addrs]
  have ho : Owned ((w.take s.node).put i (some { s with nodes := s.nodes ++ [(k, w.next)] })) p ↔ Owned w p ∨ p = w.next := by
    constructor
    · rintro ⟨j, t, ht, hp⟩
      by_cases hj : j = i
      · subst hj; rw [put_self] at ht; cases ht
        rcases (ha p).1 hp with hp | hp
        · exact .inl ⟨j, s, hs, hp⟩
        · exact .inr hp
      · rw [put_other _ _ hj] at ht
        exact .inl ⟨j, t, ht, hp⟩
    · rintro (⟨j, t, ht, hp⟩ | hp)
      · by_cases hj : j = i
        · subst hj; rw [hs] at ht; cases ht
          exact ⟨j, _, put_self _ _ _, (ha p).2 (.inl hp)⟩
        · exact ⟨j, t, by rw [put_other _ _ hj]; exact ht, hp⟩
      · exact ⟨i, _, put_self _ _ _, (ha p).2 (.inr hp)⟩
  unfold Leaked
  rw [ho]
  show (if p = w.next then some s.node else w.heap p) ≠ none ∧ _ ↔ _
  by_cases hp : p = w.next
  · simp only [hp, or_true, not_true, and_false, false_iff]
    rintro ⟨h1, _⟩
    exact absurd (h.fresh _ h1) (by omega)
  · simp [hp]

theorem give_ok {w : W} {p a : Nat} (h : w.heap p = some a) :
    w.give p a = .ok { w with heap := fun q => if q = p then none else w.heap q } := by
  unfold W.give; exact if_pos h

theorem giveAll_ok (a : Nat) (l : List (Nat × Nat)) (w : W) (hn : (l.map (·.2)).Nodup) (ho : ∀ p ∈ l.map (·.2), w.heap p = some a) :
    giveAll a l w = .ok { w with heap := fun q => if q ∈ l.map (·.2) then none else w.heap q } := by
  induction l generalizing w with
  | nil => simp [giveAll]
  | cons x l ih =>
    simp only [List.map_cons, List.nodup_cons] at hn
    rw [giveAll, give_ok (ho x.2 (by simp)), Res.ok_bind, ih _ hn.2 ?_]
    · congr 1
      simp only [List.map_cons, List.mem_cons]
      congr 1
      funext q
      by_cases h1 : q ∈ l.map (·.2)
      · simp only [h1, or_true, if_true]
      · by_cases h2 : q = x.2
        · simp only [h2, true_or, if_true]; split <;> rfl
        · simp only [h1, h2, or_self, if_false]
    · intro p hp
      show (if p = x.2 then none else w.heap p) = some a
      rw [if_neg (by rintro rfl; exact hn.1 hp)]
      exact ho p (by simp only [List.map_cons, List.mem_cons]; exact .inr hp)

/-- What `clear` leaves. -/
def cleared (w : W) (i : Nat) (s : S) : W :=
  ({ w with heap := fun q => if q ∈ s.addrs then none else w.heap q }.put i (some { s with nodes := [] }))

theorem clear_ok {w : W} (h : Inv w) {i : Nat} {s : S} (hs : w.sets i = some s) : clear w i = .ok (cleared w i s) := by
  unfold clear
  rw [hs]
  simp only []
  rw [giveAll_ok s.node s.nodes w (h.nd i s hs) (h.own i s hs), Res.ok_bind]
  rfl

theorem inv_cleared {w : W} (h : Inv w) {i : Nat} {s : S} (hs : w.sets i = some s) : Inv (cleared w i s) := by
  have hset : ∀ j t, j ≠ i → (cleared w i s).sets j = some t → w.sets j = some t := by
    intro j t hj ht
    unfold cleared at ht
    rw [put_other _ _ hj] at ht; exact ht
  have hi : (cleared w i s).sets i = some { s with nodes := [] } := put_self _ _ _
  refine ⟨?_, ?_, ?_, ?_⟩
  · intro j t ht p hp
    by_cases hj : j = i
    · subst hj; rw [hi] at ht; cases ht; simp [S.addrs] at hp
    · have ht' := hset j t hj ht
      show (if p ∈ s.addrs then none else w.heap p) = _
      rw [if_neg (h.disj j i t s hj ht' hs p hp)]
      exact h.own j t ht' p hp
  · intro j t ht
    by_cases hj : j = i
    · subst hj; rw [hi] at ht; cases ht; simp [S.addrs]
    · exact h.nd j t (hset j t hj ht)
  · intro j j' t t' hjj ht ht' p hp hp'
    by_cases hj : j = i
    · subst hj; rw [hi] at ht; cases ht; simp [S.addrs] at hp
    · by_cases hj' : j' = i
      · subst hj'; rw [hi] at ht'; cases ht'; simp [S.addrs] at hp'
      · exact h.disj j j' t t' hjj (hset j t hj ht) (hset j' t' hj' ht') p hp hp'
  · intro p hp
    refine h.fresh p ?_
    have hp' : (if p ∈ s.addrs then none else w.heap p) ≠ none := hp
    split at hp'
    · exact absurd rfl hp'
    · exact hp'

theorem leaked_cleared {w : W} {i : Nat} {s : S} (hs : w.sets i = some s) (p : Nat) :
    Leaked (cleared w i s) p ↔ Leaked w p := by
  have ho : Owned (cleared w i s) p → Owned w p := by
    rintro ⟨j, t, ht, hp⟩
    by_cases hj : j = i
    · subst hj
      have : (cleared w j s).sets j = some { s with nodes := [] } := put_self _ _ _
      rw [this] at ht; cases ht; simp [S.addrs] at hp
    · unfold cleared at ht; rw [put_other _ _ hj] at ht
      exact ⟨j, t, ht, hp⟩
  have ho' : Owned w p → p ∉ s.addrs → Owned (cleared w i s) p := by
    rintro ⟨j, t, ht, hp⟩ hps
    by_cases hj : j = i
    · subst hj; rw [hs] at ht; cases ht; exact absurd hp hps
    · exact ⟨j, t, by unfold cleared; rw [put_other _ _ hj]; exact ht, hp⟩
  have hh : (cleared w i s).heap p = if p ∈ s.addrs then none else w.heap p := rfl
  unfold Leaked
  rw [hh]
  by_cases hps : p ∈ s.addrs
  · simp only [hps, if_true, ne_eq, not_true, false_and, false_iff]
    rintro ⟨_, h2⟩
    exact h2 ⟨i, s, hs, hps⟩
  · simp only [hps, if_false]
    constructor
    · rintro ⟨h1, h2⟩; exact ⟨h1, fun h => h2 (ho' h hps)⟩
    · rintro ⟨h1, h2⟩; exact ⟨h1, fun h => h2 (ho h)⟩

theorem leaked_put_none {w : W} (i p : Nat) (h : Leaked w p) : Leaked (w.put i none) p := by
  refine ⟨h.1, ?_⟩
  rintro ⟨j, t, ht, hp⟩
  rw [put_sets] at ht
  split at ht
  · cases ht
  · exact h.2 ⟨j, t, ht, hp⟩

theorem leaked_put_none_iff {w : W} {i : Nat} {s : S} (hs : w.sets i = some s) (he : s.nodes = []) (p : Nat) :
    Leaked (w.put i none) p ↔ Leaked w p := by
  refine ⟨?_, leaked_put_none i p⟩
  rintro ⟨h1, h2⟩
  refine ⟨h1, ?_⟩
  rintro ⟨j, t, ht, hp⟩
  by_cases hj : j = i
  · subst hj; rw [hs] at ht; cases ht; simp [S.addrs, he] at hp
  · exact h2 ⟨j, t, by rw [put_other _ _ hj]; exact ht, hp⟩

theorem leaked_put_new {w : W} {i : Nat} (hs : w.sets i = none) (a n p : Nat) :
    Leaked (w.put i (some ⟨a, n, []⟩)) p ↔ Leaked w p := by
  have ho : Owned (w.put i (some ⟨a, n, []⟩)) p ↔ Owned w p := by
    constructor
    · rintro ⟨j, t, ht, hp⟩
      by_cases hj : j = i
      · subst hj; rw [put_self] at ht; cases ht; simp [S.addrs] at hp
      · rw [put_other _ _ hj] at ht; exact ⟨j, t, ht, hp⟩
    · rintro ⟨j, t, ht, hp⟩
      have hj : j ≠ i := by rintro rfl; rw [hs] at ht; cases ht
      exact ⟨j, t, by rw [put_other _ _ hj]; exact ht, hp⟩
  unfold Leaked
  rw [ho]
  rfl

/-- What every step keeps. -/
structure Ok (w : W) (r : W × Bool) : Prop where
  inv : Inv r.1
  /-- blocks are lost for ever -/
  keep : ∀ p, Leaked w p → Leaked r.1 p
  /-- without an exception no block is lost -/
  same : r.2 = false → ∀ p, Leaked r.1 p → Leaked w p
  /-- with an exception one is -/
  lost : r.2 = true → ∃ p, Leaked r.1 p

theorem Ok.trans {w w1 : W} {r : W × Bool} (h : Ok w (w1, false)) (h' : Ok w1 r) : Ok w r :=
  ⟨h'.inv, fun p hp => h'.keep p (h.keep p hp), fun hr p hp => h.same rfl p (h'.same hr p hp), h'.lost⟩

theorem Ok.of_iff {w w1 : W} (hi : Inv w1) (h : ∀ p, Leaked w1 p ↔ Leaked w p) : Ok w (w1, false) :=
  ⟨hi, fun p hp => (h p).2 hp, fun _ p hp => (h p).1 hp, fun h => by cases h⟩

theorem Ok.refl {w : W} (h : Inv w) : Ok w (w, false) := .of_iff h (fun _ => Iff.rfl)

theorem ok_take {w : W} (h : Inv w) (a : Nat) : Ok w (w.take a, true) :=
  ⟨inv_take h a, fun p hp => (leaked_take h a p).2 (.inl hp), fun hr => (by cases hr), fun _ => ⟨w.next, (leaked_take h a _).2 (.inr rfl)⟩⟩

/-- An empty set takes over the nodes of another. -/
theorem ok_move {w : W} (h : Inv w) {i j : Nat} {s t : S} (hi : w.sets i = some s) (he : s.nodes = []) (hj : w.sets j = some t) :
    Ok w ((w.put i (some t)).put j (some { t with nodes := if i = j then t.nodes else [] }), false) := by
  by_cases hij : i = j
  · subst hij
    rw [hi] at hj
    cases hj
    have hw : (w.put i (some s)).put i (some { s with nodes := if i = i then s.nodes else [] }) = w := by
      cases w with
      | mk f hp n =>
        simp only [W.put, if_true, W.mk.injEq, and_true]
        funext l
        by_cases hl : l = i
        · subst hl; simp only [if_true]; exact hi.symm
        · simp only [if_neg hl]
    rw [hw]
    exact .refl h
  · have hs : ∀ l, ((w.put i (some t)).put j (some { t with nodes := if i = j then t.nodes else [] })).sets l =
        if l = j then some ⟨t.alloc, t.node, []⟩ else if l = i then some t else w.sets l := by
      intro l
      rw [put_sets, put_sets, if_neg hij]
    have hset : ∀ l u, ((w.put i (some t)).put j (some { t with nodes := if i = j then t.nodes else [] })).sets l = some u →
        (l = i ∧ u = t) ∨ u.nodes = [] ∨ (l ≠ i ∧ l ≠ j ∧ w.sets l = some u) := by
      intro l u hl
      rw [hs] at hl
      split at hl
      · cases hl; exact .inr (.inl rfl)
      · split at hl
        · cases hl; exact .inl ⟨‹_›, rfl⟩
        · exact .inr (.inr ⟨‹_›, ‹_›, hl⟩)
    refine .of_iff ⟨?_, ?_, ?_, h.fresh⟩ ?_
    · intro l u hl p hp
      rcases hset l u hl with ⟨_, rfl⟩ | h1 | ⟨_, _, h1⟩
      · exact h.own j u hj p hp
      · simp [S.addrs, h1] at hp
      · exact h.own l u h1 p hp
    · intro l u hl
      rcases hset l u hl with ⟨_, rfl⟩ | h1 | ⟨_, _, h1⟩
      · exact h.nd j u hj
      · simp [S.addrs, h1]
      · exact h.nd l u h1
    · intro l l' u u' hll hl hl' p hp hp'
      rcases hset l u hl with ⟨rfl, rfl⟩ | h1 | ⟨h1, h2, h3⟩
      · rcases hset l' u' hl' with ⟨rfl, rfl⟩ | h1 | ⟨h1, h2, h3⟩
        · exact hll rfl
        · simp [S.addrs, h1] at hp'
        · exact h.disj j l' u u' (Ne.symm h2) hj h3 p hp hp'
      · simp [S.addrs, h1] at hp
      · rcases hset l' u' hl' with ⟨rfl, rfl⟩ | h4 | ⟨h4, h5, h6⟩
        · exact h.disj l j u u' h2 h3 hj p hp hp'
        · simp [S.addrs, h4] at hp'
        · exact h.disj l l' u u' hll h3 h6 p hp hp'
    · intro p
      have ho : Owned ((w.put i (some t)).put j (some { t with nodes := if i = j then t.nodes else [] })) p ↔ Owned w p := by
        constructor
        · rintro ⟨l, u, hu, hp⟩
          rcases hset l u hu with ⟨_, rfl⟩ | h1 | ⟨_, _, h1⟩
          · exact ⟨j, u, hj, hp⟩
          · simp [S.addrs, h1] at hp
          · exact ⟨l, u, h1, hp⟩
        · rintro ⟨l, u, hu, hp⟩
          by_cases hlj : l = j
          · subst hlj; rw [hj] at hu; cases hu
            exact ⟨i, t, by rw [hs, if_neg hij, if_pos rfl], hp⟩
          · by_cases hli : l = i
            · subst hli; rw [hi] at hu; cases hu; simp [S.addrs, he] at hp
            · exact ⟨l, u, by rw [hs, if_neg hlj, if_neg hli]; exact hu, hp⟩
      unfold Leaked; rw [ho]; rfl

theorem insert_ok (bad : Nat → Bool) {w : W} (h : Inv w) {i : Nat} {s : S} (hs : w.sets i = some s) (k : Nat) :
    ∃ r, insert bad w i k = .ok r ∧ Ok w r ∧ ∃ s', r.1.sets i = some s' ∧ s'.alloc = s.alloc ∧ s'.node = s.node := by
  unfold insert
  rw [hs]
  simp only []
  split
  · exact ⟨_, rfl, .refl h, s, hs, rfl, rfl⟩
  · split
    · exact ⟨_, rfl, ok_take h _, s, hs, rfl, rfl⟩
    · exact ⟨_, rfl, .of_iff (inv_add h hs k) (leaked_add h hs k), _, put_self _ _ _, rfl, rfl⟩

theorem insertAll_ok (bad : Nat → Bool) (i : Nat) (l : List Nat) {w : W} (h : Inv w) {s : S} (hs : w.sets i = some s) :
    ∃ r, insertAll bad i l w = .ok r ∧ Ok w r ∧ ∃ s', r.1.sets i = some s' ∧ s'.alloc = s.alloc ∧ s'.node = s.node := by
  induction l generalizing w s with
  | nil => exact ⟨_, rfl, .refl h, s, hs, rfl, rfl⟩
  | cons k l ih =>
    obtain ⟨⟨w1, t⟩, h1, h2, s1, h3, h4, h5⟩ := insert_ok bad h hs k
    rw [insertAll, h1, Res.ok_bind]
    cases t with
    | true => exact ⟨_, rfl, h2, s1, h3, h4, h5⟩
    | false =>
      obtain ⟨r, h6, h7, s2, h8, h9, h10⟩ := ih h2.inv h3
      exact ⟨r, h6, h2.trans h7, s2, h8, by rw [h9, h4], by rw [h10, h5]⟩

theorem construct_ok (bad : Nat → Bool) {w : W} (h : Inv w) {i : Nat} (hi : w.sets i = none) (a n : Nat) (keys : List Nat) :
    ∃ r, construct bad w i ⟨a, n, []⟩ keys = .ok r ∧ Ok w r := by
  unfold construct
  rw [if_neg (by simp [hi])]
  obtain ⟨⟨w1, t⟩, h1, h2, _⟩ := insertAll_ok bad i keys (inv_put_empty h i a n) (put_self w i _)
  have h3 : Ok w (w.put i (some ⟨a, n, []⟩), false) := .of_iff (inv_put_empty h i a n) (leaked_put_new hi a n)
  rw [h1, Res.ok_bind]
  refine ⟨_, rfl, ?_⟩
  cases t with
  | false => exact h3.trans h2
  | true =>
    have h4 := h3.trans h2
    obtain ⟨p, hp⟩ := h4.lost rfl
    exact ⟨inv_put_none h4.inv i, fun p hp => leaked_put_none i p (h4.keep p hp), fun hr => (by cases hr), fun _ => ⟨p, leaked_put_none i p hp⟩⟩

/-- The one call that is not allowed: `emplace` of a key that is there, in a set with an allocator that is not the standard one. -/
def Allowed (w : W) : Op → Prop
  | .emplace i k => ∀ s, w.sets i = some s → s.node = 0 ∨ k ∉ s.nodes.map (·.1)
  | _ => True

/-- The program makes no such call: there is no such object, or there is already. -/
def Skips (w : W) : Op → Prop
  | .new i _ | .newList i _ _ | .newRange i _ _ => w.sets i ≠ none
  | .newCopy i j | .newMove i j => w.sets i ≠ none ∨ w.sets j = none
  | .insert i _ | .emplace i _ | .erase i _ | .clear i | .destroy i => w.sets i = none
  | .copy i j | .move i j => w.sets i = none ∨ w.sets j = none

theorem step_ok (d : Nat) (bad : Nat → Bool) {w : W} (h : Inv w) (op : Op) (ha : Allowed w op) :
    (step d bad w op = .throw .logic ∧ Skips w op) ∨ ∃ r, step d bad w op = .ok r ∧ Ok w r := by
  have hcon : ∀ i a n keys, (construct bad w i ⟨a, n, []⟩ keys = .throw .logic ∧ w.sets i ≠ none) ∨
      ∃ r, construct bad w i ⟨a, n, []⟩ keys = .ok r ∧ Ok w r := by
    intro i a n keys
    cases hi : w.sets i with
    | none => exact .inr (construct_ok bad h hi a n keys)
    | some s => left; refine ⟨?_, by simp⟩; unfold construct; exact if_pos (by simp [hi])
  cases op with
  | new i a => exact hcon i a a []
  | newList i a keys => exact hcon i a d keys
  | newRange i a keys =>
    cases hi : w.sets i with
    | some s => left; refine ⟨?_, by simp [Skips, hi]⟩; simp only [step, hi, Option.isSome_some, if_true]
    | none =>
      right
      obtain ⟨⟨w1, t⟩, h1, h2, s', h5, _⟩ := insertAll_ok bad i keys (inv_put_empty h i a a) (put_self w i _)
      have h3 : Ok w (w.put i (some ⟨a, a, []⟩), false) := .of_iff (inv_put_empty h i a a) (leaked_put_new hi a a)
      simp only [step, hi, Option.isSome_none, Bool.false_eq_true, if_false, h1, Res.ok_bind]
      have h4 := h3.trans h2
      cases t with
      | false => exact ⟨_, rfl, h4⟩
      | true =>
        simp only [if_true, clear_ok h4.inv h5, Res.ok_bind]
        refine ⟨_, rfl, ?_⟩
        have h6 : ∀ p, Leaked ((cleared w1 i s').put i none) p ↔ Leaked w1 p := fun p =>
          (leaked_put_none_iff (put_self _ _ _) rfl p).trans (leaked_cleared h5 p)
        obtain ⟨p, hp⟩ := h4.lost rfl
        exact ⟨inv_put_none (inv_cleared h4.inv h5) i, fun p hp => (h6 p).2 (h4.keep p hp), fun hr => (by cases hr), fun _ => ⟨p, (h6 p).2 hp⟩⟩
  | newCopy i j =>
    simp only [step]
    cases hj : w.sets j with
    | none => exact .inl ⟨rfl, .inr hj⟩
    | some t =>
      simp only []
      rcases hcon i t.alloc t.node (t.nodes.map (·.1)) with h1 | h1
      · exact .inl ⟨h1.1, .inl h1.2⟩
      · exact .inr h1
  | newMove i j =>
    simp only [step]
    cases hj : w.sets j with
    | none => exact .inl ⟨rfl, .inr hj⟩
    | some t =>
      simp only []
      cases hi : w.sets i with
      | some s => exact .inl ⟨rfl, .inl (by simp [hi])⟩
      | none =>
        right
        simp only [Option.isSome_none, Bool.false_eq_true, if_false]
        refine ⟨_, rfl, ?_⟩
        have hij : i ≠ j := by rintro rfl; rw [hi] at hj; cases hj
        have hset : ∀ l u, ((w.put j (some { t with nodes := [] })).put i (some t)).sets l = some u →
            (l = i ∧ u = t) ∨ (l = j ∧ u = { t with nodes := [] }) ∨ (l ≠ i ∧ l ≠ j ∧ w.sets l = some u) := by
          intro l u hl
          by_cases hli : l = i
          · subst hli; rw [put_self] at hl; cases hl; exact .inl ⟨rfl, rfl⟩
          · rw [put_other _ _ hli] at hl
            by_cases hlj : l = j
            · subst hlj; rw [put_self] at hl; cases hl; exact .inr (.inl ⟨rfl, rfl⟩)
            · rw [put_other _ _ hlj] at hl; exact .inr (.inr ⟨hli, hlj, hl⟩)
        refine .of_iff ?_ ?_
        · refine inv_put (inv_put_empty h j t.alloc t.node) i t (h.own j t hj) (h.nd j t hj) ?_
          intro l u hl hu p hp hpu
          by_cases hlj : l = j
          · subst hlj; rw [put_self] at hu; cases hu; simp [S.addrs] at hpu
          · rw [put_other _ _ hlj] at hu
            exact h.disj j l t u (Ne.symm hlj) hj hu p hp hpu
        · intro p
          have ho : Owned ((w.put j (some { t with nodes := [] })).put i (some t)) p ↔ Owned w p := by
            constructor
            · rintro ⟨l, u, hu, hp⟩
              rcases hset l u hu with ⟨_, rfl⟩ | ⟨_, rfl⟩ | ⟨_, _, h1⟩
              · exact ⟨j, u, hj, hp⟩
              · simp [S.addrs] at hp
              · exact ⟨l, u, h1, hp⟩
            · rintro ⟨l, u, hu, hp⟩
              by_cases hlj : l = j
              · subst hlj; rw [hj] at hu; cases hu
                exact ⟨i, t, put_self _ _ _, hp⟩
              · have hli : l ≠ i := by rintro rfl; rw [hi] at hu; cases hu
                exact ⟨l, u, by rw [put_other _ _ hli, put_other _ _ hlj]; exact hu, hp⟩
          unfold Leaked; rw [ho]; rfl
  | insert i k =>
    cases hi : w.sets i with
    | none => left; refine ⟨?_, hi⟩; simp only [step, insert, hi]
    | some s =>
      obtain ⟨r, h1, h2, _⟩ := insert_ok bad h hi k
      exact .inr ⟨r, h1, h2⟩
  | emplace i k =>
    cases hi : w.sets i with
    | none => left; refine ⟨?_, hi⟩; simp only [step, emplace, hi]
    | some s =>
      right
      simp only [step, emplace, hi]
      split
      · exact ⟨_, rfl, ok_take h _⟩
      · split
        · rename_i hk
          have hn : s.node = 0 := by
            rcases ha s hi with h1 | h1
            · exact h1
            · rw [List.any_eq_true] at hk
              obtain ⟨x, hx, hxk⟩ := hk
              exact absurd (List.mem_map.2 ⟨x, hx, by simpa using hxk⟩) h1
          have hg : (w.take s.node).heap w.next = some 0 := by
            show (if w.next = w.next then some s.node else _) = _
            rw [if_pos rfl, hn]
          rw [give_ok hg, Res.ok_bind]
          refine ⟨_, rfl, ?_⟩
          have hheap : ∀ q, (if q = w.next then none else (w.take s.node).heap q) = w.heap q := by
            intro q
            by_cases hq : q = w.next
            · rw [if_pos hq]
              cases hw : w.heap q with
              | none => rfl
              | some a => have := h.fresh q (by rw [hw]; simp); omega
            · rw [if_neg hq]
              show (if q = w.next then some s.node else w.heap q) = _
              rw [if_neg hq]
          refine .of_iff ⟨?_, h.nd, h.disj, ?_⟩ ?_
          · intro j t ht p hp
            exact (hheap p).trans (h.own j t ht p hp)
          · intro p hp
            have h1 : w.heap p ≠ none := by rw [← hheap p]; exact hp
            exact Nat.lt_succ_of_lt (h.fresh p h1)
          · intro p
            show (if p = w.next then none else (w.take s.node).heap p) ≠ none ∧ _ ↔ _
            rw [hheap]
            rfl
        · exact ⟨_, rfl, .of_iff (inv_add h hi k) (leaked_add h hi k)⟩
  | erase i k =>
    cases hi : w.sets i with
    | none => left; refine ⟨?_, hi⟩; simp only [step, erase, hi]
    | some s =>
      right
      simp only [step, erase, hi]
      cases hf : s.nodes.find? (·.1 == k) with
      | none => exact ⟨_, rfl, .refl h⟩
      | some x =>
        simp only []
        have hx : x ∈ s.nodes := List.mem_of_find?_eq_some hf
        have hxa : x.2 ∈ s.addrs := List.mem_map.2 ⟨x, hx, rfl⟩
        rw [give_ok (h.own i s hi x.2 hxa), Res.ok_bind]
        refine ⟨_, rfl, ?_⟩
        have had : ∀ p, p ∈ ({ s with nodes := s.nodes.filter (fun y => y.2 != x.2) } : S).addrs ↔ p ∈ s.addrs ∧ p ≠ x.2 := by
          intro p
          simp only [S.addrs, List.mem_map, List.mem_filter, bne_iff_ne, ne_eq]
          constructor
          · rintro ⟨y, ⟨h1, h2⟩, rfl⟩; exact ⟨⟨y, h1, rfl⟩, h2⟩
          · rintro ⟨⟨y, h1, rfl⟩, h2⟩; exact ⟨y, ⟨h1, h2⟩, rfl⟩
        have hset : ∀ j t, ({ w with heap := fun q => if q = x.2 then none else w.heap q }.put i
            (some { s with nodes := s.nodes.filter (fun y => y.2 != x.2) })).sets j = some t →
            (j = i ∧ t = { s with nodes := s.nodes.filter (fun y => y.2 != x.2) }) ∨ (j ≠ i ∧ w.sets j = some t) := by
          intro j t hj
          by_cases hji : j = i
          · subst hji; rw [put_self] at hj; cases hj; exact .inl ⟨rfl, rfl⟩
          · rw [put_other _ _ hji] at hj; exact .inr ⟨hji, hj⟩
        refine .of_iff ⟨?_, ?_, ?_, ?_⟩ ?_
        · intro j t hj p hp
          show (if p = x.2 then none else w.heap p) = _
          rcases hset j t hj with ⟨rfl, rfl⟩ | ⟨hji, hj⟩
          · have := (had p).1 hp
            rw [if_neg this.2]; exact h.own j s hi p this.1
          · rw [if_neg (by rintro rfl; exact h.disj j i t s hji hj hi _ hp hxa)]
            exact h.own j t hj p hp
        · intro j t hj
          rcases hset j t hj with ⟨rfl, rfl⟩ | ⟨hji, hj⟩
          · exact List.Sublist.nodup (List.filter_sublist.map _) (h.nd j s hi)
          · exact h.nd j t hj
        · intro j j' t t' hjj hj hj' p hp hp'
          rcases hset j t hj with ⟨rfl, rfl⟩ | ⟨hji, hj⟩
          · rcases hset j' t' hj' with ⟨rfl, rfl⟩ | ⟨hji', hj'⟩
            · exact hjj rfl
            · exact h.disj _ j' s t' hjj hi hj' p ((had p).1 hp).1 hp'
          · rcases hset j' t' hj' with ⟨rfl, rfl⟩ | ⟨hji', hj'⟩
            · exact h.disj j _ t s hjj ‹w.sets j = some t› hi p hp ((had p).1 hp').1
            · exact h.disj j j' t t' hjj hj hj' p hp hp'
        · intro p hp
          refine h.fresh p ?_
          have hp' : (if p = x.2 then none else w.heap p) ≠ none := hp
          split at hp'
          · exact absurd rfl hp'
          · exact hp'
        · intro p
          unfold Leaked
          show (if p = x.2 then none else w.heap p) ≠ none ∧ _ ↔ _
          by_cases hp : p = x.2
          · rw [if_pos hp]
            simp only [ne_eq, not_true, false_and, false_iff]
            rintro ⟨_, h2⟩
            exact h2 ⟨i, s, hi, by rw [hp]; exact hxa⟩
          · rw [if_neg hp]
            have ho : Owned ({ w with heap := fun q => if q = x.2 then none else w.heap q }.put i
                (some { s with nodes := s.nodes.filter (fun y => y.2 != x.2) })) p ↔ Owned w p := by
              constructor
              · rintro ⟨j, t, hj, hpt⟩
                rcases hset j t hj with ⟨rfl, rfl⟩ | ⟨hji, hj⟩
                · exact ⟨j, s, hi, ((had p).1 hpt).1⟩
                · exact ⟨j, t, hj, hpt⟩
              · rintro ⟨j, t, hj, hpt⟩
                by_cases hji : j = i
                · subst hji; rw [hi] at hj; cases hj
                  exact ⟨j, _, put_self _ _ _, (had p).2 ⟨hpt, hp⟩⟩
                · exact ⟨j, t, by rw [put_other _ _ hji]; exact hj, hpt⟩
            rw [ho]
  | clear i =>
    cases hi : w.sets i with
    | none => left; refine ⟨?_, hi⟩; simp only [step, clear, hi]; rfl
    | some s =>
      right
      simp only [step, clear_ok h hi, Res.ok_bind]
      exact ⟨_, rfl, .of_iff (inv_cleared h hi) (leaked_cleared hi)⟩
  | destroy i =>
    cases hi : w.sets i with
    | none => left; refine ⟨?_, hi⟩; simp only [step, clear, hi]; rfl
    | some s =>
      right
      simp only [step, clear_ok h hi, Res.ok_bind]
      exact ⟨_, rfl, .of_iff (inv_put_none (inv_cleared h hi) i)
        (fun p => (leaked_put_none_iff (put_self _ _ _) rfl p).trans (leaked_cleared hi p))⟩
  | copy i j =>
    cases hi : w.sets i with
    | none => left; refine ⟨?_, .inl hi⟩; simp only [step, clear, hi]; rfl
    | some s =>
      simp only [step, clear_ok h hi, Res.ok_bind]
      cases hj : (cleared w i s).sets j with
      | none =>
        left
        refine ⟨rfl, .inr ?_⟩
        unfold cleared at hj
        rw [put_sets] at hj; split at hj
        · cases hj
        · exact hj
      | some t =>
        right
        simp only []
        obtain ⟨r, h1, h2, _⟩ := insertAll_ok bad i (t.nodes.map (·.1)) (inv_cleared h hi) (s := { s with nodes := [] }) (put_self _ _ _)
        have h3 : Ok w (cleared w i s, false) := .of_iff (inv_cleared h hi) (leaked_cleared hi)
        exact ⟨r, h1, h3.trans h2⟩
  | move i j =>
    cases hi : w.sets i with
    | none => left; refine ⟨?_, .inl hi⟩; simp only [step, clear, hi]; rfl
    | some s =>
      simp only [step, clear_ok h hi, Res.ok_bind]
      cases hj : (cleared w i s).sets j with
      | none =>
        left
        refine ⟨rfl, .inr ?_⟩
        unfold cleared at hj
        rw [put_sets] at hj; split at hj
        · cases hj
        · exact hj
      | some t =>
        right
        simp only []
        refine ⟨_, rfl, ?_⟩
        have h3 : Ok w (cleared w i s, false) := .of_iff (inv_cleared h hi) (leaked_cleared hi)
        refine h3.trans ?_
        have hc := inv_cleared h hi
        have hci : (cleared w i s).sets i = some { s with nodes := [] } := put_self _ _ _
        revert hc hci hj
        generalize cleared w i s = w1
        intro hj hc hci
        exact ok_move hc hci rfl hj

end Verif.VectorSet.Mem
