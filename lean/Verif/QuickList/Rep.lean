import Verif.QuickList.Lemmas

/-! # The heap represents a state of the specification -/

namespace Verif.QuickList

/-- The heap `h` represents `σ`. -/
structure Rep (h : Heap) (σ : Abs) : Prop where
  ring : ∀ s L, σ.lists s = some L → RingOf h s L
  disj : ∀ s t L M, σ.lists s = some L → σ.lists t = some M → s ≠ t → ∀ x ∈ s :: L, x ∉ t :: M
  linked : ∀ s L a, σ.lists s = some L → a ∈ L → σ.st a = .linked
  sent : ∀ s L, σ.lists s = some L → σ.st s = .none
  linked' : ∀ a, σ.st a = .linked → ∃ s L, σ.lists s = some L ∧ a ∈ L
  free : ∀ a, σ.st a = .free → h.alive a = true ∧ h.fwd a = none ∧ h.bwd a = none
  stale : ∀ a, σ.st a = .stale → h.alive a = true
  dead : ∀ a, σ.Unused a → h.alive a = false

theorem rep_empty : Rep emptyHeap Abs.empty where
  ring := by intro s L h; simp [Abs.empty] at h
  disj := by intro s t L M h; simp [Abs.empty] at h
  linked := by intro s L a h; simp [Abs.empty] at h
  sent := by intro s L h; simp [Abs.empty] at h
  linked' := by intro a h; simp [Abs.empty] at h
  free := by intro a h; simp [Abs.empty] at h
  stale := by intro a h; simp [Abs.empty] at h
  dead := by intro a _; rfl

theorem Rep.avail {h : Heap} {σ : Abs} (hr : Rep h σ) {a : Nat} (ha : σ.Avail a) :
    h.alive a = true ∧ (∀ s L, σ.lists s = some L → a ∉ s :: L) := by
  refine ⟨?_, ?_⟩
  · rcases ha with ha | ha
    · exact (hr.free a ha).1
    · exact hr.stale a ha
  · intro s L hs hm
    rcases List.mem_cons.1 hm with rfl | hm
    · have := hr.sent _ _ hs
      rcases ha with ha | ha <;> simp [this] at ha
    · have := hr.linked _ _ _ hs hm
      rcases ha with ha | ha <;> simp [this] at ha

theorem Rep.unused {h : Heap} {σ : Abs} (hr : Rep h σ) {a : Nat} (ha : σ.Unused a) :
    h.alive a = false ∧ (∀ s L, σ.lists s = some L → a ∉ s :: L) := by
  refine ⟨hr.dead a ha, ?_⟩
  intro s L hs hm
  have := (hr.ring s L hs).alive a hm
  simp [hr.dead a ha] at this

/-- A change of one list `s` that stays away from the other lists and from the elements in no list. -/
theorem Rep.insert_core {h h' : Heap} {σ : Abs} (hr : Rep h σ) {s a : Nat} {L L' : List Nat}
    (hs : σ.lists s = some L) (ha : σ.Avail a) (hL' : ∀ x, x ∈ L' ↔ x = a ∨ x ∈ L)
    (hring : RingOf h' s L')
    (hf : ∀ x, x ∉ a :: s :: L → h'.fwd x = h.fwd x) (hb : ∀ x, x ∉ a :: s :: L → h'.bwd x = h.bwd x)
    (hal : h'.alive = h.alive) :
    Rep h' ((σ.setList s L').setSt a .linked) := by
  have hav := hr.avail ha
  have hlist : ∀ t M, t ≠ s → σ.lists t = some M → ∀ x ∈ t :: M, x ∉ a :: s :: L := by
    intro t M hts ht x hx
    rw [List.mem_cons]
    rintro (rfl | hx')
    · exact hav.2 t M ht hx
    · exact hr.disj t s M L ht hs hts x hx hx'
  have hsa : s ≠ a := fun h => hav.2 s L hs (by simp [h])
  have hout : ∀ x, x ≠ a → (σ.st x = .free ∨ σ.st x = .stale) → x ∉ a :: s :: L := by
    intro x hxa hx hm
    rcases List.mem_cons.1 hm with h | hm
    · exact hxa h
    · exact (hr.avail hx).2 s L hs hm
  constructor
  · intro t M ht
    by_cases hts : t = s
    · subst hts
      simp [Abs.setList, Abs.setSt] at ht
      subst ht; exact hring
    · simp [Abs.setList, Abs.setSt, upd, hts] at ht
      refine (hr.ring t M ht).frame ?_ ?_ ?_
      · exact fun x hx => hf x (hlist t M hts ht x hx)
      · exact fun x hx => hb x (hlist t M hts ht x hx)
      · intro x _; rw [hal]
  · have key : ∀ t M, t ≠ s → σ.lists t = some M → ∀ x ∈ t :: M, x ∉ s :: L' := by
      intro t M hts ht x hx hm
      refine hlist t M hts ht x hx ?_
      simp only [List.mem_cons, hL'] at hm ⊢
      rcases hm with h | h | h
      · exact Or.inr (Or.inl h)
      · exact Or.inl h
      · exact Or.inr (Or.inr h)
    intro t u M N ht hu htu x hx hx'
    simp only [Abs.setList, Abs.setSt] at ht hu
    by_cases hts : t = s
    · subst hts
      simp at ht; subst ht
      rw [upd_other _ _ (Ne.symm htu)] at hu
      exact key u N (Ne.symm htu) hu x hx' hx
    · rw [upd_other _ _ hts] at ht
      by_cases hus : u = s
      · subst hus
        simp at hu; subst hu
        exact key t M hts ht x hx hx'
      · rw [upd_other _ _ hus] at hu
        exact hr.disj t u M N ht hu htu x hx hx'
  · intro t M x ht hx
    simp only [Abs.setList, Abs.setSt] at ht ⊢
    by_cases hxa : x = a
    · subst hxa; simp
    rw [upd_other _ _ hxa]
    by_cases hts : t = s
    · subst hts
      simp at ht; subst ht
      rw [hL'] at hx
      exact hr.linked _ _ _ hs (hx.resolve_left hxa)
    · rw [upd_other _ _ hts] at ht
      exact hr.linked _ _ _ ht hx
  · intro t M ht
    simp only [Abs.setList, Abs.setSt] at ht ⊢
    by_cases hts : t = s
    · subst hts
      rw [upd_other _ _ hsa]
      exact hr.sent _ _ hs
    · rw [upd_other _ _ hts] at ht
      rw [upd_other _ _ (fun h => hav.2 t M ht (by simp [h]))]
      exact hr.sent _ _ ht
  · intro x hx
    simp only [Abs.setList, Abs.setSt] at hx ⊢
    by_cases hxa : x = a
    · subst hxa
      exact ⟨s, L', by simp, by simp [hL']⟩
    · rw [upd_other _ _ hxa] at hx
      obtain ⟨t, M, ht, hm⟩ := hr.linked' x hx
      by_cases hts : t = s
      · subst hts
        rw [hs] at ht; cases ht
        exact ⟨t, L', by simp, by rw [hL']; exact Or.inr hm⟩
      · exact ⟨t, M, by rw [upd_other _ _ hts]; exact ht, hm⟩
  · intro x hx
    simp only [Abs.setList, Abs.setSt] at hx
    by_cases hxa : x = a
    · subst hxa; simp at hx
    · rw [upd_other _ _ hxa] at hx
      rw [hal, hf x (hout x hxa (Or.inl hx)), hb x (hout x hxa (Or.inl hx))]
      exact hr.free x hx
  · intro x hx
    simp only [Abs.setList, Abs.setSt] at hx
    by_cases hxa : x = a
    · subst hxa; simp at hx
    · rw [upd_other _ _ hxa] at hx
      rw [hal]; exact hr.stale x hx
  · intro x hx
    simp only [Abs.Unused, Abs.setList, Abs.setSt] at hx
    rw [hal]
    refine hr.dead x ⟨?_, ?_⟩
    · by_cases hxa : x = a
      · subst hxa; simp at hx
      · rw [upd_other _ _ hxa] at hx; exact hx.1
    · by_cases hxs : x = s
      · subst hxs; simp at hx
      · rw [upd_other _ _ hxs] at hx; exact hx.2

theorem Rep.insertAfter {h : Heap} {σ : Abs} (hr : Rep h σ) {s p a : Nat} {L L' X Y : List Nat}
    (hs : σ.lists s = some L) (ha : σ.Avail a) (he : s :: L = X ++ p :: Y) (he' : s :: L' = X ++ p :: a :: Y) :
    ∃ h', insertAfter h p a = .ok h' ∧ Rep h' ((σ.setList s L').setSt a .linked) := by
  have hav := hr.avail ha
  have hR := hr.ring s L hs
  obtain ⟨n, Z, hZ, hf, hb, hmem, -, -⟩ := hR.next he
  have hpm : p ∈ s :: L := by rw [he]; simp
  have hsa : s ≠ a := fun h => hav.2 s L hs (by simp [h])
  refine ⟨_, insertAfter_eq (hR.alive p hpm) hav.1 (hR.alive n hmem) hf hb, ?_⟩
  refine hr.insert_core hs ha ?_ (hR.insert he he' (hav.2 s L hs) hav.1 hf hb) ?_ ?_ rfl
  · intro x
    have h1 : x ∈ s :: L' ↔ x = a ∨ x ∈ s :: L := by
      rw [he', he]; simp only [List.mem_append, List.mem_cons]
      constructor
      · rintro (h | h | h | h)
        · exact Or.inr (Or.inl h)
        · exact Or.inr (Or.inr (Or.inl h))
        · exact Or.inl h
        · exact Or.inr (Or.inr (Or.inr h))
      · rintro (h | h | h | h)
        · exact Or.inr (Or.inr (Or.inl h))
        · exact Or.inl h
        · exact Or.inr (Or.inl h)
        · exact Or.inr (Or.inr (Or.inr h))
    simp only [List.mem_cons] at h1
    by_cases hxs : x = s
    · subst hxs
      have hn1 := (List.nodup_cons.1 hR.nodup).1
      have hn2 := (List.nodup_cons.1 (hR.insert he he' (hav.2 x L hs) hav.1 hf hb).nodup).1
      simp [hn1, hn2, hsa]
    · simpa [hxs] using h1
  · intro x hx
    have h1 : x ≠ a := fun h => hx (by simp [h])
    have h2 : x ≠ p := fun h => hx (by rw [h]; exact List.mem_cons_of_mem _ hpm)
    simp [upd, h1, h2]
  · intro x hx
    have h1 : x ≠ a := fun h => hx (by simp [h])
    have h2 : x ≠ n := fun h => hx (by rw [h]; exact List.mem_cons_of_mem _ hmem)
    simp [upd, h1, h2]

/-- `insert_before(p, a)` where the closed sequence `L ++ [s]` is `X ++ p :: Y`. -/
theorem Rep.insertBefore {h : Heap} {σ : Abs} (hr : Rep h σ) {s p a : Nat} {L L' X Y : List Nat}
    (hs : σ.lists s = some L) (ha : σ.Avail a) (he : L ++ [s] = X ++ p :: Y) (he' : L' ++ [s] = X ++ a :: p :: Y) :
    ∃ h', insertBefore h p a = .ok h' ∧ Rep h' ((σ.setList s L').setSt a .linked) := by
  have hav := hr.avail ha
  have hR := hr.ring s L hs
  obtain ⟨P, q, hP⟩ : ∃ P q, s :: X = P ++ [q] :=
    ⟨(s :: X).dropLast, (s :: X).getLast (by simp), (List.dropLast_concat_getLast (by simp)).symm⟩
  have hW : ∃ W, p :: Y = W ++ [s] := by
    refine ⟨(p :: Y).dropLast, ?_⟩
    have h1 := List.dropLast_concat_getLast (l := p :: Y) (by simp)
    have h2 : (L ++ [s]).getLast (by simp) = (p :: Y).getLast (by simp) := by
      simp only [he, List.getLast_append_of_ne_nil _ (List.cons_ne_nil p Y)]
    rw [List.getLast_concat] at h2
    rw [← h2] at h1
    exact h1.symm
  obtain ⟨W, hW⟩ := hW
  have hL : L = X ++ W := by
    rw [hW, ← List.append_assoc] at he
    exact (List.append_inj' he rfl).1
  have hL' : L' = X ++ a :: W := by
    have : L' ++ [s] = X ++ a :: W ++ [s] := by rw [he', hW]; simp
    exact (List.append_inj' this rfl).1
  have e1 : s :: L = P ++ q :: W := by rw [hL, ← List.cons_append, hP]; simp
  have e2 : s :: L' = P ++ q :: a :: W := by rw [hL', ← List.cons_append, hP]; simp
  obtain ⟨n, Z, hZ, hf, hb, hmem, -, -⟩ := hR.next e1
  have hn : n = p := by
    rw [← hW] at hZ; simp at hZ; exact hZ.1.symm
  subst hn
  have hqm : q ∈ s :: L := by rw [e1]; simp
  rw [insertBefore_eq (hR.alive q hqm) hav.1 (hR.alive n hmem) hf hb]
  exact hr.insertAfter hs ha e1 e2

theorem Rep.exclude {h : Heap} {σ : Abs} (hr : Rep h σ) {s a : Nat} {X Y : List Nat}
    (hs : σ.lists s = some (X ++ a :: Y)) :
    ∃ h', exclude h a = .ok h' ∧ Rep h' ((σ.setList s (X ++ Y)).setSt a .free) := by
  have hR := hr.ring s _ hs
  obtain ⟨P, p, n, Z, hP, hZ, h1, h2, h3, h4, -, -⟩ := hR.around
  have hpm : p ∈ s :: (X ++ a :: Y) := by
    have : p ∈ s :: X := by rw [hP]; simp
    simp at this ⊢
    rcases this with h | h
    · exact Or.inl h
    · exact Or.inr (Or.inl h)
  have hnm : n ∈ s :: (X ++ a :: Y) := by
    have : n ∈ Y ++ [s] := by rw [hZ]; simp
    simp at this ⊢
    rcases this with h | h
    · exact Or.inr (Or.inr (Or.inr h))
    · exact Or.inl h
  have ham : a ∈ s :: (X ++ a :: Y) := by simp
  refine ⟨_, exclude_eq (hR.alive p hpm) (hR.alive a ham) (hR.alive n hnm) h1 h2 h3 h4, ?_⟩
  have hnew := hR.remove h3 h2
  have hnd := hR.nodup
  have haX : a ∉ X ++ Y := by
    simp only [List.nodup_cons, List.nodup_append, List.mem_append, List.mem_cons] at hnd ⊢
    rintro (h | h)
    · exact hnd.2.2.2 a h a (Or.inl rfl) rfl
    · exact hnd.2.2.1.1 h
  have hsa : s ≠ a := by
    rintro rfl; simp at hnd
  have hsub : ∀ x, x ∈ X ++ Y → x ∈ X ++ a :: Y := by
    intro x hx; simp at hx ⊢
    rcases hx with h | h
    · exact Or.inl h
    · exact Or.inr (Or.inr h)
  have hsup : ∀ x, x ∈ X ++ a :: Y → x ≠ a → x ∈ X ++ Y := by
    intro x hx hxa; simp at hx ⊢
    rcases hx with h | h | h
    · exact Or.inl h
    · exact absurd h hxa
    · exact Or.inr h
  have hother : ∀ t M, t ≠ s → σ.lists t = some M → ∀ x ∈ t :: M, x ∉ s :: (X ++ a :: Y) :=
    fun t M hts ht x hx => hr.disj t s M _ ht hs hts x hx
  have hout : ∀ x, (σ.st x = .free ∨ σ.st x = .stale) → x ∉ s :: (X ++ a :: Y) :=
    fun x hx => (hr.avail hx).2 s _ hs
  have hf : ∀ x, x ∉ s :: (X ++ a :: Y) → upd (upd h.fwd p (some n)) a none x = h.fwd x := by
    intro x hx
    have e1 : x ≠ a := fun e => hx (e ▸ ham)
    have e2 : x ≠ p := fun e => hx (e ▸ hpm)
    simp [upd, e1, e2]
  have hb : ∀ x, x ∉ s :: (X ++ a :: Y) → upd (upd h.bwd n (some p)) a none x = h.bwd x := by
    intro x hx
    have e1 : x ≠ a := fun e => hx (e ▸ ham)
    have e2 : x ≠ n := fun e => hx (e ▸ hnm)
    simp [upd, e1, e2]
  constructor
  · intro t M ht
    simp only [Abs.setList, Abs.setSt] at ht
    by_cases hts : t = s
    · subst hts; simp at ht; subst ht; exact hnew
    · rw [upd_other _ _ hts] at ht
      exact (hr.ring t M ht).frame (fun x hx => hf x (hother t M hts ht x hx))
        (fun x hx => hb x (hother t M hts ht x hx)) (fun _ _ => rfl)
  · have key : ∀ t M, t ≠ s → σ.lists t = some M → ∀ x ∈ t :: M, x ∉ s :: (X ++ Y) := by
      intro t M hts ht x hx hm
      refine hother t M hts ht x hx ?_
      rcases List.mem_cons.1 hm with e | e
      · exact List.mem_cons.2 (Or.inl e)
      · exact List.mem_cons_of_mem _ (hsub x e)
    intro t u M N ht hu htu x hx hx'
    simp only [Abs.setList, Abs.setSt] at ht hu
    by_cases hts : t = s
    · subst hts
      simp at ht; subst ht
      rw [upd_other _ _ (Ne.symm htu)] at hu
      exact key u N (Ne.symm htu) hu x hx' hx
    · rw [upd_other _ _ hts] at ht
      by_cases hus : u = s
      · subst hus
        simp at hu; subst hu
        exact key t M hts ht x hx hx'
      · rw [upd_other _ _ hus] at hu
        exact hr.disj t u M N ht hu htu x hx hx'
  · intro t M x ht hx
    simp only [Abs.setList, Abs.setSt] at ht ⊢
    by_cases hts : t = s
    · subst hts
      simp at ht; subst ht
      rw [upd_other _ _ (fun e : x = a => haX (e ▸ hx))]
      exact hr.linked _ _ _ hs (hsub x hx)
    · rw [upd_other _ _ hts] at ht
      have hxa : x ≠ a := fun e => hother t M hts ht x (by simp [hx]) (e ▸ ham)
      rw [upd_other _ _ hxa]
      exact hr.linked _ _ _ ht hx
  · intro t M ht
    simp only [Abs.setList, Abs.setSt] at ht ⊢
    by_cases hts : t = s
    · subst hts
      rw [upd_other _ _ hsa]; exact hr.sent _ _ hs
    · rw [upd_other _ _ hts] at ht
      have hxa : t ≠ a := fun e => hother t M hts ht t (by simp) (e ▸ ham)
      rw [upd_other _ _ hxa]
      exact hr.sent _ _ ht
  · intro x hx
    simp only [Abs.setList, Abs.setSt] at hx ⊢
    by_cases hxa : x = a
    · subst hxa; simp at hx
    · rw [upd_other _ _ hxa] at hx
      obtain ⟨t, M, ht, hm⟩ := hr.linked' x hx
      by_cases hts : t = s
      · subst hts
        rw [hs] at ht; cases ht
        exact ⟨t, X ++ Y, by simp, hsup x hm hxa⟩
      · exact ⟨t, M, by rw [upd_other _ _ hts]; exact ht, hm⟩
  · intro x hx
    simp only [Abs.setList, Abs.setSt] at hx
    by_cases hxa : x = a
    · subst hxa
      exact ⟨hR.alive x ham, by simp, by simp⟩
    · rw [upd_other _ _ hxa] at hx
      have := hr.free x hx
      refine ⟨this.1, ?_, ?_⟩
      · exact (hf x (hout x (Or.inl hx))).trans this.2.1
      · exact (hb x (hout x (Or.inl hx))).trans this.2.2
  · intro x hx
    simp only [Abs.setList, Abs.setSt] at hx
    by_cases hxa : x = a
    · subst hxa; simp at hx
    · rw [upd_other _ _ hxa] at hx
      exact hr.stale x hx
  · intro x hx
    simp only [Abs.Unused, Abs.setList, Abs.setSt] at hx
    refine hr.dead x ⟨?_, ?_⟩
    · by_cases hxa : x = a
      · subst hxa; simp at hx
      · rw [upd_other _ _ hxa] at hx; exact hx.1
    · by_cases hxs : x = s
      · subst hxs; simp at hx
      · rw [upd_other _ _ hxs] at hx; exact hx.2

theorem Rep.included_linked {h : Heap} {σ : Abs} (hr : Rep h σ) {s a : Nat} {X Y : List Nat}
    (hs : σ.lists s = some (X ++ a :: Y)) : included h a = .ok true := by
  have hR := hr.ring s _ hs
  obtain ⟨P, p, n, Z, hP, hZ, h1, h2, h3, h4, -, -⟩ := hR.around
  simp [included, rd, hR.alive a (by simp), h3]

theorem Rep.included_free {h : Heap} {σ : Abs} (hr : Rep h σ) {a : Nat} (ha : σ.st a = .free) :
    included h a = .ok false := by
  have := hr.free a ha
  simp [included, rd, this.1, this.2.1]

theorem Rep.safeExclude_linked {h : Heap} {σ : Abs} (hr : Rep h σ) {s a : Nat} {X Y : List Nat}
    (hs : σ.lists s = some (X ++ a :: Y)) :
    ∃ h', safeExclude h a = .ok h' ∧ Rep h' ((σ.setList s (X ++ Y)).setSt a .free) := by
  obtain ⟨h', h1, h2⟩ := hr.exclude hs
  refine ⟨h', ?_, h2⟩
  simp [safeExclude, hr.included_linked hs, h1]

theorem Rep.safeExclude_free {h : Heap} {σ : Abs} (hr : Rep h σ) {a : Nat} (ha : σ.st a = .free) :
    safeExclude h a = .ok h := by
  simp [safeExclude, hr.included_free ha]

theorem Rep.newElem {h : Heap} {σ : Abs} (hr : Rep h σ) {a : Nat} (ha : σ.Unused a) :
    ∃ h', newElem h a = .ok h' ∧ Rep h' (σ.setSt a .free) := by
  have hu := hr.unused ha
  refine ⟨_, by rw [QuickList.newElem, hu.1]; rfl, ?_⟩
  have hne : ∀ s L, σ.lists s = some L → ∀ x ∈ s :: L, x ≠ a := by
    intro s L hs x hx e; exact hu.2 s L hs (e ▸ hx)
  constructor
  · intro s L hs
    refine (hr.ring s L hs).frame ?_ ?_ ?_ <;> intro x hx <;> exact upd_other _ _ (hne s L hs x hx)
  · exact hr.disj
  · intro s L x hs hx
    simp only [Abs.setSt]
    rw [upd_other _ _ (hne s L hs x (by simp [hx]))]
    exact hr.linked s L x hs hx
  · intro s L hs
    simp only [Abs.setSt]
    rw [upd_other _ _ (hne s L hs s (by simp))]
    exact hr.sent s L hs
  · intro x hx
    simp only [Abs.setSt] at hx
    by_cases hxa : x = a
    · subst hxa; simp at hx
    · rw [upd_other _ _ hxa] at hx
      exact hr.linked' x hx
  · intro x hx
    simp only [Abs.setSt] at hx
    by_cases hxa : x = a
    · subst hxa; simp
    · rw [upd_other _ _ hxa] at hx
      simpa [upd, hxa] using hr.free x hx
  · intro x hx
    simp only [Abs.setSt] at hx
    by_cases hxa : x = a
    · subst hxa; simp
    · rw [upd_other _ _ hxa] at hx
      simpa [upd, hxa] using hr.stale x hx
  · intro x hx
    simp only [Abs.setSt, Abs.Unused] at hx
    by_cases hxa : x = a
    · subst hxa; simp at hx
    · rw [upd_other _ _ hxa] at hx
      simpa [upd, hxa] using hr.dead x hx

theorem Rep.kill_free {h : Heap} {σ : Abs} (hr : Rep h σ) {a : Nat} (ha : σ.Avail a) :
    ∃ h', kill h a = .ok h' ∧ Rep h' (σ.setSt a .none) := by
  have hu := hr.avail ha
  refine ⟨_, by rw [QuickList.kill, hu.1]; rfl, ?_⟩
  have hne : ∀ s L, σ.lists s = some L → ∀ x ∈ s :: L, x ≠ a := by
    intro s L hs x hx e; exact hu.2 s L hs (e ▸ hx)
  constructor
  · intro s L hs
    refine (hr.ring s L hs).frame (fun _ _ => rfl) (fun _ _ => rfl) ?_
    intro x hx; exact upd_other _ _ (hne s L hs x hx)
  · exact hr.disj
  · intro s L x hs hx
    simp only [Abs.setSt]
    rw [upd_other _ _ (hne s L hs x (by simp [hx]))]
    exact hr.linked s L x hs hx
  · intro s L hs
    simp only [Abs.setSt]
    rw [upd_other _ _ (hne s L hs s (by simp))]
    exact hr.sent s L hs
  · intro x hx
    simp only [Abs.setSt] at hx
    by_cases hxa : x = a
    · subst hxa; simp at hx
    · rw [upd_other _ _ hxa] at hx
      exact hr.linked' x hx
  · intro x hx
    simp only [Abs.setSt] at hx
    by_cases hxa : x = a
    · subst hxa; simp at hx
    · rw [upd_other _ _ hxa] at hx
      simpa [upd, hxa] using hr.free x hx
  · intro x hx
    simp only [Abs.setSt] at hx
    by_cases hxa : x = a
    · subst hxa; simp at hx
    · rw [upd_other _ _ hxa] at hx
      simpa [upd, hxa] using hr.stale x hx
  · intro x hx
    simp only [Abs.setSt, Abs.Unused] at hx
    by_cases hxa : x = a
    · subst hxa; simp
    · rw [upd_other _ _ hxa] at hx
      simpa [upd, hxa] using hr.dead x hx

theorem Rep.newList {h : Heap} {σ : Abs} (hr : Rep h σ) {s : Nat} (ha : σ.Unused s) :
    ∃ h', newList h s = .ok h' ∧ Rep h' (σ.setList s []) := by
  have hu := hr.unused ha
  refine ⟨_, by rw [QuickList.newList, hu.1]; rfl, ?_⟩
  have hne : ∀ t L, σ.lists t = some L → ∀ x ∈ t :: L, x ≠ s := by
    intro t L hs x hx e; exact hu.2 t L hs (e ▸ hx)
  constructor
  · intro t L ht
    simp only [Abs.setList] at ht
    by_cases hts : t = s
    · subst hts; simp at ht; subst ht
      exact ⟨by simp [Chain], by simp, by simp⟩
    · rw [upd_other _ _ hts] at ht
      refine (hr.ring t L ht).frame ?_ ?_ ?_ <;> intro x hx <;> exact upd_other _ _ (hne t L ht x hx)
  · intro t u M N ht hu' htu x hx hx'
    simp only [Abs.setList] at ht hu'
    by_cases hts : t = s
    · subst hts
      simp at ht; subst ht
      rw [upd_other _ _ (Ne.symm htu)] at hu'
      simp at hx; subst hx
      exact hu.2 u N hu' hx'
    · rw [upd_other _ _ hts] at ht
      by_cases hus : u = s
      · subst hus
        simp at hu'; subst hu'
        simp at hx'; subst hx'
        exact hu.2 t M ht hx
      · rw [upd_other _ _ hus] at hu'
        exact hr.disj t u M N ht hu' htu x hx hx'
  · intro t L x ht hx
    simp only [Abs.setList] at ht
    by_cases hts : t = s
    · subst hts; simp at ht; subst ht; simp at hx
    · rw [upd_other _ _ hts] at ht; exact hr.linked t L x ht hx
  · intro t L ht
    simp only [Abs.setList] at ht
    by_cases hts : t = s
    · subst hts; exact ha.1
    · rw [upd_other _ _ hts] at ht; exact hr.sent t L ht
  · intro x hx
    obtain ⟨t, L, ht, hm⟩ := hr.linked' x hx
    have hts : t ≠ s := hne t L ht t (by simp)
    exact ⟨t, L, by simp only [Abs.setList]; rw [upd_other _ _ hts]; exact ht, hm⟩
  · intro x hx
    have hxs : x ≠ s := by
      rintro rfl
      have := ha.1
      simp only [Abs.setList] at hx
      simp [this] at hx
    simpa [upd, hxs] using hr.free x hx
  · intro x hx
    have hxs : x ≠ s := by
      rintro rfl
      have := ha.1
      simp only [Abs.setList] at hx
      simp [this] at hx
    simpa [upd, hxs] using hr.stale x hx
  · intro x hx
    simp only [Abs.Unused, Abs.setList] at hx
    by_cases hxs : x = s
    · subst hxs; simp at hx
    · rw [upd_other _ _ hxs] at hx
      simpa [upd, hxs] using hr.dead x hx

theorem Rep.clear {h : Heap} {σ : Abs} (hr : Rep h σ) {s : Nat} {L : List Nat} (hs : σ.lists s = some L) :
    ∃ h', clear h s = .ok h' ∧ Rep h' ((σ.setList s []).setStale L) := by
  have hR := hr.ring s L hs
  have hal := hR.alive s (by simp)
  refine ⟨{ h with fwd := upd h.fwd s (some s), bwd := upd h.bwd s (some s) }, ?_, ?_⟩
  · simp [QuickList.clear, Single.clear, wr, hal]
  have hother : ∀ t M, t ≠ s → σ.lists t = some M → ∀ x ∈ t :: M, x ∉ s :: L :=
    fun t M hts ht x hx => hr.disj t s M _ ht hs hts x hx
  constructor
  · intro t M ht
    simp only [Abs.setList, Abs.setStale] at ht
    by_cases hts : t = s
    · subst hts; simp at ht; subst ht
      exact ⟨by simp [Chain], by simp, by simp [hal]⟩
    · rw [upd_other _ _ hts] at ht
      refine (hr.ring t M ht).frame ?_ ?_ (fun _ _ => rfl) <;> intro x hx <;>
        exact upd_other _ _ (fun e => hother t M hts ht x hx (by simp [e]))
  · intro t u M N ht hu htu x hx hx'
    simp only [Abs.setList, Abs.setStale] at ht hu
    by_cases hts : t = s
    · subst hts
      simp at ht; subst ht
      rw [upd_other _ _ (Ne.symm htu)] at hu
      simp at hx; subst hx
      exact hother u N (Ne.symm htu) hu x hx' (by simp)
    · rw [upd_other _ _ hts] at ht
      by_cases hus : u = s
      · subst hus
        simp at hu; subst hu
        simp at hx'; subst hx'
        exact hother t M hts ht x hx (by simp)
      · rw [upd_other _ _ hus] at hu
        exact hr.disj t u M N ht hu htu x hx hx'
  · intro t M x ht hx
    simp only [Abs.setList, Abs.setStale] at ht ⊢
    by_cases hts : t = s
    · subst hts; simp at ht; subst ht; simp at hx
    · rw [upd_other _ _ hts] at ht
      have : x ∉ L := fun e => hother t M hts ht x (by simp [hx]) (by simp [e])
      simp [this, hr.linked t M x ht hx]
  · intro t M ht
    simp only [Abs.setList, Abs.setStale] at ht ⊢
    by_cases hts : t = s
    · subst hts
      have := (List.nodup_cons.1 hR.nodup).1
      simp [this, hr.sent t L hs]
    · rw [upd_other _ _ hts] at ht
      have : t ∉ L := fun e => hother t M hts ht t (by simp) (by simp [e])
      simp [this, hr.sent t M ht]
  · intro x hx
    simp only [Abs.setList, Abs.setStale] at hx ⊢
    by_cases hxL : x ∈ L
    · simp [hxL] at hx
    · simp [hxL] at hx
      obtain ⟨t, M, ht, hm⟩ := hr.linked' x hx
      have hts : t ≠ s := by rintro rfl; rw [hs] at ht; cases ht; exact hxL hm
      exact ⟨t, M, by rw [upd_other _ _ hts]; exact ht, hm⟩
  · intro x hx
    simp only [Abs.setList, Abs.setStale] at hx
    by_cases hxL : x ∈ L
    · simp [hxL] at hx
    · simp [hxL] at hx
      have hxs : x ≠ s := by rintro rfl; simp [hr.sent _ _ hs] at hx
      simpa [upd, hxs] using hr.free x hx
  · intro x hx
    simp only [Abs.setList, Abs.setStale] at hx
    by_cases hxL : x ∈ L
    · exact hR.alive x (by simp [hxL])
    · simp [hxL] at hx; exact hr.stale x hx
  · intro x hx
    simp only [Abs.Unused, Abs.setList, Abs.setStale] at hx
    by_cases hxL : x ∈ L
    · simp [hxL] at hx
    · simp [hxL] at hx
      by_cases hxs : x = s
      · subst hxs; simp at hx
      · rw [upd_other _ _ hxs] at hx; exact hr.dead x hx

theorem Rep.destroyList {h : Heap} {σ : Abs} (hr : Rep h σ) {s : Nat} {L : List Nat} (hs : σ.lists s = some L) :
    ∃ h', kill h s = .ok h' ∧ Rep h' ((σ.dropList s).setStale L) := by
  have hR := hr.ring s L hs
  have hal := hR.alive s (by simp)
  refine ⟨_, by rw [QuickList.kill, hal]; rfl, ?_⟩
  have hother : ∀ t M, t ≠ s → σ.lists t = some M → ∀ x ∈ t :: M, x ∉ s :: L :=
    fun t M hts ht x hx => hr.disj t s M _ ht hs hts x hx
  have hlst : ∀ t M, upd σ.lists s none t = some M → t ≠ s ∧ σ.lists t = some M := by
    intro t M ht
    by_cases hts : t = s
    · subst hts; simp at ht
    · rw [upd_other _ _ hts] at ht; exact ⟨hts, ht⟩
  constructor
  · intro t M ht
    obtain ⟨hts, ht⟩ := hlst t M ht
    refine (hr.ring t M ht).frame (fun _ _ => rfl) (fun _ _ => rfl) ?_
    intro x hx
    exact upd_other _ _ (fun e => hother t M hts ht x hx (by simp [e]))
  · intro t u M N ht hu htu x hx hx'
    exact hr.disj t u M N (hlst t M ht).2 (hlst u N hu).2 htu x hx hx'
  · intro t M x ht hx
    obtain ⟨hts, ht⟩ := hlst t M ht
    have : x ∉ L := fun e => hother t M hts ht x (by simp [hx]) (by simp [e])
    simp [Abs.setStale, Abs.dropList, this, hr.linked t M x ht hx]
  · intro t M ht
    obtain ⟨hts, ht⟩ := hlst t M ht
    have : t ∉ L := fun e => hother t M hts ht t (by simp) (by simp [e])
    simp [Abs.setStale, Abs.dropList, this, hr.sent t M ht]
  · intro x hx
    simp only [Abs.dropList, Abs.setStale] at hx ⊢
    by_cases hxL : x ∈ L
    · simp [hxL] at hx
    · simp [hxL] at hx
      obtain ⟨t, M, ht, hm⟩ := hr.linked' x hx
      have hts : t ≠ s := by rintro rfl; rw [hs] at ht; cases ht; exact hxL hm
      exact ⟨t, M, by rw [upd_other _ _ hts]; exact ht, hm⟩
  · intro x hx
    simp only [Abs.dropList, Abs.setStale] at hx
    by_cases hxL : x ∈ L
    · simp [hxL] at hx
    · simp [hxL] at hx
      have hxs : x ≠ s := by rintro rfl; simp [hr.sent _ _ hs] at hx
      simpa [upd, hxs] using hr.free x hx
  · intro x hx
    simp only [Abs.dropList, Abs.setStale] at hx
    have hxs : x ≠ s := by
      rintro rfl
      have := (List.nodup_cons.1 hR.nodup).1
      simp [this, hr.sent _ _ hs] at hx
    by_cases hxL : x ∈ L
    · simpa [upd, hxs] using hR.alive x (by simp [hxL])
    · simp [hxL] at hx; simpa [upd, hxs] using hr.stale x hx
  · intro x hx
    simp only [Abs.Unused, Abs.dropList, Abs.setStale] at hx
    by_cases hxs : x = s
    · subst hxs; simp
    · by_cases hxL : x ∈ L
      · simp [hxL] at hx
      · simp [hxL] at hx
        rw [upd_other _ _ hxs] at hx
        simpa [upd, hxs] using hr.dead x hx

end Verif.QuickList
