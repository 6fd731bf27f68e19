import Verif.QuickList.Spec

/-! # Link surgery: helper lemmas -/

namespace Verif.QuickList

@[simp] theorem upd_same {β : Type} (m : Nat → β) (p : Nat) (v : β) : upd m p v p = v := by simp [upd]

theorem upd_other {β : Type} (m : Nat → β) {p x : Nat} (v : β) (hx : x ≠ p) : upd m p v x = m x := by
  simp [upd, hx]

theorem rd_some {al : Nat → Bool} {m : Links} {p : Nat} (hp : al p = true) : rd al m (some p) = .ok (m p) := by
  simp [rd, hp]

theorem wr_some {al : Nat → Bool} {m : Links} {p : Nat} {v : Ptr} (hp : al p = true) :
    wr al m (some p) v = .ok (upd m p v) := by
  simp [wr, hp]

/-- Consecutive objects of `C` are linked to each other in both directions. -/
def Chain (h : Heap) : List Nat → Prop
  | [] => True
  | [_] => True
  | a :: b :: r => h.fwd a = some b ∧ h.bwd b = some a ∧ Chain h (b :: r)

theorem chain_cons_cons {h : Heap} {a b : Nat} {r : List Nat} :
    Chain h (a :: b :: r) ↔ h.fwd a = some b ∧ h.bwd b = some a ∧ Chain h (b :: r) := Iff.rfl

theorem chain_split {h : Heap} {X Y : List Nat} {p : Nat} :
    Chain h (X ++ p :: Y) ↔ Chain h (X ++ [p]) ∧ Chain h (p :: Y) := by
  induction X with
  | nil => simp [Chain]
  | cons x X ih =>
    cases X with
    | nil => simp [Chain, and_assoc]
    | cons y X =>
      simp only [List.cons_append] at ih ⊢
      simp only [Chain]
      rw [ih]
      simp [and_assoc]

theorem chain_congr {h h' : Heap} {C : List Nat} (hf : ∀ x ∈ C.dropLast, h'.fwd x = h.fwd x)
    (hb : ∀ x ∈ C.tail, h'.bwd x = h.bwd x) (hc : Chain h C) : Chain h' C := by
  induction C with
  | nil => trivial
  | cons a C ih =>
    cases C with
    | nil => trivial
    | cons b r =>
      obtain ⟨h1, h2, h3⟩ := hc
      refine ⟨?_, ?_, ih ?_ ?_ h3⟩
      · rw [hf a (by simp [List.dropLast]), h1]
      · rw [hb b (by simp), h2]
      · intro x hx
        exact hf x (by simp [List.dropLast, hx])
      · intro x hx
        exact hb x (by simp at hx ⊢; exact Or.inr hx)

/-- The list with sentinel `s` holds exactly `L`. -/
structure RingOf (h : Heap) (s : Nat) (L : List Nat) : Prop where
  chain : Chain h (s :: (L ++ [s]))
  nodup : (s :: L).Nodup
  alive : ∀ x ∈ s :: L, h.alive x = true

theorem RingOf.frame {h h' : Heap} {s : Nat} {L : List Nat} (hr : RingOf h s L)
    (hf : ∀ x ∈ s :: L, h'.fwd x = h.fwd x) (hb : ∀ x ∈ s :: L, h'.bwd x = h.bwd x)
    (ha : ∀ x ∈ s :: L, h'.alive x = h.alive x) : RingOf h' s L := by
  refine ⟨chain_congr ?_ ?_ hr.chain, hr.nodup, ?_⟩
  · intro x hx
    refine hf x ?_
    rw [← List.cons_append, List.dropLast_concat] at hx
    exact hx
  · intro x hx
    refine hb x ?_
    simp at hx ⊢
    rcases hx with hx | hx
    · exact Or.inr hx
    · exact Or.inl hx
  · intro x hx
    rw [ha x hx]
    exact hr.alive x hx

/-- The neighbours of a member of the closed sequence. -/
theorem RingOf.next {h : Heap} {s : Nat} {L X Y : List Nat} {p : Nat} (hr : RingOf h s L)
    (he : s :: L = X ++ p :: Y) : ∃ n Z, Y ++ [s] = n :: Z ∧ h.fwd p = some n ∧ h.bwd n = some p ∧ n ∈ s :: L ∧
      Chain h (X ++ [p]) ∧ Chain h (n :: Z) := by
  have hc := hr.chain
  have he2 : s :: (L ++ [s]) = X ++ p :: (Y ++ [s]) := by
    rw [← List.cons_append, he]; simp
  rw [he2, chain_split] at hc
  cases hY : Y ++ [s] with
  | nil => simp at hY
  | cons n Z =>
    rw [hY] at hc
    refine ⟨n, Z, rfl, hc.2.1, hc.2.2.1, ?_, hc.1, hc.2.2.2⟩
    have hn : n ∈ Y ++ [s] := by rw [hY]; simp
    simp at hn
    rcases hn with hn | hn
    · rw [he]; simp [hn]
    · simp [hn]

theorem insertAfter_eq {h : Heap} {p a n : Nat} (hp : h.alive p = true) (ha : h.alive a = true)
    (hn : h.alive n = true) (hf : h.fwd p = some n) (hb : h.bwd n = some p) :
    insertAfter h p a = .ok { h with fwd := upd (upd h.fwd a (some n)) p (some a),
                                     bwd := upd (upd h.bwd a (some p)) n (some a) } := by
  simp [insertAfter, successor, Single.insertAfter, rd, wr, hp, ha, hn, hf, hb]

theorem insertBefore_eq {h : Heap} {p a n : Nat} (hp : h.alive p = true) (ha : h.alive a = true)
    (hn : h.alive n = true) (hf : h.fwd p = some n) (hb : h.bwd n = some p) :
    insertBefore h n a = insertAfter h p a := by
  rw [insertAfter_eq hp ha hn hf hb]
  simp [insertBefore, predecessor, Single.insertAfter, rd, wr, hp, ha, hn, hf, hb]

theorem exclude_eq {h : Heap} {p a n : Nat} (hp : h.alive p = true) (ha : h.alive a = true)
    (hn : h.alive n = true) (h1 : h.fwd p = some a) (h2 : h.bwd a = some p) (h3 : h.fwd a = some n)
    (h4 : h.bwd n = some a) :
    exclude h a = .ok { h with fwd := upd (upd h.fwd p (some n)) a none,
                               bwd := upd (upd h.bwd n (some p)) a none } := by
  simp [exclude, Single.removeAfter, rd, wr, hp, ha, hn, h1, h2, h3, h4]

/-- Inserting `a` after the member `p` of a ring. -/
theorem RingOf.insert {h : Heap} {s : Nat} {L L' X Y : List Nat} {p a n : Nat} (hr : RingOf h s L)
    (he : s :: L = X ++ p :: Y) (he' : s :: L' = X ++ p :: a :: Y) (ha : a ∉ s :: L) (hal : h.alive a = true)
    (hf : h.fwd p = some n) (_hb : h.bwd n = some p) :
    RingOf { h with fwd := upd (upd h.fwd a (some n)) p (some a),
                    bwd := upd (upd h.bwd a (some p)) n (some a) } s L' := by
  obtain ⟨n', Z, hZ, hf', hb', hmem, hc1, hc2⟩ := hr.next he
  obtain rfl : n = n' := by rw [hf] at hf'; exact Option.some.inj hf'
  have hnd := hr.nodup
  have hna : n ≠ a := fun h => ha (h ▸ hmem)
  have hpm : p ∈ s :: L := by rw [he]; simp
  have hpa : p ≠ a := fun h => ha (h ▸ hpm)
  have hnd2 : (L ++ [s]).Nodup := by
    rw [List.nodup_append]; rw [List.nodup_cons] at hnd
    refine ⟨hnd.2, by simp, ?_⟩
    intro x hx y hy
    simp at hy; subst hy
    exact fun h => hnd.1 (h ▸ hx)
  have hmemall : ∀ x, x ∈ X ++ [p] → x ∈ s :: L := by
    intro x hx; rw [he]; simp at hx ⊢; rcases hx with hx | hx
    · exact Or.inl hx
    · exact Or.inr (Or.inl hx)
  have hmemall2 : ∀ x, x ∈ n :: Z → x ∈ s :: L := by
    intro x hx; rw [← hZ] at hx; simp at hx
    rcases hx with hx | hx
    · rw [he]; simp [hx]
    · simp [hx]
  have htail : L ++ [s] = (X ++ [p]).tail ++ n :: Z := by
    have : s :: (L ++ [s]) = (X ++ [p]) ++ n :: Z := by
      rw [← List.cons_append, he, ← hZ]; simp
    have h2 := congrArg List.tail this
    simp only [List.tail_cons] at h2
    rw [h2, List.tail_append_of_ne_nil (by simp)]
  refine ⟨?_, ?_, ?_⟩
  · have he2 : s :: (L' ++ [s]) = X ++ p :: a :: (n :: Z) := by
      rw [← List.cons_append, he', ← hZ]; simp
    rw [he2, chain_split]
    refine ⟨chain_congr ?_ ?_ hc1, ?_, ?_, ?_, ?_, chain_congr ?_ ?_ hc2⟩
    · intro x hx
      rw [List.dropLast_concat] at hx
      have hxp : x ≠ p := by
        rintro rfl
        rw [he, List.nodup_append] at hnd
        exact hnd.2.2 x hx x (by simp) rfl
      have hxa : x ≠ a := fun h => ha (h ▸ hmemall x (by simp [hx]))
      simp [upd, hxp, hxa]
    · intro x hx
      have hxa : x ≠ a := fun h => ha (h ▸ hmemall x (List.mem_of_mem_tail hx))
      have hxn : x ≠ n := by
        rintro rfl
        rw [htail, List.nodup_append] at hnd2
        exact hnd2.2.2 x hx x (by simp) rfl
      simp [upd, hxn, hxa]
    · simp
    · simp [upd, Ne.symm hna]
    · simp [upd, Ne.symm hpa]
    · simp
    · intro x hx
      have hx' : x ∈ Y := by
        rw [← hZ, List.dropLast_concat] at hx; exact hx
      have hxp : x ≠ p := by
        rintro rfl
        rw [he, List.nodup_append, List.nodup_cons] at hnd
        exact hnd.2.1.1 hx'
      have hxa : x ≠ a := fun h => ha (h ▸ (by rw [he]; simp [hx']))
      simp [upd, hxp, hxa]
    · intro x hx
      have hxa : x ≠ a := fun h => ha (h ▸ hmemall2 x (by simpa using Or.inr hx))
      have hxn : x ≠ n := by
        rintro rfl
        rw [htail, List.nodup_append, List.nodup_cons] at hnd2
        exact hnd2.2.1.1 hx
      simp [upd, hxn, hxa]
  · rw [he'] ; rw [he] at hnd ha
    simp only [List.nodup_append, List.nodup_cons, List.mem_append, List.mem_cons] at hnd ha ⊢
    refine ⟨hnd.1, ⟨?_, ?_, hnd.2.1.2⟩, ?_⟩
    · rintro (h | h)
      · exact hpa h
      · exact hnd.2.1.1 h
    · intro h; exact ha (Or.inr (Or.inr h))
    · intro x hx y hy hxy
      subst hxy
      rcases hy with hy | hy | hy
      · exact hnd.2.2 x hx x (Or.inl hy) rfl
      · exact ha (Or.inl (hy ▸ hx))
      · exact hnd.2.2 x hx x (Or.inr hy) rfl
  · intro x hx
    rw [he'] at hx
    have hx' : x = a ∨ x ∈ s :: L := by
      rw [he]; simp at hx ⊢
      rcases hx with hx | hx | hx | hx
      · exact Or.inr (Or.inl hx)
      · exact Or.inr (Or.inr (Or.inl hx))
      · exact Or.inl hx
      · exact Or.inr (Or.inr (Or.inr hx))
    rcases hx' with rfl | hx'
    · exact hal
    · exact hr.alive x hx'

/-- Around an element of a ring. -/
theorem RingOf.around {h : Heap} {s : Nat} {X Y : List Nat} {a : Nat} (hr : RingOf h s (X ++ a :: Y)) :
    ∃ P p n Z, s :: X = P ++ [p] ∧ Y ++ [s] = n :: Z ∧ h.fwd p = some a ∧ h.bwd a = some p ∧ h.fwd a = some n ∧
      h.bwd n = some a ∧ Chain h (P ++ [p]) ∧ Chain h (n :: Z) := by
  have hc := hr.chain
  have he : s :: ((X ++ a :: Y) ++ [s]) = (s :: X) ++ a :: (Y ++ [s]) := by simp
  rw [he, chain_split] at hc
  obtain ⟨P, p, hP⟩ : ∃ P p, s :: X = P ++ [p] :=
    ⟨(s :: X).dropLast, (s :: X).getLast (by simp), (List.dropLast_concat_getLast (by simp)).symm⟩
  cases hY : Y ++ [s] with
  | nil => simp at hY
  | cons n Z =>
    rw [hY] at hc
    rw [hP, show P ++ [p] ++ [a] = P ++ p :: [a] by simp, chain_split] at hc
    exact ⟨P, p, n, Z, hP, rfl, hc.1.2.1, hc.1.2.2.1, hc.2.1, hc.2.2.1, hc.1.1, hc.2.2.2⟩

/-- Removing an element of a ring. -/
theorem RingOf.remove {h : Heap} {s : Nat} {X Y : List Nat} {a p n : Nat} (hr : RingOf h s (X ++ a :: Y))
    (h1 : h.fwd a = some n) (h2 : h.bwd a = some p) :
    RingOf { h with fwd := upd (upd h.fwd p (some n)) a none,
                    bwd := upd (upd h.bwd n (some p)) a none } s (X ++ Y) := by
  obtain ⟨P, p', n', Z, hP, hZ, h3, h4, h5, h6, hc1, hc2⟩ := hr.around
  obtain rfl : p = p' := by rw [h2] at h4; exact Option.some.inj h4
  obtain rfl : n = n' := by rw [h1] at h5; exact Option.some.inj h5
  have hnd := hr.nodup
  -- the closed sequences without repetition
  have hnd1 : (P ++ [p] ++ a :: Y).Nodup := by
    rw [← hP]; simpa using hnd
  have hnd2 : ((P ++ [p]).tail ++ a :: n :: Z).Nodup := by
    have : (P ++ [p]).tail ++ a :: n :: Z = X ++ a :: (Y ++ [s]) := by
      rw [← hP, hZ]; simp
    rw [this]
    have hp : (s :: (X ++ a :: Y)).Perm (X ++ a :: (Y ++ [s])) := by
      have := (List.perm_append_singleton s (X ++ a :: Y)).symm
      simpa using this
    exact hp.nodup_iff.1 hnd
  simp only [List.nodup_append, List.nodup_cons, List.mem_append, List.mem_cons, List.not_mem_nil, or_false] at hnd1 hnd2
  have hap : a ≠ p := fun h => hnd1.2.2 p (Or.inr rfl) a (Or.inl rfl) h.symm
  have han : a ≠ n := fun h => hnd2.2.1.1 (Or.inl h)
  refine ⟨?_, ?_, ?_⟩
  · have he2 : s :: (X ++ Y ++ [s]) = P ++ p :: (n :: Z) := by
      rw [List.append_assoc, hZ, ← List.cons_append, hP]; simp
    rw [he2, chain_split]
    refine ⟨chain_congr ?_ ?_ hc1, ?_, ?_, chain_congr ?_ ?_ hc2⟩
    · intro x hx
      rw [List.dropLast_concat] at hx
      have hxp : x ≠ p := fun h => hnd1.1.2.2 x hx p rfl h
      have hxa : x ≠ a := fun h => hnd1.2.2 x (Or.inl hx) a (Or.inl rfl) h
      simp [upd, hxp, hxa]
    · intro x hx
      have hxa : x ≠ a := fun h => hnd2.2.2 x hx a (Or.inl rfl) h
      have hxn : x ≠ n := fun h => hnd2.2.2 x hx n (Or.inr (Or.inl rfl)) h
      simp [upd, hxn, hxa]
    · simp [upd, Ne.symm hap]
    · simp [upd, Ne.symm han]
    · intro x hx
      have hx' : x ∈ Y := by rw [← hZ, List.dropLast_concat] at hx; exact hx
      have hxp : x ≠ p := fun h => hnd1.2.2 p (Or.inr rfl) x (Or.inr hx') h.symm
      have hxa : x ≠ a := fun h => hnd1.2.1.1 (h ▸ hx')
      simp [upd, hxp, hxa]
    · intro x hx
      simp only [List.tail_cons] at hx
      have hxn : x ≠ n := fun h => hnd2.2.1.2.1 (h ▸ hx)
      have hxa : x ≠ a := fun h => hnd2.2.1.1 (Or.inr (h ▸ hx))
      simp [upd, hxn, hxa]
  · refine hnd.sublist ?_
    simp
  · intro x hx
    refine hr.alive x ?_
    simp at hx ⊢
    rcases hx with hx | hx | hx
    · exact Or.inl hx
    · exact Or.inr (Or.inl hx)
    · exact Or.inr (Or.inr (Or.inr hx))

/-- The traversal of a chain that ends at the sentinel. -/
theorem traverse_chain {al : Nat → Bool} {m : Links} {s : Nat} {L : List Nat}
    (hm : ∀ x ∈ L, al x = true) (hs : s ∉ L)
    (hc : ∀ X x y Y, L ++ [s] = X ++ x :: y :: Y → m x = some y) {fuel : Nat} (hfu : L.length < fuel) :
    Single.traverse al m s fuel (L ++ [s]).head? = .ok (some L) := by
  induction L generalizing fuel with
  | nil =>
    cases fuel with
    | zero => simp at hfu
    | succ f => simp [Single.traverse]
  | cons x L ih =>
    cases fuel with
    | zero => simp at hfu
    | succ f =>
      have hx : x ≠ s := fun h => hs (by simp [h])
      have hne : ¬ (some x = some s) := fun h => hx (Option.some.inj h)
      simp only [List.cons_append, List.head?_cons, Single.traverse, hne, if_false]
      have hmx : m x = (L ++ [s]).head? := by
        cases hL : L ++ [s] with
        | nil => simp at hL
        | cons y Y =>
          simp only [List.head?_cons]
          exact hc [] x y Y (by simp [hL])
      rw [rd_some (hm x (by simp)), hmx]
      simp only [Res.ok_bind]
      rw [ih (fun y hy => hm y (by simp [hy])) (fun h => hs (by simp [h]))
        (fun X a b Y h => hc (x :: X) a b Y (by simp [h])) (by simpa using hfu)]
      rfl

theorem chain_links {h : Heap} {C : List Nat} (hc : Chain h C) :
    ∀ X x y Y, C = X ++ x :: y :: Y → h.fwd x = some y ∧ h.bwd y = some x := by
  intro X x y Y he
  rw [he, chain_split] at hc
  exact ⟨hc.2.1, hc.2.2.1⟩

theorem RingOf.forward {h : Heap} {s : Nat} {L : List Nat} (hr : RingOf h s L) {fuel : Nat} (hfu : L.length < fuel) :
    forward h s fuel = .ok (some L) := by
  have hs := hr.alive s (by simp)
  have hlinks := chain_links hr.chain
  have h1 : h.fwd s = (L ++ [s]).head? := by
    cases hL : L ++ [s] with
    | nil => simp at hL
    | cons y Y =>
      simp only [List.head?_cons]
      exact (hlinks [] s y Y (by simp [hL])).1
  simp only [QuickList.forward, rd_some hs, h1, Res.ok_bind]
  refine traverse_chain (fun x hx => hr.alive x (by simp [hx])) (List.nodup_cons.1 hr.nodup).1 ?_ hfu
  intro X x y Y he
  exact (hlinks (s :: X) x y Y (by simp [he])).1

theorem RingOf.backward {h : Heap} {s : Nat} {L : List Nat} (hr : RingOf h s L) {fuel : Nat} (hfu : L.length < fuel) :
    backward h s fuel = .ok (some L.reverse) := by
  have hs := hr.alive s (by simp)
  have hlinks := chain_links hr.chain
  have hrev : s :: (L.reverse ++ [s]) = (s :: (L ++ [s])).reverse := by simp
  have hlinks' : ∀ X x y Y, s :: (L.reverse ++ [s]) = X ++ x :: y :: Y → h.bwd x = some y := by
    intro X x y Y he
    rw [hrev] at he
    have := congrArg List.reverse he
    simp only [List.reverse_reverse, List.reverse_append, List.reverse_cons, List.append_assoc] at this
    exact (hlinks Y.reverse y x X.reverse (by simpa using this)).2
  have h1 : h.bwd s = (L.reverse ++ [s]).head? := by
    cases hL : L.reverse ++ [s] with
    | nil => simp at hL
    | cons y Y =>
      simp only [List.head?_cons]
      exact hlinks' [] s y Y (by simp [hL])
  simp only [QuickList.backward, rd_some hs, h1, Res.ok_bind]
  refine traverse_chain (fun x hx => hr.alive x (by simp at hx; simp [hx])) ?_ ?_ (by simpa using hfu)
  · have := (List.nodup_cons.1 hr.nodup).1
    simpa using this
  · intro X x y Y he
    exact hlinks' (s :: X) x y Y (by simp [he])

end Verif.QuickList
