import Verif.QuickList.Rep

/-! # Splicing and moving whole lists: helper lemmas -/

namespace Verif.QuickList

/-- The heap after the elements `b … l` of list `t` were linked between the neighbours `q` and `n`. -/
def spliced (h : Heap) (t q n b l : Nat) : Heap :=
  { h with fwd := upd (upd (upd h.fwd q (some b)) l (some n)) t (some t),
           bwd := upd (upd (upd h.bwd n (some l)) b (some q)) t (some t) }

theorem nodup_rot {s : Nat} {L : List Nat} (h : (s :: L).Nodup) : (L ++ [s]).Nodup :=
  (List.perm_append_singleton s L).nodup_iff.2 h

theorem RingOf.splice {h : Heap} {s t : Nat} {L L' M X Y B B' : List Nat} {q n b l : Nat} (hs : RingOf h s L)
    (ht : RingOf h t M) (hd : ∀ x ∈ s :: L, x ∉ t :: M) (he : s :: L = X ++ q :: Y) (hf : h.fwd q = some n)
    (hM : M = b :: B) (hM' : M = B' ++ [l]) (he' : s :: L' = X ++ q :: (M ++ Y)) :
    RingOf (spliced h t q n b l) s L' := by
  obtain ⟨n', Z, hZ, hf', -, hmem, hc1, hc2⟩ := hs.next he
  obtain rfl : n = n' := by rw [hf] at hf'; exact Option.some.inj hf'
  have hnd := hs.nodup
  have hnd2 := nodup_rot hnd
  have htd := ht.nodup
  have hqm : q ∈ s :: L := by rw [he]; simp
  have hbm : b ∈ M := by rw [hM]; simp
  have hlm : l ∈ M := by rw [hM']; simp
  have htail : L ++ [s] = (X ++ [q]).tail ++ n :: Z := by
    have : s :: (L ++ [s]) = (X ++ [q]) ++ n :: Z := by
      rw [← List.cons_append, he, ← hZ]; simp
    have h2 := congrArg List.tail this
    simp only [List.tail_cons] at h2
    rw [h2, List.tail_append_of_ne_nil (by simp)]
  have hm1 : ∀ x, x ∈ X ++ [q] → x ∈ s :: L := by
    intro x hx; rw [he]; simp at hx ⊢; rcases hx with hx | hx
    · exact Or.inl hx
    · exact Or.inr (Or.inl hx)
  have hm2 : ∀ x, x ∈ n :: Z → x ∈ s :: L := by
    intro x hx; rw [← hZ] at hx; simp at hx
    rcases hx with hx | hx
    · rw [he]; simp [hx]
    · simp [hx]
  have hds : ∀ x, x ∈ s :: L → x ≠ t ∧ x ∉ M := by
    intro x hx
    have := hd x hx
    simp at this; exact this
  have htM : t ∉ M := (List.nodup_cons.1 htd).1
  have hMnd : M.Nodup := (List.nodup_cons.1 htd).2
  have hMs : ∀ x ∈ M, x ∉ s :: L := fun x hx hx' => (hds x hx').2 hx
  have hMt : ∀ x ∈ M, x ≠ t := fun x hx e => htM (e ▸ hx)
  have hcM : Chain h M := by
    have := ht.chain
    rw [hM, show t :: (b :: B ++ [t]) = [t] ++ b :: (B ++ [t]) by simp, chain_split] at this
    have h2 := this.2
    rw [← List.cons_append, ← hM, hM', List.append_assoc, List.singleton_append, chain_split] at h2
    rw [hM']; exact h2.1
  refine ⟨?_, ?_, ?_⟩
  · have e2 : s :: (L' ++ [s]) = X ++ q :: (M ++ (n :: Z)) := by
      rw [← List.cons_append, he', ← hZ]; simp
    rw [e2, chain_split]
    refine ⟨chain_congr ?_ ?_ hc1, ?_⟩
    · intro x hx
      rw [List.dropLast_concat] at hx
      have hx' := hm1 x (by simp [hx])
      have h1 : x ≠ q := by
        rintro rfl
        rw [he, List.nodup_append] at hnd
        exact hnd.2.2 x hx x (by simp) rfl
      have h2 : x ≠ l := fun e => (hds x hx').2 (e ▸ hlm)
      simp [spliced, upd, h1, h2, (hds x hx').1]
    · intro x hx
      have hx' := hm1 x (List.mem_of_mem_tail hx)
      have h1 : x ≠ n := by
        rintro rfl
        rw [htail, List.nodup_append] at hnd2
        exact hnd2.2.2 x hx x (by simp) rfl
      have h2 : x ≠ b := fun e => (hds x hx').2 (e ▸ hbm)
      simp [spliced, upd, h1, h2, (hds x hx').1]
    · have hql : q ≠ l := fun e => (hds q hqm).2 (e ▸ hlm)
      have hnb : n ≠ b := fun e => (hds n hmem).2 (e ▸ hbm)
      have hlink : Chain (spliced h t q n b l) (M ++ n :: Z) := by
        rw [hM', List.append_assoc, List.singleton_append, chain_split, ← hM']
        refine ⟨chain_congr ?_ ?_ hcM, ?_, ?_, chain_congr ?_ ?_ hc2⟩
        · intro x hx
          have hxM : x ∈ M := List.dropLast_subset _ hx
          have h1 : x ≠ q := fun e => hMs x hxM (e ▸ hqm)
          have h2 : x ≠ l := by
            rintro rfl
            rw [hM', List.dropLast_concat] at hx
            rw [hM', List.nodup_append] at hMnd
            exact hMnd.2.2 x hx x (by simp) rfl
          simp [spliced, upd, h1, h2, hMt x hxM]
        · intro x hx
          have hxM : x ∈ M := List.mem_of_mem_tail hx
          have h1 : x ≠ n := fun e => hMs x hxM (e ▸ hmem)
          have h2 : x ≠ b := by
            rintro rfl
            rw [hM] at hx
            rw [hM] at hMnd
            exact (List.nodup_cons.1 hMnd).1 hx
          simp [spliced, upd, h1, h2, hMt x hxM]
        · simp [spliced, upd, hMt l hlm]
        · simp [spliced, upd, hnb, (hds n hmem).1]
        · intro x hx
          have hxY : x ∈ Y := by rw [← hZ, List.dropLast_concat] at hx; exact hx
          have hx' : x ∈ s :: L := by rw [he]; simp [hxY]
          have h1 : x ≠ q := by
            rintro rfl
            rw [he, List.nodup_append, List.nodup_cons] at hnd
            exact hnd.2.1.1 hxY
          have h2 : x ≠ l := fun e => (hds x hx').2 (e ▸ hlm)
          simp [spliced, upd, h1, h2, (hds x hx').1]
        · intro x hx
          have hx' := hm2 x (by simpa using Or.inr hx)
          have h1 : x ≠ n := by
            rintro rfl
            rw [htail, List.nodup_append, List.nodup_cons] at hnd2
            exact hnd2.2.1.1 hx
          have h2 : x ≠ b := fun e => (hds x hx').2 (e ▸ hbm)
          simp [spliced, upd, h1, h2, (hds x hx').1]
      rw [hM] at hlink ⊢
      refine ⟨?_, ?_, hlink⟩
      · simp [spliced, upd, hql, (hds q hqm).1]
      · simp [spliced, upd, hMt b hbm]
  · have hp : (s :: L').Perm ((s :: L) ++ M) := by
      rw [he', he]
      have h1 : (q :: (M ++ Y)).Perm (q :: Y ++ M) := by
        rw [List.cons_append]
        exact List.perm_append_comm.cons q
      have := h1.append_left X
      simpa using this
    rw [hp.nodup_iff, List.nodup_append]
    exact ⟨hnd, hMnd, fun x hx y hy e => (hds x hx).2 (e ▸ hy)⟩
  · intro x hx
    rw [he'] at hx
    have : x ∈ s :: L ∨ x ∈ M := by
      rw [he]; simp only [List.mem_append, List.mem_cons] at hx ⊢
      rcases hx with h | h | h | h
      · exact Or.inl (Or.inl h)
      · exact Or.inl (Or.inr (Or.inl h))
      · exact Or.inr h
      · exact Or.inl (Or.inr (Or.inr h))
    rcases this with h1 | h1
    · exact hs.alive x h1
    · exact ht.alive x (by simp [h1])

/-- All of list `t` moves into list `s`. -/
theorem Rep.splice_core {h h' : Heap} {σ : Abs} (hr : Rep h σ) {s t : Nat} {L L' M : List Nat} (hst : s ≠ t)
    (hs : σ.lists s = some L) (ht : σ.lists t = some M) (hL' : ∀ x, x ∈ L' ↔ x ∈ L ∨ x ∈ M)
    (hring : RingOf h' s L') (hring' : RingOf h' t [])
    (hf : ∀ x, x ∉ s :: L → x ∉ t :: M → h'.fwd x = h.fwd x)
    (hb : ∀ x, x ∉ s :: L → x ∉ t :: M → h'.bwd x = h.bwd x)
    (hal : h'.alive = h.alive) : Rep h' ((σ.setList s L').setList t []) := by
  have hget : ∀ u N, ((σ.setList s L').setList t []).lists u = some N →
      (u = t ∧ N = []) ∨ (u = s ∧ N = L') ∨ (u ≠ s ∧ u ≠ t ∧ σ.lists u = some N) := by
    intro u N hu
    simp only [Abs.setList] at hu
    by_cases hut : u = t
    · subst hut; simp at hu; exact Or.inl ⟨rfl, hu⟩
    · rw [upd_other _ _ hut] at hu
      by_cases hus : u = s
      · subst hus; simp at hu; exact Or.inr (Or.inl ⟨rfl, hu.symm⟩)
      · rw [upd_other _ _ hus] at hu
        exact Or.inr (Or.inr ⟨hus, hut, hu⟩)
  have hst' : ((σ.setList s L').setList t []).st = σ.st := rfl
  have hout : ∀ x, (σ.st x = .free ∨ σ.st x = .stale) → x ∉ s :: L ∧ x ∉ t :: M :=
    fun x hx => ⟨(hr.avail hx).2 s L hs, (hr.avail hx).2 t M ht⟩
  have hoth : ∀ u N, u ≠ s → u ≠ t → σ.lists u = some N → ∀ x ∈ u :: N, x ∉ s :: L ∧ x ∉ t :: M :=
    fun u N h1 h2 hu x hx => ⟨hr.disj u s N L hu hs h1 x hx, hr.disj u t N M hu ht h2 x hx⟩
  constructor
  · intro u N hu
    rcases hget u N hu with ⟨rfl, rfl⟩ | ⟨rfl, rfl⟩ | ⟨h1, h2, h3⟩
    · exact hring'
    · exact hring
    · exact (hr.ring u N h3).frame (fun x hx => hf x (hoth u N h1 h2 h3 x hx).1 (hoth u N h1 h2 h3 x hx).2)
        (fun x hx => hb x (hoth u N h1 h2 h3 x hx).1 (hoth u N h1 h2 h3 x hx).2) (fun x _ => by rw [hal])
  · have hsL' : ∀ x, x ∈ s :: L' → x ∈ s :: L ∨ x ∈ M := by
      intro x hx
      simp only [List.mem_cons, hL'] at hx ⊢
      rcases hx with h | h | h
      · exact Or.inl (Or.inl h)
      · exact Or.inl (Or.inr h)
      · exact Or.inr h
    have htL' : ∀ x, x ∈ s :: L' → x ≠ t := by
      intro x hx e
      subst e
      rcases hsL' x hx with h | h
      · exact hr.disj s x L M hs ht hst x h (by simp)
      · exact (List.nodup_cons.1 (hr.ring x M ht).nodup).1 h
    have hu' : ∀ u N, u ≠ s → u ≠ t → σ.lists u = some N → ∀ x ∈ u :: N, x ∉ s :: L' ∧ x ≠ t := by
      intro u N h1 h2 h3 x hx
      have := hoth u N h1 h2 h3 x hx
      refine ⟨fun hx' => ?_, fun e => this.2 (by simp [e])⟩
      rcases hsL' x hx' with h | h
      · exact this.1 h
      · exact this.2 (by simp [h])
    intro u v N K hu hv huv x hx hx'
    rcases hget u N hu with ⟨rfl, rfl⟩ | ⟨rfl, rfl⟩ | ⟨h1, h2, h3⟩ <;>
      rcases hget v K hv with ⟨rfl, rfl⟩ | ⟨rfl, rfl⟩ | ⟨k1, k2, k3⟩
    · exact huv rfl
    · simp at hx; exact htL' x hx' hx
    · simp at hx; exact (hu' v K k1 k2 k3 x hx').2 hx
    · simp at hx'; exact htL' x hx hx'
    · exact huv rfl
    · exact (hu' v K k1 k2 k3 x hx').1 hx
    · simp at hx'; exact (hu' u N h1 h2 h3 x hx).2 hx'
    · exact (hu' u N h1 h2 h3 x hx).1 hx'
    · exact hr.disj u v N K h3 k3 huv x hx hx'
  · intro u N x hu hx
    rw [hst']
    rcases hget u N hu with ⟨rfl, rfl⟩ | ⟨rfl, rfl⟩ | ⟨h1, h2, h3⟩
    · simp at hx
    · rcases (hL' x).1 hx with h | h
      · exact hr.linked _ _ _ hs h
      · exact hr.linked _ _ _ ht h
    · exact hr.linked _ _ _ h3 hx
  · intro u N hu
    rw [hst']
    rcases hget u N hu with ⟨rfl, rfl⟩ | ⟨rfl, rfl⟩ | ⟨h1, h2, h3⟩
    · exact hr.sent _ _ ht
    · exact hr.sent _ _ hs
    · exact hr.sent _ _ h3
  · intro x hx
    rw [hst'] at hx
    obtain ⟨u, N, hu, hm⟩ := hr.linked' x hx
    have hsnew : ((σ.setList s L').setList t []).lists s = some L' := by
      simp [Abs.setList, upd, hst]
    by_cases hus : u = s
    · subst hus; rw [hs] at hu; cases hu
      exact ⟨u, L', hsnew, (hL' x).2 (Or.inl hm)⟩
    · by_cases hut : u = t
      · subst hut; rw [ht] at hu; cases hu
        exact ⟨s, L', hsnew, (hL' x).2 (Or.inr hm)⟩
      · exact ⟨u, N, by simp [Abs.setList, upd, hus, hut, hu], hm⟩
  · intro x hx
    rw [hst'] at hx
    have := hout x (Or.inl hx)
    rw [hal, hf x this.1 this.2, hb x this.1 this.2]
    exact hr.free x hx
  · intro x hx
    rw [hst'] at hx
    rw [hal]; exact hr.stale x hx
  · intro x hx
    rw [hal]
    refine hr.dead x ⟨hx.1, ?_⟩
    have h2 := hx.2
    simp only [Abs.setList] at h2
    by_cases hxt : x = t
    · subst hxt; simp at h2
    · rw [upd_other _ _ hxt] at h2
      by_cases hxs : x = s
      · subst hxs; simp at h2
      · rw [upd_other _ _ hxs] at h2; exact h2

theorem RingOf.isEmpty {h : Heap} {s : Nat} {L : List Nat} (hr : RingOf h s L) : isEmpty h s = .ok L.isEmpty := by
  have hs := hr.alive s (by simp)
  cases L with
  | nil =>
    have := hr.chain
    simp [Chain] at this
    simp [QuickList.isEmpty, Single.empty, rd, hs, this.1]
  | cons a L =>
    have := hr.chain
    simp [Chain] at this
    have hne : a ≠ s := by
      have := hr.nodup
      rintro rfl; simp at this
    simp [QuickList.isEmpty, Single.empty, rd, hs, this.1, hne]

/-- The first and the last element of a non-empty list. -/
theorem RingOf.ends {h : Heap} {s : Nat} {L : List Nat} (hr : RingOf h s L) (hne : L ≠ []) :
    ∃ b B B' l, L = b :: B ∧ L = B' ++ [l] ∧ h.fwd s = some b ∧ h.bwd s = some l := by
  obtain ⟨b, B, hB⟩ : ∃ b B, L = b :: B := by
    cases L with
    | nil => exact absurd rfl hne
    | cons b B => exact ⟨b, B, rfl⟩
  obtain ⟨B', l, hl⟩ : ∃ B' l, L = B' ++ [l] :=
    ⟨L.dropLast, L.getLast hne, (List.dropLast_concat_getLast hne).symm⟩
  refine ⟨b, B, B', l, hB, hl, ?_, ?_⟩
  · have := hr.chain
    rw [hB] at this
    exact this.1
  · have := hr.chain
    rw [hl, show s :: (B' ++ [l] ++ [s]) = (s :: B') ++ l :: [s] by simp, chain_split] at this
    exact this.2.2.1

/-- The last object of the closed sequence `s :: L`. -/
theorem RingOf.last {h : Heap} {s : Nat} {L : List Nat} (hr : RingOf h s L) :
    ∃ X q, s :: L = X ++ [q] ∧ h.fwd q = some s ∧ h.bwd s = some q := by
  obtain ⟨X, q, hq⟩ : ∃ X q, s :: L = X ++ [q] :=
    ⟨(s :: L).dropLast, (s :: L).getLast (by simp), (List.dropLast_concat_getLast (by simp)).symm⟩
  refine ⟨X, q, hq, ?_⟩
  have := hr.chain
  rw [← List.cons_append, hq, List.append_assoc, List.singleton_append, chain_split] at this
  exact ⟨this.2.1, this.2.2.1⟩

theorem spliced_empty_ring {h : Heap} {t q n b l : Nat} (ht : h.alive t = true) : RingOf (spliced h t q n b l) t [] :=
  ⟨by simp [Chain, spliced], by simp, by simp [spliced, ht]⟩

/-- Common part of the four operations that move a whole list. -/
theorem Rep.spliced {h : Heap} {σ : Abs} (hr : Rep h σ) {s t : Nat} {L L' M X Y B B' : List Nat} {q n b l : Nat}
    (hst : s ≠ t) (hs : σ.lists s = some L) (ht : σ.lists t = some M) (he : s :: L = X ++ q :: Y)
    (hf : h.fwd q = some n) (hn : n ∈ s :: L) (hM : M = b :: B) (hM' : M = B' ++ [l])
    (he' : s :: L' = X ++ q :: (M ++ Y)) : Rep (spliced h t q n b l) ((σ.setList s L').setList t []) := by
  have hRs := hr.ring s L hs
  have hRt := hr.ring t M ht
  have hd := hr.disj s t L M hs ht hst
  have hnew := hRs.splice hRt hd he hf hM hM' he'
  have hqm : q ∈ s :: L := by rw [he]; simp
  have hbm : b ∈ M := by rw [hM]; simp
  have hlm : l ∈ M := by rw [hM']; simp
  refine hr.splice_core hst hs ht ?_ hnew (spliced_empty_ring (hRt.alive t (by simp))) ?_ ?_ rfl
  · intro x
    have h1 : x ∈ s :: L' ↔ x ∈ s :: L ∨ x ∈ M := by
      rw [he', he]; simp only [List.mem_append, List.mem_cons]
      constructor
      · rintro (h | h | h | h)
        · exact Or.inl (Or.inl h)
        · exact Or.inl (Or.inr (Or.inl h))
        · exact Or.inr h
        · exact Or.inl (Or.inr (Or.inr h))
      · rintro ((h | h | h) | h)
        · exact Or.inl h
        · exact Or.inr (Or.inl h)
        · exact Or.inr (Or.inr (Or.inr h))
        · exact Or.inr (Or.inr (Or.inl h))
    by_cases hxs : x = s
    · subst hxs
      have hn1 := (List.nodup_cons.1 hRs.nodup).1
      have hn2 := (List.nodup_cons.1 hnew.nodup).1
      have hn3 := hd x (by simp)
      simp at hn3
      simp [hn1, hn2, hn3]
    · simpa [hxs] using h1
  · intro x hx hx'
    have e1 : x ≠ q := fun e => hx (e ▸ hqm)
    have e2 : x ≠ l := fun e => hx' (by rw [e]; simp [hlm])
    have e3 : x ≠ t := fun e => hx' (by simp [e])
    simp [QuickList.spliced, upd, e1, e2, e3]
  · intro x hx hx'
    have e1 : x ≠ n := fun e => hx (e ▸ hn)
    have e2 : x ≠ b := fun e => hx' (by rw [e]; simp [hbm])
    have e3 : x ≠ t := fun e => hx' (by simp [e])
    simp [QuickList.spliced, upd, e1, e2, e3]

theorem setList_same {σ : Abs} {s : Nat} {L : List Nat} (hs : σ.lists s = some L) : σ.setList s L = σ := by
  cases σ with
  | mk lists st =>
    simp only [Abs.setList, Abs.mk.injEq, and_true]
    funext x
    by_cases hx : x = s
    · subst hx; simp; exact hs.symm
    · rw [upd_other _ _ hx]

theorem upd_comm {β : Type} (m : Nat → β) {p q : Nat} (v w : β) (h : p ≠ q) :
    upd (upd m p v) q w = upd (upd m q w) p v := by
  funext x
  by_cases h1 : x = p
  · subst h1; simp [upd, h]
  · by_cases h2 : x = q
    · subst h2; simp [upd, h1]
    · simp [upd, h1, h2]

theorem Rep.spliceBack {h : Heap} {σ : Abs} (hr : Rep h σ) {s t : Nat} {L M : List Nat} (hst : s ≠ t)
    (hs : σ.lists s = some L) (ht : σ.lists t = some M) :
    ∃ h', spliceBack h s t = .ok h' ∧ Rep h' ((σ.setList s (L ++ M)).setList t []) := by
  have hRs := hr.ring s L hs
  have hRt := hr.ring t M ht
  by_cases hM : M = []
  · subst hM
    refine ⟨h, by simp [QuickList.spliceBack, hRt.isEmpty], ?_⟩
    rw [List.append_nil, setList_same hs, setList_same ht]
    exact hr
  obtain ⟨b, B, B', l, hb, hl, h1, h2⟩ := hRt.ends hM
  obtain ⟨X, q, hq, h3, h4⟩ := hRs.last
  have hqm : q ∈ s :: L := by rw [hq]; simp
  have hbm : b ∈ M := by rw [hb]; simp
  have hlm : l ∈ M := by rw [hl]; simp
  have hMe : M.isEmpty = false := by cases M with
    | nil => exact absurd rfl hM
    | cons => rfl
  refine ⟨_, ?_, hr.spliced hst hs ht (Y := []) (by simpa using hq) h3 (by simp) hb hl ?_⟩
  · have a1 := hRt.alive t (by simp)
    have a2 := hRs.alive s (by simp)
    have a3 := hRt.alive b (by simp [hbm])
    have a4 := hRt.alive l (by simp [hlm])
    have a5 := hRs.alive q hqm
    simp [QuickList.spliceBack, hRt.isEmpty, hMe, rd, wr, a1, a2, a3, a4, a5, h1, h2, h4, Single.pushBackRange,
      Single.pushFrontRange, QuickList.clear, Single.clear, QuickList.spliced]
  · rw [List.append_nil, ← List.cons_append, hq]; simp

theorem Rep.spliceFront {h : Heap} {σ : Abs} (hr : Rep h σ) {s t : Nat} {L M : List Nat} (hst : s ≠ t)
    (hs : σ.lists s = some L) (ht : σ.lists t = some M) :
    ∃ h', spliceFront h s t = .ok h' ∧ Rep h' ((σ.setList s (M ++ L)).setList t []) := by
  have hRs := hr.ring s L hs
  have hRt := hr.ring t M ht
  by_cases hM : M = []
  · subst hM
    refine ⟨h, by simp [QuickList.spliceFront, hRt.isEmpty], ?_⟩
    rw [List.nil_append, setList_same hs, setList_same ht]
    exact hr
  obtain ⟨b, B, B', l, hb, hl, h1, h2⟩ := hRt.ends hM
  obtain ⟨n, Z, hZ, hf, hbn, hn, -, -⟩ := hRs.next (X := []) (p := s) (Y := L) rfl
  have hbm : b ∈ M := by rw [hb]; simp
  have hlm : l ∈ M := by rw [hl]; simp
  have hMe : M.isEmpty = false := by cases M with
    | nil => exact absurd rfl hM
    | cons => rfl
  refine ⟨_, ?_, hr.spliced hst hs ht (X := []) (q := s) (Y := L) rfl hf hn hb hl rfl⟩
  have a1 := hRt.alive t (by simp)
  have a2 := hRs.alive s (by simp)
  have a3 := hRt.alive b (by simp [hbm])
  have a4 := hRt.alive l (by simp [hlm])
  have a5 := hRs.alive n hn
  simp [QuickList.spliceFront, hRt.isEmpty, hMe, rd, wr, a1, a2, a3, a4, a5, h1, h2, hf, Single.pushBackRange,
    Single.pushFrontRange, QuickList.clear, Single.clear, QuickList.spliced]

theorem Rep.attach {h : Heap} {σ : Abs} (hr : Rep h σ) {s t : Nat} {M : List Nat} (hst : s ≠ t)
    (hs : σ.lists s = some []) (ht : σ.lists t = some M) :
    ∃ h', attach h s t = .ok h' ∧ Rep h' ((σ.setList s M).setList t []) := by
  have hRs := hr.ring s _ hs
  have hRt := hr.ring t M ht
  by_cases hM : M = []
  · subst hM
    obtain ⟨h', e1, e2⟩ := hr.clear hs
    refine ⟨h', by simp [QuickList.attach, hRt.isEmpty, e1], ?_⟩
    rw [setList_same hs] at e2 ⊢
    rw [setList_same ht]
    simpa [Abs.setStale] using e2
  obtain ⟨b, B, B', l, hb, hl, h1, h2⟩ := hRt.ends hM
  have hc := hRs.chain
  simp [Chain] at hc
  have hbm : b ∈ M := by rw [hb]; simp
  have hlm : l ∈ M := by rw [hl]; simp
  have hMe : M.isEmpty = false := by cases M with
    | nil => exact absurd rfl hM
    | cons => rfl
  refine ⟨_, ?_, hr.spliced hst hs ht (X := []) (q := s) (Y := []) rfl hc.1 (by simp) hb hl (by simp)⟩
  have a1 := hRt.alive t (by simp)
  have a2 := hRs.alive s (by simp)
  have a3 := hRt.alive b (by simp [hbm])
  have a4 := hRt.alive l (by simp [hlm])
  simp [QuickList.attach, front, back, hRt.isEmpty, hMe, rd, wr, a1, a2, a3, a4, h1, h2, Single.attach,
    QuickList.clear, Single.clear, QuickList.spliced]

/-- The links of the new sentinel are overwritten before they are read, so starting from null links is as good as
starting from an empty list. -/
theorem moveConstructList_eq {h h1 : Heap} {σ : Abs} (hr : Rep h σ) {s t : Nat} {M : List Nat} (hs : σ.Unused s)
    (ht : σ.lists t = some M) (hn : newList h s = .ok h1) : moveConstructList h s t = attach h1 s t := by
  have hu := hr.unused hs
  have hRt := hr.ring t M ht
  have hst : t ≠ s := fun e => hu.2 t M ht (by simp [e])
  rw [QuickList.newList, hu.1] at hn
  simp at hn
  subst hn
  have hel : ∀ x ∈ M, x ≠ s := fun x hx e => hu.2 t M ht (by rw [← e]; simp [hx])
  have hal : ∀ x ∈ t :: M, upd h.alive s true x = true := by
    intro x hx
    rw [upd_other _ _ (fun e : x = s => hu.2 t M ht (e ▸ hx))]
    exact hRt.alive x hx
  by_cases hM : M = []
  · subst hM
    have hc := hRt.chain
    simp [Chain] at hc
    simp [moveConstructList, QuickList.newElem, hu.1, QuickList.attach, isEmpty, Single.empty, rd, hal t (by simp),
      upd_other _ _ hst, hc.1, clear, Single.clear, wr]
    constructor <;> (funext x; by_cases hx : x = s <;> simp [upd, hx])
  · obtain ⟨b, B, B', l, hb, hl, h1, h2⟩ := hRt.ends hM
    have hbm : b ∈ M := by rw [hb]; simp
    have hlm : l ∈ M := by rw [hl]; simp
    have hbt : b ≠ t := fun e => (List.nodup_cons.1 hRt.nodup).1 (e ▸ hbm)
    simp [moveConstructList, QuickList.newElem, hu.1, QuickList.attach, isEmpty, Single.empty, rd, hal t (by simp),
      upd_other _ _ hst, h1, h2, hbt, front, back, Single.attach, wr, hal b (by simp [hbm]), hal l (by simp [hlm]),
      clear, Single.clear]
    constructor <;> (congr 2; funext x; by_cases hx : x = s <;> simp [upd, hx])

theorem Rep.moveConstructList {h : Heap} {σ : Abs} (hr : Rep h σ) {s t : Nat} {M : List Nat} (hs : σ.Unused s)
    (ht : σ.lists t = some M) :
    ∃ h', moveConstructList h s t = .ok h' ∧ Rep h' ((σ.setList s M).setList t []) := by
  obtain ⟨h1, e1, e2⟩ := hr.newList hs
  rw [moveConstructList_eq hr hs ht e1]
  have hst : s ≠ t := by
    rintro rfl
    rw [hs.2] at ht; cases ht
  have hs' : (σ.setList s []).lists s = some [] := by simp [Abs.setList]
  have ht' : (σ.setList s []).lists t = some M := by simp [Abs.setList, upd, Ne.symm hst, ht]
  obtain ⟨h', e3, e4⟩ := e2.attach hst hs' ht'
  refine ⟨h', e3, ?_⟩
  have : (σ.setList s []).setList s M = σ.setList s M := by
    simp only [Abs.setList, Abs.mk.injEq, and_true]
    funext x; by_cases hx : x = s <;> simp [upd, hx]
  rwa [this] at e4

end Verif.QuickList
