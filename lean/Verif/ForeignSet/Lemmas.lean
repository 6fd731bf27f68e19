import Verif.ForeignSet.Model
import Verif.ObservableSet.Mirror
import Verif.VectorSet.Props

/-! # Lemmas about `foreign_set` -/

namespace Verif.ForeignSet

open Verif.VectorSet
open Verif.VectorSet.Spec (eqv)
open Verif.ObservableSet

variable {α κ φ : Type}

theorem byPk_strictWeak {K : Keys α κ φ} (h : StrictWeak K.ltP) : StrictWeak K.byPk :=
  ⟨fun _ => h.irrefl _, fun _ _ _ => h.trans _ _ _, fun _ _ _ => h.incompTrans _ _ _⟩

theorem eqv_false_iff {lt : φ → φ → Bool} {a b : φ} : eqv lt a b = false ↔ lt a b = true ∨ lt b a = true := by
  simp only [eqv]; cases lt a b <;> cases lt b a <;> simp

theorem eqv_true {lt : φ → φ → Bool} {a b : φ} (h : eqv lt a b = true) : lt a b = false ∧ lt b a = false := by
  simpa [eqv] using h

/-- What holds between the events; `S` is the contents of the source. -/
structure FInv (K : Keys α κ φ) (gs : List (OSet α)) (S : α → Prop) : Prop where
  inv : ∀ g ∈ gs, Inv K.byPk g.set
  ne : ∀ g ∈ gs, g.set.forward ≠ []
  same : ∀ g ∈ gs, ∀ x ∈ g.set.forward, ∀ y ∈ g.set.forward, eqv K.ltF (K.fk x) (K.fk y) = true
  sorted : gs.Pairwise (fun g h => ∀ x ∈ g.set.forward, ∀ y ∈ h.set.forward, K.ltF (K.fk x) (K.fk y) = true)
  mem : ∀ x, S x ↔ ∃ g ∈ gs, x ∈ g.set.forward

theorem frontKey_ok (K : Keys α κ φ) {g : OSet α} (h : g.set.forward ≠ []) :
    ∃ x, x ∈ g.set.forward ∧ frontKey K g = .ok (K.fk x) := by
  cases hf : g.set.forward with
  | nil => exact absurd hf h
  | cons x L => exact ⟨x, by simp, by simp [frontKey, hf]⟩

theorem frontKeys_ok (K : Keys α κ φ) (hF : StrictWeak K.ltF) (k : φ) : ∀ (gs : List (OSet α)),
    (∀ g ∈ gs, g.set.forward ≠ []) →
    (∀ g ∈ gs, ∀ x ∈ g.set.forward, ∀ y ∈ g.set.forward, eqv K.ltF (K.fk x) (K.fk y) = true) →
    ∃ ks, frontKeys K gs = .ok ks ∧
    ((∃ A g B, gs = A ++ g :: B ∧ ks.findIdx? (fun k' => eqv K.ltF k' k) = some A.length ∧
        ∀ x ∈ g.set.forward, eqv K.ltF (K.fk x) k = true) ∨
      (ks.findIdx? (fun k' => eqv K.ltF k' k) = none ∧
        ∀ g ∈ gs, ∀ x ∈ g.set.forward, eqv K.ltF (K.fk x) k = false)) := by
  intro gs
  induction gs with
  | nil => intro _ _; exact ⟨[], rfl, Or.inr ⟨rfl, by simp⟩⟩
  | cons g gs ih =>
    intro hne hs
    obtain ⟨x, hx, hk⟩ := frontKey_ok K (hne g (by simp))
    obtain ⟨ks, h1, h2⟩ := ih (fun g' h' => hne g' (by simp [h'])) (fun g' h' => hs g' (by simp [h']))
    refine ⟨K.fk x :: ks, by simp only [frontKeys, hk, h1, Res.ok_bind], ?_⟩
    cases he : eqv K.ltF (K.fk x) k with
    | true =>
      refine Or.inl ⟨[], g, gs, rfl, by simp [List.findIdx?_cons, he], ?_⟩
      intro y hy
      exact StrictWeak.eqv_trans hF (hs g (by simp) y hy x hx) he
    | false =>
      have hg : ∀ y ∈ g.set.forward, eqv K.ltF (K.fk y) k = false := by
        intro y hy
        cases hy' : eqv K.ltF (K.fk y) k with
        | false => rfl
        | true =>
          rw [StrictWeak.eqv_trans hF (hs g (by simp) x hx y hy) hy'] at he; cases he
      rcases h2 with ⟨A, g', B, q1, q2, q3⟩ | ⟨q1, q2⟩
      · exact Or.inl ⟨g :: A, g', B, by simp [q1], by simp [List.findIdx?_cons, he, q2], q3⟩
      · refine Or.inr ⟨by simp [List.findIdx?_cons, he, q1], ?_⟩
        intro g' h'
        rcases List.mem_cons.1 h' with rfl | h'
        · exact hg
        · exact q2 g' h'

theorem frontKeys_place (K : Keys α κ φ) (hF : StrictWeak K.ltF) (k : φ) : ∀ (gs : List (OSet α)) {ks : List φ},
    (∀ g ∈ gs, g.set.forward ≠ []) →
    (∀ g ∈ gs, ∀ x ∈ g.set.forward, ∀ y ∈ g.set.forward, eqv K.ltF (K.fk x) (K.fk y) = true) →
    gs.Pairwise (fun g h => ∀ x ∈ g.set.forward, ∀ y ∈ h.set.forward, K.ltF (K.fk x) (K.fk y) = true) →
    (∀ g ∈ gs, ∀ x ∈ g.set.forward, eqv K.ltF (K.fk x) k = false) → frontKeys K gs = .ok ks →
    ∃ A B, gs = A ++ B ∧ (ks.filter (fun k' => K.ltF k' k)).length = A.length ∧
      (∀ g ∈ A, ∀ x ∈ g.set.forward, K.ltF (K.fk x) k = true) ∧ (∀ g ∈ B, ∀ x ∈ g.set.forward, K.ltF k (K.fk x) = true) := by
  intro gs
  induction gs with
  | nil => 
    intro ks _ _ _ _ h
    simp only [frontKeys, Res.ok.injEq] at h; subst h
    exact ⟨[], [], rfl, rfl, by simp, by simp⟩
  | cons g gs ih =>
    intro ks hne hs hp he h
    obtain ⟨x, hx, hk⟩ := frontKey_ok K (hne g (by simp))
    simp only [frontKeys, hk, Res.ok_bind, Res.bind_eq_ok, Res.ok.injEq] at h
    obtain ⟨ks', h1, rfl⟩ := h
    rw [List.pairwise_cons] at hp
    have hsame := hs g (by simp)
    obtain ⟨A, B, q1, q2, q3, q4⟩ := ih (fun g' h' => hne g' (by simp [h'])) (fun g' h' => hs g' (by simp [h'])) hp.2
      (fun g' h' => he g' (by simp [h'])) h1
    cases hlt : K.ltF (K.fk x) k with
    | true =>
      refine ⟨g :: A, B, by simp [q1], by simp [hlt, q2], ?_, q4⟩
      intro g' h'
      rcases List.mem_cons.1 h' with rfl | h'
      · intro y hy
        have := eqv_true (hsame y hy x hx)
        exact hF.lt_of_eqv_of_lt this.1 this.2 hlt
      · exact q3 g' h'
    | false =>
      have hgt : K.ltF k (K.fk x) = true := by
        rcases eqv_false_iff.1 (he g (by simp) x hx) with h | h
        · rw [h] at hlt; cases hlt
        · exact h
      have hA : A = [] := by
        cases A with
        | nil => rfl
        | cons g' A =>
          exfalso
          have hg' : g' ∈ gs := by rw [q1]; simp
          obtain ⟨y, hy, _⟩ := frontKey_ok K (hne g' (by simp [hg']))
          have h1 := hp.1 g' hg' x hx y hy
          have h2 := q3 g' (by simp) y hy
          have h3 := hF.trans _ _ _ h1 h2
          rw [h3] at hlt; cases hlt
      subst hA
      refine ⟨[], g :: B, by simp [q1], ?_, by simp, ?_⟩
      · simpa [hlt] using q2
      · intro g' h'
        rcases List.mem_cons.1 h' with rfl | h'
        · intro y hy
          have := eqv_true (hsame x hx y hy)
          exact hF.lt_of_lt_of_eqv hgt this.1 this.2
        · exact q4 g' h'

theorem findGroup_ok {K : Keys α κ φ} (hF : StrictWeak K.ltF) {gs : List (OSet α)} {S : α → Prop} (h : FInv K gs S)
    (k : φ) :
    (∃ A g B, gs = A ++ g :: B ∧ findGroup K gs k = .ok (some A.length) ∧
        ∀ x ∈ g.set.forward, eqv K.ltF (K.fk x) k = true) ∨
      (findGroup K gs k = .ok none ∧ ∀ g ∈ gs, ∀ x ∈ g.set.forward, eqv K.ltF (K.fk x) k = false) := by
  obtain ⟨ks, h1, h2⟩ := frontKeys_ok K hF k gs h.ne h.same
  rcases h2 with ⟨A, g, B, q1, q2, q3⟩ | ⟨q1, q2⟩
  · exact Or.inl ⟨A, g, B, q1, by simp only [findGroup, h1, Res.ok_bind, q2], q3⟩
  · exact Or.inr ⟨by simp only [findGroup, h1, Res.ok_bind, q1], q2⟩

/-- Within a group with key `k` of the invariant, the elements are exactly the source's elements with the key. -/
theorem FInv.group {K : Keys α κ φ} (hF : StrictWeak K.ltF) {A B : List (OSet α)} {g : OSet α} {S : α → Prop}
    (h : FInv K (A ++ g :: B) S) {k : φ} (hk : ∀ x ∈ g.set.forward, eqv K.ltF (K.fk x) k = true) (x : α) :
    x ∈ g.set.forward ↔ S x ∧ eqv K.ltF (K.fk x) k = true := by
  constructor
  · intro hx; exact ⟨(h.mem x).2 ⟨g, by simp, hx⟩, hk x hx⟩
  · rintro ⟨hS, hx⟩
    obtain ⟨g', hg', hx'⟩ := (h.mem x).1 hS
    obtain ⟨y, hy, _⟩ := frontKey_ok K (h.ne g (by simp))
    have e1 := eqv_true (hk y hy)
    have e2 := eqv_true hx
    have hp := h.sorted
    rw [List.pairwise_append, List.pairwise_cons] at hp
    rcases List.mem_append.1 hg' with hA | hB
    · have h1 := hp.2.2 g' hA g (by simp) x hx' y hy
      have h2 := hF.lt_of_lt_of_eqv h1 e1.1 e1.2
      rw [e2.1] at h2; cases h2
    · rcases List.mem_cons.1 hB with rfl | hB
      · exact hx'
      · have h1 := hp.2.1.1 g' hB y hy x hx'
        have h2 := hF.lt_of_eqv_of_lt e1.2 e1.1 h1
        rw [e2.2] at h2; cases h2

/-- A group is replaced by another non-empty one with the same key. -/
theorem FInv.replace {K : Keys α κ φ} (hF : StrictWeak K.ltF) {A B : List (OSet α)} {g g' : OSet α} {S S' : α → Prop}
    (h : FInv K (A ++ g :: B) S) {k : φ} (hk : ∀ x ∈ g.set.forward, eqv K.ltF (K.fk x) k = true)
    (hk' : ∀ x ∈ g'.set.forward, eqv K.ltF (K.fk x) k = true) (hi : Inv K.byPk g'.set) (hne : g'.set.forward ≠ [])
    (hS : ∀ x, S' x ↔ (S x ∧ x ∉ g.set.forward) ∨ x ∈ g'.set.forward) : FInv K (A ++ g' :: B) S' := by
  obtain ⟨y, hy, _⟩ := frontKey_ok K (h.ne g (by simp))
  have hmem : ∀ f ∈ A ++ g' :: B, f = g' ∨ (f ∈ A ++ g :: B ∧ (f ∈ A ∨ f ∈ B)) := by
    intro f hf
    rcases List.mem_append.1 hf with hf | hf
    · exact Or.inr ⟨by simp [hf], Or.inl hf⟩
    · rcases List.mem_cons.1 hf with hf | hf
      · exact Or.inl hf
      · exact Or.inr ⟨by simp [hf], Or.inr hf⟩
  have hp := h.sorted
  rw [List.pairwise_append, List.pairwise_cons] at hp
  have hxy : ∀ x ∈ g'.set.forward, K.ltF (K.fk x) (K.fk y) = false ∧ K.ltF (K.fk y) (K.fk x) = false := by
    intro x hx
    exact eqv_true (StrictWeak.eqv_trans hF (hk' x hx) (by rw [eqv_symm]; exact hk y hy))
  refine ⟨?_, ?_, ?_, ?_, ?_⟩
  · intro f hf
    rcases hmem f hf with rfl | hf
    · exact hi
    · exact h.inv f hf.1
  · intro f hf
    rcases hmem f hf with rfl | hf
    · exact hne
    · exact h.ne f hf.1
  · intro f hf
    rcases hmem f hf with rfl | hf
    · intro a ha b hb
      exact StrictWeak.eqv_trans hF (hk' a ha) (by rw [eqv_symm]; exact hk' b hb)
    · exact h.same f hf.1
  · rw [List.pairwise_append, List.pairwise_cons]
    refine ⟨hp.1, ⟨?_, hp.2.1.2⟩, ?_⟩
    · intro f hf a ha b hb
      exact hF.lt_of_eqv_of_lt (hxy a ha).1 (hxy a ha).2 (hp.2.1.1 f hf y hy b hb)
    · intro f hf f' hf' a ha b hb
      rcases List.mem_cons.1 hf' with rfl | hf'
      · exact hF.lt_of_lt_of_eqv (hp.2.2 f hf g (by simp) a ha y hy) (hxy b hb).2 (hxy b hb).1
      · exact hp.2.2 f hf f' (by simp [hf']) a ha b hb
  · intro x
    rw [hS]
    have hg := h.group hF hk x
    constructor
    · rintro (⟨hs, hx⟩ | hx)
      · obtain ⟨f, hf, hxf⟩ := (h.mem x).1 hs
        refine ⟨f, ?_, hxf⟩
        rcases List.mem_append.1 hf with hf | hf
        · simp [hf]
        · rcases List.mem_cons.1 hf with rfl | hf
          · exact absurd hxf hx
          · simp [hf]
      · exact ⟨g', by simp, hx⟩
    · rintro ⟨f, hf, hxf⟩
      rcases hmem f hf with rfl | ⟨hf, hAB⟩
      · exact Or.inr hxf
      · refine Or.inl ⟨(h.mem x).2 ⟨f, hf, hxf⟩, ?_⟩
        intro hx
        have e := h.same g (by simp)
        rcases hAB with hA | hB
        · have h1 := hp.2.2 f hA g (by simp) x hxf x hx
          rw [hF.irrefl] at h1; cases h1
        · have h1 := hp.2.1.1 f hB x hx x hxf
          rw [hF.irrefl] at h1; cases h1

/-- A group is removed. -/
theorem FInv.remove {K : Keys α κ φ} (hF : StrictWeak K.ltF) {A B : List (OSet α)} {g : OSet α} {S S' : α → Prop}
    (h : FInv K (A ++ g :: B) S) (hS : ∀ x, S' x ↔ (S x ∧ x ∉ g.set.forward)) : FInv K (A ++ B) S' := by
  have hp := h.sorted
  rw [List.pairwise_append, List.pairwise_cons] at hp
  have hmem : ∀ f ∈ A ++ B, f ∈ A ++ g :: B := by
    intro f hf
    rcases List.mem_append.1 hf with hf | hf <;> simp [hf]
  refine ⟨fun f hf => h.inv f (hmem f hf), fun f hf => h.ne f (hmem f hf), fun f hf => h.same f (hmem f hf), ?_, ?_⟩
  · rw [List.pairwise_append]
    exact ⟨hp.1, hp.2.1.2, fun f hf f' hf' => hp.2.2 f hf f' (by simp [hf'])⟩
  · intro x
    rw [hS]
    constructor
    · rintro ⟨hs, hx⟩
      obtain ⟨f, hf, hxf⟩ := (h.mem x).1 hs
      refine ⟨f, ?_, hxf⟩
      rcases List.mem_append.1 hf with hf | hf
      · simp [hf]
      · rcases List.mem_cons.1 hf with rfl | hf
        · exact absurd hxf hx
        · simp [hf]
    · rintro ⟨f, hf, hxf⟩
      refine ⟨(h.mem x).2 ⟨f, hmem f hf, hxf⟩, ?_⟩
      intro hx
      rcases List.mem_append.1 hf with hA | hB
      · have h1 := hp.2.2 f hA g (by simp) x hxf x hx
        rw [hF.irrefl] at h1; cases h1
      · have h1 := hp.2.1.1 f hB x hx x hxf
        rw [hF.irrefl] at h1; cases h1

/-- A group with a new key is put in its place. -/
theorem FInv.add {K : Keys α κ φ} (hF : StrictWeak K.ltF) {A B : List (OSet α)} {g : OSet α} {S S' : α → Prop} {v : α}
    (h : FInv K (A ++ B) S) (hg : g.set.forward = [v]) (hi : Inv K.byPk g.set)
    (hA : ∀ f ∈ A, ∀ x ∈ f.set.forward, K.ltF (K.fk x) (K.fk v) = true)
    (hB : ∀ f ∈ B, ∀ x ∈ f.set.forward, K.ltF (K.fk v) (K.fk x) = true)
    (hS : ∀ x, S' x ↔ (S x ∨ x = v)) : FInv K (A ++ g :: B) S' := by
  have hp := h.sorted
  rw [List.pairwise_append] at hp
  have hmem : ∀ f ∈ A ++ g :: B, f = g ∨ f ∈ A ++ B := by
    intro f hf
    rcases List.mem_append.1 hf with hf | hf
    · exact Or.inr (by simp [hf])
    · rcases List.mem_cons.1 hf with hf | hf
      · exact Or.inl hf
      · exact Or.inr (by simp [hf])
  refine ⟨?_, ?_, ?_, ?_, ?_⟩
  · intro f hf
    rcases hmem f hf with rfl | hf
    · exact hi
    · exact h.inv f hf
  · intro f hf
    rcases hmem f hf with rfl | hf
    · simp [hg]
    · exact h.ne f hf
  · intro f hf
    rcases hmem f hf with rfl | hf
    · rw [hg]
      intro a ha b hb
      simp only [List.mem_singleton] at ha hb
      subst ha; subst hb
      exact eqv_refl hF _
    · exact h.same f hf
  · rw [List.pairwise_append, List.pairwise_cons]
    refine ⟨hp.1, ⟨?_, hp.2.1⟩, ?_⟩
    · intro f hf a ha b hb
      rw [hg, List.mem_singleton] at ha; subst ha
      exact hB f hf b hb
    · intro f hf f' hf' a ha b hb
      rcases List.mem_cons.1 hf' with rfl | hf'
      · rw [hg, List.mem_singleton] at hb; subst hb
        exact hA f hf a ha
      · exact hp.2.2 f hf f' hf' a ha b hb
  · intro x
    rw [hS, h.mem]
    constructor
    · rintro (⟨f, hf, hx⟩ | rfl)
      · refine ⟨f, ?_, hx⟩
        rcases List.mem_append.1 hf with hf | hf <;> simp [hf]
      · exact ⟨g, by simp, by simp [hg]⟩
    · rintro ⟨f, hf, hx⟩
      rcases hmem f hf with rfl | hf
      · right; simpa [hg] using hx
      · exact Or.inl ⟨f, hf, hx⟩

theorem getElem_mid {β : Type} (A B : List β) (g : β) : (A ++ g :: B)[A.length]? = some g := by simp
theorem set_mid {β : Type} (A B : List β) (g g' : β) : (A ++ g :: B).set A.length g' = A ++ g' :: B := by simp
theorem eraseIdx_mid {β : Type} (A B : List β) (g : β) : (A ++ g :: B).eraseIdx A.length = A ++ B := by
  rw [List.eraseIdx_append_of_length_le (Nat.le_refl _)]; simp

/-- Distinct elements have distinct primary keys, for the elements that occur. -/
def PrimaryUnique (K : Keys α κ φ) (lt : α → α → Bool) (P : α → Prop) : Prop :=
  ∀ a b, P a → P b → eqv K.ltP (K.pk a) (K.pk b) = true → eqv lt a b = true

/-- `OnAdded`. -/
theorem onAdded_ok {K : Keys α κ φ} (hP : StrictWeak K.ltP) (hF : StrictWeak K.ltF) {lt : α → α → Bool}
    {P S : α → Prop} (hu : PrimaryUnique K lt P) {gs : List (OSet α)} (h : FInv K gs S) (hSP : ∀ a, S a → P a) {v : α}
    (hv : P v) (hval : Valid lt S (.added v)) :
    ∃ gs' evs, onAdded K gs v = .ok (gs', evs) ∧ FInv K gs' (applyEvent S (.added v)) ∧
      (((∃ x, S x ∧ eqv K.ltF (K.fk x) (K.fk v) = true) ∧ evs = []) ∨
       ((∀ x, S x → eqv K.ltF (K.fk x) (K.fk v) = false) ∧ evs = [.added [v]])) := by
  have hlt := byPk_strictWeak hP
  have hnew : ∀ g ∈ gs, g.set.forward.any (fun a => eqv K.byPk a v) = false := by
    intro g hg
    rw [List.any_eq_false]
    intro a ha hav
    have hS := (h.mem a).2 ⟨g, hg, ha⟩
    have := hu a v (hSP a hS) hv hav
    rw [hval a hS] at this; cases this
  have hins : ∀ o : OSet α, Inv K.byPk o.set → o.set.forward.any (fun a => eqv K.byPk a v) = false →
      ∃ s notes, o.insert K.byPk v = .ok ({ o with set := s }, .inserted v true, notes) ∧ Inv K.byPk s ∧
        s.forward = o.set.forward.filter (fun a => K.byPk a v) ++ v :: o.set.forward.filter (fun a => K.byPk v a) := by
    intro o ho hany
    have hf : o.set.forward.find? (fun a => eqv K.byPk a v) = none := by
      rw [List.find?_eq_none]; rw [List.any_eq_false] at hany; exact hany
    obtain ⟨s, k1, k2, k3⟩ := oset_step (o := o) hlt ho (.insert v) (S' := o.set.forward.filter (fun a => K.byPk a v) ++
      v :: o.set.forward.filter (fun a => K.byPk v a)) (out := .inserted v true) (by simp only [Spec.step, hf])
    exact ⟨s, _, k1, k2, k3⟩
  rcases findGroup_ok hF h (K.fk v) with ⟨A, g, B, rfl, q2, q3⟩ | ⟨q1, q2⟩
  · obtain ⟨s, notes, k1, k2, k3⟩ := hins g (h.inv g (by simp)) (hnew g (by simp))
    refine ⟨A ++ { g with set := s } :: B, [], ?_, ?_, Or.inl ⟨?_, rfl⟩⟩
    · simp only [onAdded, q2, Res.ok_bind, getElem_mid, k1, set_mid]
    · have hm := mem_insert (hnew g (by simp))
      refine h.replace hF q3 ?_ k2 ?_ ?_
      · intro x hx
        have hx : x ∈ s.forward := hx
        rw [k3, hm] at hx
        rcases hx with hx | rfl
        · exact q3 x hx
        · exact eqv_refl hF _
      · show s.forward ≠ []
        rw [k3]; simp
      · intro x
        show S x ∨ x = v ↔ (S x ∧ x ∉ g.set.forward) ∨ x ∈ s.forward
        rw [k3, hm]
        have : x ∈ g.set.forward → S x := fun hx => (h.mem x).2 ⟨g, by simp, hx⟩
        by_cases hx : x ∈ g.set.forward <;> simp_all
    · obtain ⟨y, hy, _⟩ := frontKey_ok K (h.ne g (by simp))
      exact ⟨y, (h.mem y).2 ⟨g, by simp, hy⟩, q3 y hy⟩
  · obtain ⟨s, notes, k1, k2, k3⟩ := hins OSet.empty (Inv.empty _) (by simp [OSet.empty, VSet.empty, VSet.forward])
    have k3 : s.forward = [v] := by simpa [OSet.empty, VSet.empty, VSet.forward] using k3
    obtain ⟨ks, f1, f2⟩ := frontKeys_ok K hF (K.fk v) gs h.ne h.same
    have f2 : ks.findIdx? (fun k' => eqv K.ltF k' (K.fk v)) = none := by
      rcases f2 with ⟨A, g, B, r1, _, r3⟩ | ⟨r, _⟩
      · exfalso
        obtain ⟨y, hy, _⟩ := frontKey_ok K (h.ne g (by simp [r1]))
        have := q2 g (by simp [r1]) y hy
        rw [r3 y hy] at this; cases this
      · exact r
    obtain ⟨A, B, r1, r2, r3, r4⟩ := frontKeys_place K hF (K.fk v) gs h.ne h.same h.sorted q2 f1
    refine ⟨A ++ { (OSet.empty : OSet α) with set := s } :: B, [.added [v]], ?_, ?_, Or.inr ⟨?_, rfl⟩⟩
    · have hfk : frontKey K { (OSet.empty : OSet α) with set := s } = .ok (K.fk v) := by simp [frontKey, k3]
      simp only [onAdded, q1, Res.ok_bind, k1, insertGroup, f1, hfk, f2, r2, k3]
      subst r1
      simp
    · subst r1
      exact h.add hF k3 k2 r3 r4 (fun x => Iff.rfl)
    · intro x hx
      obtain ⟨g, hg, hxg⟩ := (h.mem x).1 hx
      exact q2 g hg x hxg

/-- `OnRemoving`. -/
theorem onRemoving_ok {K : Keys α κ φ} (hP : StrictWeak K.ltP) (hF : StrictWeak K.ltF) {S : α → Prop}
    {gs : List (OSet α)} (h : FInv K gs S) {v : α} (hv : S v) :
    ∃ gs' evs, onRemoving K gs v = .ok (gs', evs) ∧ FInv K gs' (applyEvent S (.removing v)) ∧
      (((∃ x, S x ∧ x ≠ v ∧ eqv K.ltF (K.fk x) (K.fk v) = true) ∧ evs = []) ∨
       ((∀ x, S x → x ≠ v → eqv K.ltF (K.fk x) (K.fk v) = false) ∧ evs = [.removing [v]])) := by
  have hlt := byPk_strictWeak hP
  rcases findGroup_ok hF h (K.fk v) with ⟨A, g, B, rfl, q2, q3⟩ | ⟨q1, q2⟩
  · have hvg : v ∈ g.set.forward := (h.group hF q3 v).2 ⟨hv, eqv_refl hF _⟩
    have hi := h.inv g (by simp)
    have hsz : g.set.size = g.set.forward.length := by rw [hi.forward]; simp [VSet.size, cnt_eq hi.cnt, vals]
    have hsort : g.set.forward.Pairwise (fun a b => K.byPk a b = true) := by rw [hi.forward]; exact hi.vals_sorted
    by_cases h1 : g.set.size = 1
    · have hone : g.set.forward = [v] := by
        rw [hsz] at h1
        obtain ⟨y, hy⟩ := List.length_eq_one_iff.1 h1
        rw [hy, List.mem_singleton] at hvg
        rw [hy, hvg]
      have hfk : frontKey K g = .ok (K.fk v) := by simp [frontKey, hone]
      refine ⟨A ++ B, [.removing [v]], ?_, ?_, Or.inr ⟨?_, rfl⟩⟩
      · simp only [onRemoving, q2, Res.ok_bind, getElem_mid, h1, if_true, hfk, eraseIdx_mid, hone]
      · exact h.remove hF (fun x => by simp [applyEvent, hone])
      · intro x hx hne
        cases he : eqv K.ltF (K.fk x) (K.fk v) with
        | false => rfl
        | true =>
          have := (h.group hF q3 x).2 ⟨hx, he⟩
          rw [hone, List.mem_singleton] at this
          exact absurd this hne
    · have hvv : eqv K.byPk v v = true := eqv_refl hlt v
      have hany : g.set.forward.any (fun a => eqv K.byPk a v) = true := by
        rw [List.any_eq_true]; exact ⟨v, hvg, hvv⟩
      obtain ⟨s, k1, k2, k3⟩ := oset_step (o := g) hlt hi (.eraseKey v) rfl
      simp only [OSet.step, hany, if_true] at k1
      have hm := mem_erase_eqv hlt hsort hvg hvv
      obtain ⟨x, hx, hxv⟩ : ∃ x ∈ g.set.forward, x ≠ v := by
        cases hl : g.set.forward with
        | nil => rw [hl] at hvg; simp at hvg
        | cons a L =>
          cases L with
          | nil => rw [hsz, hl] at h1; simp at h1
          | cons b L =>
            have hn := sorted_nodup hlt hsort
            rw [hl] at hn
            by_cases hav : a = v
            · subst hav
              refine ⟨b, by simp, ?_⟩
              rintro rfl
              simp at hn
            · exact ⟨a, by simp, hav⟩
      refine ⟨A ++ { g with set := s } :: B, [], ?_, ?_, Or.inl ⟨⟨x, (h.mem x).2 ⟨g, by simp, hx⟩, hxv, q3 x hx⟩, rfl⟩⟩
      · simp only [onRemoving, q2, Res.ok_bind, getElem_mid, h1, if_false, k1, set_mid]
      · refine h.replace hF q3 ?_ k2 ?_ ?_
        · intro y hy
          have hy : y ∈ s.forward := hy
          rw [k3, hm] at hy
          exact q3 y hy.1
        · show s.forward ≠ []
          intro hnil
          have : x ∈ s.forward := by rw [k3, hm]; exact ⟨hx, hxv⟩
          rw [hnil] at this; simp at this
        · intro y
          show S y ∧ y ≠ v ↔ (S y ∧ y ∉ g.set.forward) ∨ y ∈ s.forward
          rw [k3, hm]
          have : y ∈ g.set.forward → S y := fun hy => (h.mem y).2 ⟨g, by simp, hy⟩
          by_cases hy : y ∈ g.set.forward
          · simp [hy, this hy]
          · have : y ≠ v := by rintro rfl; exact hy hvg
            simp [hy, this]
  · exfalso
    obtain ⟨g, hg, hx⟩ := (h.mem v).1 hv
    have := q2 g hg v hx
    rw [eqv_refl hF] at this; cases this

theorem onClearing_ok {K : Keys α κ φ} {S : α → Prop} {gs : List (OSet α)} (h : FInv K gs S) :
    FInv K (onClearing gs).1 (applyEvent S .clearing) ∧
      (((∀ x, ¬ S x) ∧ (onClearing gs).2 = []) ∨ ((∃ x, S x) ∧ (onClearing gs).2 = [.clearing])) := by
  cases gs with
  | nil =>
    have : ∀ x, ¬ S x := fun x hx => by obtain ⟨g, hg, _⟩ := (h.mem x).1 hx; simp at hg
    exact ⟨⟨by simp [onClearing], by simp [onClearing], by simp [onClearing], by simp [onClearing],
      fun x => by simp [onClearing, applyEvent]⟩, Or.inl ⟨this, rfl⟩⟩
  | cons g gs =>
    obtain ⟨y, hy, _⟩ := frontKey_ok K (h.ne g (by simp))
    exact ⟨⟨by simp [onClearing], by simp [onClearing], by simp [onClearing], by simp [onClearing],
      fun x => by simp [onClearing, applyEvent]⟩, Or.inr ⟨⟨y, (h.mem y).2 ⟨g, by simp, hy⟩⟩, rfl⟩⟩

theorem foreignRun_ok {K : Keys α κ φ} (hP : StrictWeak K.ltP) (hF : StrictWeak K.ltF) {lt : α → α → Bool}
    {P : α → Prop} (hu : PrimaryUnique K lt P) : ∀ (es : List (Event α)) {S T : α → Prop} {gs : List (OSet α)},
    FInv K gs S → (∀ a, S a → P a) → (∀ e ∈ es, Introduces P e) → Replays lt S es T →
    ∃ gs', foreignRun K gs es = .ok gs' ∧ FInv K gs' T := by
  intro es
  induction es with
  | nil =>
    intro S T gs h _ _ hr
    exact ⟨gs, rfl, h.inv, h.ne, h.same, h.sorted, fun x => (hr x).symm.trans (h.mem x)⟩
  | cons e es ih =>
    intro S T gs h hSP he hr
    have hSP' : ∀ a, applyEvent S e a → P a :=
      replays_introduces [e] (lt := lt) (T := applyEvent S e) ⟨hr.1, fun _ => Iff.rfl⟩ (by simpa using he e (by simp)) hSP
    have step : ∃ gs1 evs, foreignOn K gs e = .ok (gs1, evs) ∧ FInv K gs1 (applyEvent S e) := by
      cases e with
      | added v =>
        obtain ⟨g1, evs, k1, k2, _⟩ := onAdded_ok hP hF hu h hSP (he (.added v) (by simp)) hr.1
        exact ⟨g1, evs, k1, k2⟩
      | removing v =>
        obtain ⟨g1, evs, k1, k2, _⟩ := onRemoving_ok hP hF h hr.1
        exact ⟨g1, evs, k1, k2⟩
      | clearing => exact ⟨_, _, rfl, (onClearing_ok h).1⟩
    obtain ⟨gs1, evs, k1, k2⟩ := step
    obtain ⟨gs2, l1, l2⟩ := ih k2 hSP' (fun e' h' => he e' (by simp [h'])) hr.2
    exact ⟨gs2, by simp only [foreignRun, k1, Res.ok_bind, l1], l2⟩

theorem FInv.empty (K : Keys α κ φ) : FInv K [] (fun _ => False) :=
  ⟨by simp, by simp, by simp, by simp, by simp⟩

end Verif.ForeignSet
