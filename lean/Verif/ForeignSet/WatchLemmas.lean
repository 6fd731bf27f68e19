import Verif.ForeignSet.WatchSpec
import Verif.ForeignSet.Lemmas
import Verif.ObservableSet.World

/-! # Lemmas about the observers of the groups -/

namespace Verif.ForeignSet.Watch

open Verif.VectorSet
open Verif.VectorSet.Spec (eqv)
open Verif.ObservableSet

variable {α κ φ : Type}

/-- The calls are those of the model of C21 with something added. -/
theorem on_forget (K : Keys α κ φ) (gs : List (OSet α)) (e : Event α) {gs' : List (OSet α)} {evs : List (Event (List α))} {notes : List (Note α)}
    (h : on K gs e = .ok (gs', evs, notes)) : foreignOn K gs e = .ok (gs', evs) := by
  cases e with
  | clearing =>
    simp only [on, onClearing] at h
    simp only [foreignOn, ForeignSet.onClearing]
    split at h <;> rename_i hc <;> simp only [hc] <;> cases h <;> rfl
  | added v =>
    simp only [on, onAdded, Res.bind_eq_ok] at h
    obtain ⟨r, h1, h2⟩ := h
    simp only [foreignOn, ForeignSet.onAdded, h1, Res.ok_bind]
    cases r with
    | some i =>
      simp only at h2 ⊢
      cases hg : gs[i]? with
      | none => rw [hg] at h2; cases h2
      | some g =>
        rw [hg] at h2
        simp only [Res.bind_eq_ok, Prod.exists] at h2 ⊢
        obtain ⟨g', o, ns, h3, h4⟩ := h2
        simp only [Res.ok.injEq, Prod.mk.injEq] at h4
        exact ⟨g', o, ns, h3, by rw [h4.1, h4.2.1]⟩
    | none =>
      simp only [Res.bind_eq_ok, Prod.exists] at h2 ⊢
      obtain ⟨g', o, ns, h3, gs1, h4, h5⟩ := h2
      simp only [Res.ok.injEq, Prod.mk.injEq] at h5
      exact ⟨g', o, ns, h3, gs1, h4, by rw [h5.1, h5.2.1]⟩
  | removing v =>
    simp only [on, onRemoving, Res.bind_eq_ok] at h
    obtain ⟨r, h1, h2⟩ := h
    simp only [foreignOn, ForeignSet.onRemoving, h1, Res.ok_bind]
    cases r with
    | none => cases h2
    | some i =>
      simp only at h2 ⊢
      cases hg : gs[i]? with
      | none => rw [hg] at h2; cases h2
      | some g =>
        rw [hg] at h2
        simp only at h2 ⊢
        by_cases hs : g.set.size = 1
        · rw [if_pos hs] at h2 ⊢
          simp only [Res.bind_eq_ok] at h2 ⊢
          obtain ⟨k, h3, r, h4, h5⟩ := h2
          refine ⟨k, h3, r, h4, ?_⟩
          cases r with
          | none => simp only [Res.ok.injEq, Prod.mk.injEq] at h5 ⊢; exact ⟨h5.1, h5.2.1⟩
          | some j =>
            simp only at h5 ⊢
            cases hj : gs[j]? with
            | none => rw [hj] at h5; cases h5
            | some h => rw [hj] at h5; simp only [Res.ok.injEq, Prod.mk.injEq] at h5 ⊢; exact ⟨h5.1, h5.2.1⟩
        · rw [if_neg hs] at h2 ⊢
          simp only [Res.bind_eq_ok, Prod.exists] at h2 ⊢
          obtain ⟨g', o, ns, h3, h4⟩ := h2
          refine ⟨g', o, ns, h3, ?_⟩
          split at h4
          · simp only [Res.ok.injEq, Prod.mk.injEq] at h4 ⊢; exact ⟨h4.1, h4.2.1⟩
          · cases h4

/-- All the elements of the group have the foreign key `k`. -/
def Keyed (K : Keys α κ φ) (g : OSet α) (k : φ) : Prop := ∀ x ∈ g.set.forward, eqv K.ltF (K.fk x) k = true

theorem onAdded_form {K : Keys α κ φ} (hP : StrictWeak K.ltP) (hF : StrictWeak K.ltF) {S : α → Prop} {gs : List (OSet α)} (h : FInv K gs S) {v : α}
    (hval : Valid K.byPk S (.added v)) :
    (∃ A g B s, gs = A ++ g :: B ∧ Keyed K g (K.fk v) ∧
      onAdded K gs v = .ok (A ++ ⟨s, g.subs⟩ :: B, [], deliver g.subs [(.added v, s.forward)]) ∧
      FInv K (A ++ ⟨s, g.subs⟩ :: B) (applyEvent S (.added v)) ∧ ∀ x, x ∈ s.forward ↔ x ∈ g.set.forward ∨ x = v) ∨
    (∃ A B s evs, gs = A ++ B ∧ (∀ x, S x → eqv K.ltF (K.fk x) (K.fk v) = false) ∧ onAdded K gs v = .ok (A ++ ⟨s, []⟩ :: B, evs, []) ∧
      FInv K (A ++ ⟨s, []⟩ :: B) (applyEvent S (.added v))) := by
  have hlt := byPk_strictWeak hP
  have hnew : ∀ g ∈ gs, g.set.forward.any (fun a => eqv K.byPk a v) = false := by
    intro g hg
    rw [List.any_eq_false]
    intro a ha hav
    have := hval a ((h.mem a).2 ⟨g, hg, ha⟩)
    rw [this] at hav; cases hav
  have hins : ∀ o : OSet α, Inv K.byPk o.set → o.set.forward.any (fun a => eqv K.byPk a v) = false →
      ∃ s, o.insert K.byPk v = .ok (⟨s, o.subs⟩, .inserted v true, deliver o.subs [(.added v, s.forward)]) ∧ Inv K.byPk s ∧
        s.forward = o.set.forward.filter (fun a => K.byPk a v) ++ v :: o.set.forward.filter (fun a => K.byPk v a) := by
    intro o ho hany
    have hf : o.set.forward.find? (fun a => eqv K.byPk a v) = none := by
      rw [List.find?_eq_none]; rw [List.any_eq_false] at hany; exact hany
    obtain ⟨s, k1, k2, k3⟩ := oset_step (o := o) hlt ho (.insert v) (S' := o.set.forward.filter (fun a => K.byPk a v) ++
      v :: o.set.forward.filter (fun a => K.byPk v a)) (out := .inserted v true) (by simp only [Spec.step, hf])
    simp only [OSet.step, expected, hany, Bool.false_eq_true, if_false, ← k3] at k1
    exact ⟨s, k1, k2, k3⟩
  rcases findGroup_ok hF h (K.fk v) with ⟨A, g, B, rfl, q2, q3⟩ | ⟨q1, q2⟩
  · obtain ⟨s, k1, k2, k3⟩ := hins g (h.inv g (by simp)) (hnew g (by simp))
    have hm := mem_insert (hnew g (by simp))
    refine Or.inl ⟨A, g, B, s, rfl, q3, ?_, ?_, fun x => by rw [k3, hm]⟩
    · simp only [onAdded, q2, Res.ok_bind, getElem_mid, k1, set_mid]
    · refine h.replace hF q3 ?_ k2 ?_ ?_
      · intro x hx
        have hx : x ∈ s.forward := hx
        rw [k3, hm] at hx
        rcases hx with hx | rfl
        · exact q3 x hx
        · exact eqv_refl hF _
      · show s.forward ≠ []
        rw [k3]; simp
      · intro x
        show S x ∨ x = v ↔ (S x ∧ x ∉ g.set.forward) ∨ x ∈ s.forward
        rw [k3, hm]
        have : x ∈ g.set.forward → S x := fun hx => (h.mem x).2 ⟨g, by simp, hx⟩
        by_cases hx : x ∈ g.set.forward <;> simp_all
  · obtain ⟨s, k1, k2, k3⟩ := hins OSet.empty (Inv.empty _) (by simp [OSet.empty, VSet.empty, VSet.forward])
    have k3 : s.forward = [v] := by simpa [OSet.empty, VSet.empty, VSet.forward] using k3
    obtain ⟨ks, f1, f2⟩ := frontKeys_ok K hF (K.fk v) gs h.ne h.same
    have f2 : ks.findIdx? (fun k' => eqv K.ltF k' (K.fk v)) = none := by
      rcases f2 with ⟨A, g, B, r1, _, r3⟩ | ⟨r, _⟩
      · exfalso
        obtain ⟨y, hy, _⟩ := frontKey_ok K (h.ne g (by simp [r1]))
        have := q2 g (by simp [r1]) y hy
        rw [r3 y hy] at this; cases this
      · exact r
    obtain ⟨A, B, r1, r2, r3, r4⟩ := frontKeys_place K hF (K.fk v) gs h.ne h.same h.sorted q2 f1
    refine Or.inr ⟨A, B, s, [.added [v]], r1, ?_, ?_, ?_⟩
    · intro x hx
      obtain ⟨g, hg, hxg⟩ := (h.mem x).1 hx
      exact q2 g hg x hxg
    · have hfk : frontKey K (⟨s, []⟩ : OSet α) = .ok (K.fk v) := by simp [frontKey, k3]
      have k1 : OSet.empty.insert K.byPk v = .ok (⟨s, []⟩, .inserted v true, []) := by rw [k1]; simp [deliver, OSet.empty]
      simp only [onAdded, q1, Res.ok_bind, k1, insertGroup, f1, hfk, f2, r2, k3]
      subst r1
      simp
    · subst r1
      exact h.add hF k3 k2 r3 r4 (fun x => Iff.rfl)

theorem onRemoving_form {K : Keys α κ φ} (hP : StrictWeak K.ltP) (hF : StrictWeak K.ltF) {S : α → Prop} {gs : List (OSet α)} (h : FInv K gs S) {v : α}
    (hv : S v) :
    ∃ A g B, gs = A ++ g :: B ∧ Keyed K g (K.fk v) ∧ v ∈ g.set.forward ∧
    ((∃ s x, onRemoving K gs v = .ok (A ++ ⟨s, g.subs⟩ :: B, [], deliver g.subs [(.removing v, g.set.forward)]) ∧
        FInv K (A ++ ⟨s, g.subs⟩ :: B) (applyEvent S (.removing v)) ∧ (∀ y, y ∈ s.forward ↔ y ∈ g.set.forward ∧ y ≠ v) ∧ x ∈ g.set.forward ∧ x ≠ v) ∨
     (g.set.forward = [v] ∧ (∃ evs, onRemoving K gs v = .ok (A ++ B, evs, deliver g.subs [(.clearing, g.set.forward)])) ∧
        FInv K (A ++ B) (applyEvent S (.removing v)))) := by
  have hlt := byPk_strictWeak hP
  rcases findGroup_ok hF h (K.fk v) with ⟨A, g, B, rfl, q2, q3⟩ | ⟨q1, q2⟩
  · have hvg : v ∈ g.set.forward := (h.group hF q3 v).2 ⟨hv, eqv_refl hF _⟩
    have hi := h.inv g (by simp)
    have hsz : g.set.size = g.set.forward.length := by rw [hi.forward]; simp [VSet.size, cnt_eq hi.cnt, vals]
    have hsort : g.set.forward.Pairwise (fun a b => K.byPk a b = true) := by rw [hi.forward]; exact hi.vals_sorted
    refine ⟨A, g, B, rfl, q3, hvg, ?_⟩
    by_cases h1 : g.set.size = 1
    · have hone : g.set.forward = [v] := by
        rw [hsz] at h1
        obtain ⟨y, hy⟩ := List.length_eq_one_iff.1 h1
        rw [hy, List.mem_singleton] at hvg
        rw [hy, hvg]
      have hfk : frontKey K g = .ok (K.fk v) := by simp [frontKey, hone]
      have hd : destroyed g = deliver g.subs [(.clearing, g.set.forward)] := by
        simp only [destroyed, isEmpty_iff hi, notify_eq, hone]; rfl
      refine Or.inr ⟨hone, ⟨[.removing [v]], ?_⟩, ?_⟩
      · simp only [onRemoving, q2, Res.ok_bind, getElem_mid, h1, if_true, hfk, eraseIdx_mid, hd, hone]
      · exact h.remove hF (fun x => by simp [applyEvent, hone])
    · have hvv : eqv K.byPk v v = true := eqv_refl hlt v
      have hany : g.set.forward.any (fun a => eqv K.byPk a v) = true := by
        rw [List.any_eq_true]; exact ⟨v, hvg, hvv⟩
      have hfind : g.set.forward.find? (fun a => eqv K.byPk a v) = some v := by
        cases hf : g.set.forward.find? (fun a => eqv K.byPk a v) with
        | none => rw [List.find?_eq_none] at hf; exact absurd hvv (hf v hvg)
        | some y =>
          have hy := List.mem_of_find?_eq_some hf
          have hk := List.find?_some (p := fun a => eqv K.byPk a v) hf
          rw [sorted_unique hsort hy hvg hk]
      obtain ⟨s, k1, k2, k3⟩ := oset_step (o := g) hlt hi (.eraseKey v) rfl
      simp only [OSet.step, hany, if_true, expected, hfind] at k1
      have hm := mem_erase_eqv hlt hsort hvg hvv
      obtain ⟨x, hx, hxv⟩ : ∃ x ∈ g.set.forward, x ≠ v := by
        cases hl : g.set.forward with
        | nil => rw [hl] at hvg; simp at hvg
        | cons a L =>
          cases L with
          | nil => rw [hsz, hl] at h1; simp at h1
          | cons b L =>
            have hn := sorted_nodup hlt hsort
            rw [hl] at hn
            by_cases hav : a = v
            · subst hav
              refine ⟨b, by simp, ?_⟩
              rintro rfl
              simp at hn
            · exact ⟨a, by simp, hav⟩
      refine Or.inl ⟨s, x, ?_, ?_, fun y => by rw [k3, hm], hx, hxv⟩
      · simp only [onRemoving, q2, Res.ok_bind, getElem_mid, h1, if_false, k1, set_mid]
      · refine h.replace hF q3 ?_ k2 ?_ ?_
        · intro y hy
          have hy : y ∈ s.forward := hy
          rw [k3, hm] at hy
          exact q3 y hy.1
        · show s.forward ≠ []
          intro hnil
          have : x ∈ s.forward := by rw [k3, hm]; exact ⟨hx, hxv⟩
          rw [hnil] at this; simp at this
        · intro y
          show S y ∧ y ≠ v ↔ (S y ∧ y ∉ g.set.forward) ∨ y ∈ s.forward
          rw [k3, hm]
          have : y ∈ g.set.forward → S y := fun hy => (h.mem y).2 ⟨g, by simp, hy⟩
          by_cases hy : y ∈ g.set.forward
          · simp [hy, this hy]
          · have : y ≠ v := by rintro rfl; exact hy hvg
            simp [hy, this]
  · exfalso
    obtain ⟨g, hg, hx⟩ := (h.mem v).1 hv
    have := q2 g hg v hx
    rw [eqv_refl hF] at this; cases this

/-! ## The invariant -/

/-- The world of the specification, the groups and what has been told. -/
structure WI (K : Keys α κ φ) (gs : List (OSet α)) (w : Spec.World α φ) (items : List (Item α)) : Prop where
  fin : FInv K gs w.has
  nodup : ∀ g ∈ gs, g.subs.Nodup
  uniq : ∀ a k k', w.watches a k → w.watches a k' → k = k'
  watched : ∀ a k, w.watches a k → ∃ g ∈ gs, a ∈ g.subs ∧ Keyed K g k
  watcher : ∀ g ∈ gs, ∀ a ∈ g.subs, ∃ k, w.watches a k ∧ Keyed K g k
  follows : ∀ g ∈ gs, ∀ a ∈ g.subs, Follows K.byPk a items g.set.forward

theorem keyed_unique {K : Keys α κ φ} (hF : StrictWeak K.ltF) {gs : List (OSet α)} {S : α → Prop} (h : FInv K gs S) {g g' : OSet α} (hg : g ∈ gs)
    (hg' : g' ∈ gs) {k : φ} (hk : Keyed K g k) (hk' : Keyed K g' k) : g = g' := by
  obtain ⟨A, B, rfl⟩ := List.append_of_mem hg
  obtain ⟨x, hx, _⟩ := frontKey_ok K (h.ne g' hg')
  have hxg := (h.group hF hk x).2 ⟨(h.mem x).2 ⟨g', hg', hx⟩, hk' x hx⟩
  have hp := h.sorted
  rw [List.pairwise_append, List.pairwise_cons] at hp
  rcases List.mem_append.1 hg' with hA | hB
  · have h1 := hp.2.2 g' hA g (by simp) x hx x hxg
    rw [hF.irrefl] at h1; cases h1
  · rcases List.mem_cons.1 hB with rfl | hB
    · rfl
    · have h1 := hp.2.1.1 g' hB x hxg x hx
      rw [hF.irrefl] at h1; cases h1

theorem not_mem_mid {K : Keys α κ φ} (hF : StrictWeak K.ltF) {A B : List (OSet α)} {g : OSet α} {S : α → Prop} (h : FInv K (A ++ g :: B) S) :
    g ∉ A ++ B := by
  intro hg
  obtain ⟨x, hx, _⟩ := frontKey_ok K (h.ne g (by simp))
  have hp := h.sorted
  rw [List.pairwise_append, List.pairwise_cons] at hp
  rcases List.mem_append.1 hg with hA | hB
  · have h1 := hp.2.2 g hA g (by simp) x hx x hx
    rw [hF.irrefl] at h1; cases h1
  · have h1 := hp.2.1.1 g hB x hx x hx
    rw [hF.irrefl] at h1; cases h1

/-- An observer is in the list of at most one group. -/
theorem WI.one {K : Keys α κ φ} (hF : StrictWeak K.ltF) {gs : List (OSet α)} {w : Spec.World α φ} {items : List (Item α)} (h : WI K gs w items) {g g' : OSet α}
    (hg : g ∈ gs) (hg' : g' ∈ gs) {a : Nat} (ha : a ∈ g.subs) (ha' : a ∈ g'.subs) : g = g' := by
  obtain ⟨k, h1, h2⟩ := h.watcher g hg a ha
  obtain ⟨k', h3, h4⟩ := h.watcher g' hg' a ha'
  have := h.uniq a k k' h1 h3; subst this
  exact keyed_unique hF h.fin hg hg' h2 h4

/-- Who watches `k` is exactly who is in the list of the group with the key. -/
theorem WI.mem_subs {K : Keys α κ φ} (hF : StrictWeak K.ltF) {gs : List (OSet α)} {w : Spec.World α φ} {items : List (Item α)} (h : WI K gs w items) {g : OSet α}
    (hg : g ∈ gs) {a : Nat} {k : φ} (hw : w.watches a k) : a ∈ g.subs ↔ Keyed K g k := by
  constructor
  · intro ha
    obtain ⟨k', h1, h2⟩ := h.watcher g hg a ha
    rw [h.uniq a k k' hw h1]; exact h2
  · intro hk
    obtain ⟨g', h1, h2, h3⟩ := h.watched a k hw
    rw [keyed_unique hF h.fin hg h1 hk h3]; exact h2

/-- The watching that remains after the source has become `S'`. -/
def remain (K : Keys α κ φ) (w : Spec.World α φ) (S' : α → Prop) : Spec.World α φ :=
  ⟨S', fun a k => w.watches a k ∧ ∃ x, S' x ∧ eqv K.ltF (K.fk x) k = true⟩

theorem next_event (K : Keys α κ φ) (w : Spec.World α φ) (e : Event α) : Spec.next K w (.event e) = remain K w (applyEvent w.has e) := rfl

theorem keyed_some {K : Keys α κ φ} {gs : List (OSet α)} {S : α → Prop} (h : FInv K gs S) {g : OSet α} (hg : g ∈ gs) {k : φ} (hk : Keyed K g k) :
    ∃ x, S x ∧ eqv K.ltF (K.fk x) k = true := by
  obtain ⟨x, hx, _⟩ := frontKey_ok K (h.ne g hg)
  exact ⟨x, (h.mem x).2 ⟨g, hg, hx⟩, hk x hx⟩

theorem follows_quiet {lt : α → α → Bool} {a : Nat} {items : List (Item α)} {T : List α} {notes : List (Note α)} (h : Follows lt a items T)
    (hn : eventsOf a notes = []) : Follows lt a (items ++ notes.map .note) T :=
  h.notes (by rw [hn]; exact Replays.refl _ _)

theorem WI.replace {K : Keys α κ φ} (hF : StrictWeak K.ltF) {A B : List (OSet α)} {g : OSet α} {s : VSet α} {w : Spec.World α φ} {items : List (Item α)}
    (h : WI K (A ++ g :: B) w items) {S' : α → Prop} (hfin : FInv K (A ++ ⟨s, g.subs⟩ :: B) S') {k0 : φ} (hg : Keyed K g k0)
    (hs : ∀ x ∈ s.forward, eqv K.ltF (K.fk x) k0 = true) {e : Event α} {L : List α}
    (hr : Replays K.byPk (· ∈ g.set.forward) [e] (· ∈ s.forward)) :
    WI K (A ++ ⟨s, g.subs⟩ :: B) (remain K w S') (items ++ (deliver g.subs [(e, L)]).map .note) := by
  have hgm : g ∈ A ++ g :: B := by simp
  have hkeep : ∀ k, Keyed K g k → Keyed K ⟨s, g.subs⟩ k := by
    intro k hk x hx
    obtain ⟨y, hy, _⟩ := frontKey_ok K (h.fin.ne g hgm)
    exact StrictWeak.eqv_trans hF (hs x hx) (StrictWeak.eqv_trans hF (by rw [eqv_symm]; exact hg y hy) (hk y hy))
  have hmem : ∀ f ∈ A ++ (⟨s, g.subs⟩ : OSet α) :: B, f = ⟨s, g.subs⟩ ∨ (f ∈ A ++ g :: B ∧ f ≠ g) := by
    intro f hf
    have hnm := not_mem_mid hF h.fin
    rcases List.mem_append.1 hf with hf | hf
    · exact Or.inr ⟨by simp [hf], fun he => hnm (he ▸ List.mem_append.2 (Or.inl hf))⟩
    · rcases List.mem_cons.1 hf with hf | hf
      · exact Or.inl hf
      · exact Or.inr ⟨by simp [hf], fun he => hnm (he ▸ List.mem_append.2 (Or.inr hf))⟩
  refine ⟨hfin, ?_, ?_, ?_, ?_, ?_⟩
  · intro f hf
    rcases hmem f hf with rfl | ⟨hf, _⟩
    · exact h.nodup g hgm
    · exact h.nodup f hf
  · intro a k k' h1 h2; exact h.uniq a k k' h1.1 h2.1
  · rintro a k ⟨h1, _⟩
    obtain ⟨f, h2, h3, h4⟩ := h.watched a k h1
    rcases List.mem_append.1 h2 with h2 | h2
    · exact ⟨f, by simp [h2], h3, h4⟩
    · rcases List.mem_cons.1 h2 with rfl | h2
      · exact ⟨⟨s, f.subs⟩, by simp, h3, hkeep k h4⟩
      · exact ⟨f, by simp [h2], h3, h4⟩
  · intro f hf a ha
    rcases hmem f hf with rfl | ⟨hf', _⟩
    · obtain ⟨k, h1, h2⟩ := h.watcher g hgm a ha
      exact ⟨k, ⟨h1, keyed_some hfin hf (hkeep k h2)⟩, hkeep k h2⟩
    · obtain ⟨k, h1, h2⟩ := h.watcher f hf' a ha
      exact ⟨k, ⟨h1, keyed_some hfin hf h2⟩, h2⟩
  · intro f hf a ha
    rcases hmem f hf with rfl | ⟨hf', hne⟩
    · have ha : a ∈ g.subs := ha
      refine (h.follows g hgm a ha).notes ?_
      rw [eventsOf_deliver a g.subs (h.nodup g hgm), if_pos ha]
      exact hr
    · refine follows_quiet (h.follows f hf' a ha) ?_
      rw [eventsOf_deliver a g.subs (h.nodup g hgm), if_neg]
      intro ha'
      exact hne (h.one hF hf' hgm ha ha')

theorem WI.add {K : Keys α κ φ} {A B : List (OSet α)} {s : VSet α} {w : Spec.World α φ} {items : List (Item α)}
    (h : WI K (A ++ B) w items) {S' : α → Prop} (hfin : FInv K (A ++ ⟨s, []⟩ :: B) S') : WI K (A ++ ⟨s, []⟩ :: B) (remain K w S') items := by
  have hmem : ∀ f ∈ A ++ (⟨s, []⟩ : OSet α) :: B, f = ⟨s, []⟩ ∨ f ∈ A ++ B := by
    intro f hf
    rcases List.mem_append.1 hf with hf | hf
    · exact Or.inr (by simp [hf])
    · rcases List.mem_cons.1 hf with hf | hf
      · exact Or.inl hf
      · exact Or.inr (by simp [hf])
  refine ⟨hfin, ?_, ?_, ?_, ?_, ?_⟩
  · intro f hf
    rcases hmem f hf with rfl | hf
    · exact List.nodup_nil
    · exact h.nodup f hf
  · intro a k k' h1 h2; exact h.uniq a k k' h1.1 h2.1
  · rintro a k ⟨h1, _⟩
    obtain ⟨f, h2, h3, h4⟩ := h.watched a k h1
    refine ⟨f, ?_, h3, h4⟩
    rcases List.mem_append.1 h2 with h2 | h2 <;> simp [h2]
  · intro f hf a ha
    rcases hmem f hf with rfl | hf'
    · cases ha
    · obtain ⟨k, h1, h2⟩ := h.watcher f hf' a ha
      exact ⟨k, ⟨h1, keyed_some hfin hf h2⟩, h2⟩
  · intro f hf a ha
    rcases hmem f hf with rfl | hf'
    · cases ha
    · exact h.follows f hf' a ha

theorem WI.remove {K : Keys α κ φ} (hF : StrictWeak K.ltF) {A B : List (OSet α)} {g : OSet α} {w : Spec.World α φ} {items : List (Item α)}
    (h : WI K (A ++ g :: B) w items) {S' : α → Prop} (hfin : FInv K (A ++ B) S') (hS : ∀ x, S' x → w.has x ∧ x ∉ g.set.forward) {e : Event α} {L : List α} :
    WI K (A ++ B) (remain K w S') (items ++ (deliver g.subs [(e, L)]).map .note) := by
  have hgm : g ∈ A ++ g :: B := by simp
  have hmem : ∀ f ∈ A ++ B, f ∈ A ++ g :: B ∧ f ≠ g := by
    intro f hf
    refine ⟨?_, by rintro rfl; exact not_mem_mid hF h.fin hf⟩
    rcases List.mem_append.1 hf with hf | hf <;> simp [hf]
  refine ⟨hfin, fun f hf => h.nodup f (hmem f hf).1, fun a k k' h1 h2 => h.uniq a k k' h1.1 h2.1, ?_, ?_, ?_⟩
  · rintro a k ⟨h1, x, hx, hk⟩
    obtain ⟨f, h2, h3, h4⟩ := h.watched a k h1
    refine ⟨f, ?_, h3, h4⟩
    rcases List.mem_append.1 h2 with h2 | h2
    · simp [h2]
    · rcases List.mem_cons.1 h2 with rfl | h2
      · exact absurd ((h.fin.group hF h4 x).2 ⟨(hS x hx).1, hk⟩) (hS x hx).2
      · simp [h2]
  · intro f hf a ha
    obtain ⟨k, h1, h2⟩ := h.watcher f (hmem f hf).1 a ha
    exact ⟨k, ⟨h1, keyed_some hfin hf h2⟩, h2⟩
  · intro f hf a ha
    refine follows_quiet (h.follows f (hmem f hf).1 a ha) ?_
    rw [eventsOf_deliver a g.subs (h.nodup g hgm), if_neg]
    intro ha'
    exact (hmem f hf).2 (h.one hF (hmem f hf).1 hgm ha ha')

theorem WI.clear {K : Keys α κ φ} {gs : List (OSet α)} {w : Spec.World α φ} {items items' : List (Item α)} (h : WI K gs w items) :
    WI K [] (remain K w (fun _ => False)) items' :=
  ⟨⟨by simp, by simp, by simp, by simp, by simp [remain]⟩, by simp, fun a k k' h1 h2 => h.uniq a k k' h1.1 h2.1, by
    rintro a k ⟨_, x, hx, _⟩; exact hx.elim, by simp, by simp⟩

/-- What is delivered when all the groups are destroyed. -/
theorem eventsOf_destroyed {lt : α → α → Bool} (a : Nat) : ∀ (gs : List (OSet α)), (∀ g ∈ gs, Inv lt g.set ∧ g.set.forward ≠ [] ∧ g.subs.Nodup) →
    gs.Pairwise (fun g h => a ∈ g.subs → a ∉ h.subs) →
    eventsOf a (gs.map destroyed).flatten = if ∃ g ∈ gs, a ∈ g.subs then [.clearing] else [] := by
  intro gs
  induction gs with
  | nil => intro _ _; simp [eventsOf]
  | cons g gs ih =>
    intro h1 h2
    rw [List.pairwise_cons] at h2
    have ih := ih (fun f hf => h1 f (by simp [hf])) h2.2
    obtain ⟨hi, hne, hn⟩ := h1 g (by simp)
    have hd : destroyed g = deliver g.subs [(.clearing, g.set.forward)] := by
      cases hf : g.set.forward with
      | nil => exact absurd hf hne
      | cons x L => simp only [destroyed, isEmpty_iff hi, hf, notify_eq]; rfl
    rw [List.map_cons, List.flatten_cons, eventsOf_append, ih, hd, eventsOf_deliver a g.subs hn]
    by_cases ha : a ∈ g.subs
    · have : ¬ ∃ f ∈ gs, a ∈ f.subs := by rintro ⟨f, hf, haf⟩; exact h2.1 f hf ha haf
      rw [if_pos ha, if_neg this, if_pos ⟨g, by simp, ha⟩]; rfl
    · rw [if_neg ha]
      have : (∃ f ∈ g :: gs, a ∈ f.subs) ↔ ∃ f ∈ gs, a ∈ f.subs := by simp [ha]
      simp only [this, List.nil_append]

theorem pairwise_subs {K : Keys α κ φ} (hF : StrictWeak K.ltF) {gs : List (OSet α)} {w : Spec.World α φ} {items : List (Item α)} (h : WI K gs w items) (a : Nat) :
    gs.Pairwise (fun g h => a ∈ g.subs → a ∉ h.subs) := by
  refine List.Pairwise.imp_of_mem ?_ h.fin.sorted
  intro g g' hg hg' hlt ha ha'
  have := h.one hF hg hg' ha ha'; subst this
  obtain ⟨x, hx, _⟩ := frontKey_ok K (h.fin.ne g hg)
  have h1 := hlt x hx x hx
  rw [hF.irrefl] at h1; cases h1

theorem mem_deliver {subs : List Nat} {e : Event α} {L : List α} {n : Note α} (h : n ∈ deliver subs [(e, L)]) :
    n.observer ∈ subs ∧ n.event = e ∧ n.seen = L := by
  simp only [deliver, List.map_cons, List.map_nil, List.flatten_cons, List.flatten_nil, List.append_nil, List.mem_map] at h
  obtain ⟨a, ha, rfl⟩ := h
  exact ⟨ha, rfl, rfl⟩

/-- An event of the source. -/
theorem WI.event {K : Keys α κ φ} (hP : StrictWeak K.ltP) (hF : StrictWeak K.ltF) {gs : List (OSet α)} {w : Spec.World α φ} {items : List (Item α)}
    (h : WI K gs w items) {e : Event α} (hval : Valid K.byPk w.has e) :
    ∃ gs' evs notes, on K gs e = .ok (gs', evs, notes) ∧ WI K gs' (Spec.next K w (.event e)) (items ++ notes.map .note) ∧
      (∀ a k, w.watches a k → Spec.Due K w k e (eventsOf a notes)) ∧
      (∀ n ∈ notes, ∃ k, w.watches n.observer k ∧ ∀ x, x ∈ n.seen ↔ Spec.Shown K w k e x) := by
  rw [next_event]
  have key_eq : ∀ {k k' l : φ}, eqv K.ltF k l = true → eqv K.ltF k k' = eqv K.ltF l k' := by
    intro k k' l hkl
    cases h1 : eqv K.ltF l k' with
    | true => exact StrictWeak.eqv_trans hF hkl h1
    | false =>
      cases h2 : eqv K.ltF k k' with
      | false => rfl
      | true => rw [StrictWeak.eqv_trans hF (by rw [eqv_symm]; exact hkl) h2] at h1; cases h1
  have subs_iff : ∀ {A B : List (OSet α)} {g : OSet α} {v : α}, gs = A ++ g :: B → Keyed K g (K.fk v) → ∀ a k, w.watches a k →
      (a ∈ g.subs ↔ eqv K.ltF (K.fk v) k = true) := by
    intro A B g v hgs hk a k hw
    have hg : g ∈ gs := by rw [hgs]; simp
    rw [h.mem_subs hF hg hw]
    obtain ⟨y, hy, _⟩ := frontKey_ok K (h.fin.ne g hg)
    constructor
    · intro hk'
      exact StrictWeak.eqv_trans hF (by rw [eqv_symm]; exact hk y hy) (hk' y hy)
    · intro hk' x hx
      exact StrictWeak.eqv_trans hF (hk x hx) hk'
  cases e with
  | added v =>
    rcases onAdded_form hP hF h.fin hval with ⟨A, g, B, s, rfl, q1, q2, q3, q4⟩ | ⟨A, B, s, evs, rfl, q1, q2, q3⟩
    · have hgm : g ∈ A ++ g :: B := by simp
      refine ⟨_, _, _, q2, ?_, ?_, ?_⟩
      · refine h.replace hF q3 q1 ?_ ⟨?_, ?_⟩
        · intro x hx
          rcases (q4 x).1 hx with hx | rfl
          · exact q1 x hx
          · exact eqv_refl hF _
        · intro x hx; exact hval x ((h.fin.mem x).2 ⟨g, hgm, hx⟩)
        · intro x; exact (q4 x).symm
      · intro a k hw
        rw [eventsOf_deliver a g.subs (h.nodup g hgm)]
        cases hk : eqv K.ltF (K.fk v) k with
        | true => rw [if_pos ((subs_iff rfl q1 a k hw).2 hk)]; exact Or.inl ⟨hk, rfl⟩
        | false =>
          rw [if_neg (fun ha => by rw [(subs_iff rfl q1 a k hw).1 ha] at hk; cases hk)]; exact Or.inr ⟨hk, rfl⟩
      · intro n hn
        obtain ⟨n1, n2, n3⟩ := mem_deliver hn
        obtain ⟨k, h1, h2⟩ := h.watcher g hgm _ n1
        refine ⟨k, h1, fun x => ?_⟩
        rw [n3, q4, h.fin.group hF h2 x]
        have hvk : eqv K.ltF (K.fk v) k = true := (subs_iff rfl q1 _ k h1).1 n1
        show _ ↔ (w.has x ∨ x = v) ∧ eqv K.ltF (K.fk x) k = true
        constructor
        · rintro (⟨h3, h4⟩ | rfl)
          · exact ⟨Or.inl h3, h4⟩
          · exact ⟨Or.inr rfl, hvk⟩
        · rintro ⟨h3 | h3, h4⟩
          · exact Or.inl ⟨h3, h4⟩
          · exact Or.inr h3
    · refine ⟨_, _, _, q2, ?_, ?_, by simp⟩
      · rw [List.map_nil, List.append_nil]; exact h.add q3
      · intro a k hw
        refine Or.inr ⟨?_, rfl⟩
        cases hk : eqv K.ltF (K.fk v) k with
        | false => rfl
        | true =>
          obtain ⟨g, hg, _, h2⟩ := h.watched a k hw
          obtain ⟨x, hx, hxk⟩ := keyed_some h.fin hg h2
          have := q1 x hx
          rw [key_eq hxk, eqv_symm, hk] at this; cases this
  | removing v =>
    obtain ⟨A, g, B, rfl, q1, qv, q2⟩ := onRemoving_form hP hF h.fin hval
    have hgm : g ∈ A ++ g :: B := by simp
    have seen : ∀ n e', n ∈ deliver g.subs [(e', g.set.forward)] → ∃ k, w.watches n.observer k ∧ ∀ x, x ∈ n.seen ↔ Spec.Shown K w k (.removing v) x := by
      intro n e' hn
      obtain ⟨n1, n2, n3⟩ := mem_deliver hn
      obtain ⟨k, h1, h2⟩ := h.watcher g hgm _ n1
      refine ⟨k, h1, fun x => ?_⟩
      rw [n3, h.fin.group hF h2 x]
      rfl
    rcases q2 with ⟨s, x0, q2, q3, q4, q5, q6⟩ | ⟨q2, ⟨evs, q3⟩, q4⟩
    · refine ⟨_, _, _, q2, ?_, ?_, fun n hn => seen n _ hn⟩
      · refine h.replace hF q3 q1 ?_ ⟨qv, ?_⟩
        · intro x hx; exact q1 x ((q4 x).1 hx).1
        · intro x; exact (q4 x).symm
      · intro a k hw
        rw [eventsOf_deliver a g.subs (h.nodup g hgm)]
        cases hk : eqv K.ltF (K.fk v) k with
        | true =>
          have ha := (subs_iff rfl q1 a k hw).2 hk
          rw [if_pos ha]
          refine Or.inl ⟨hk, ⟨x0, ⟨(h.fin.mem x0).2 ⟨g, hgm, q5⟩, ((h.mem_subs hF hgm hw).1 ha) x0 q5⟩, q6⟩, rfl⟩
        | false =>
          rw [if_neg (fun ha => by rw [(subs_iff rfl q1 a k hw).1 ha] at hk; cases hk)]; exact Or.inr (Or.inr ⟨hk, rfl⟩)
    · refine ⟨_, _, _, q3, ?_, ?_, fun n hn => seen n _ hn⟩
      · refine h.remove hF q4 ?_
        rintro x ⟨h1, h2⟩
        exact ⟨h1, by rw [q2]; simpa using h2⟩
      · intro a k hw
        rw [eventsOf_deliver a g.subs (h.nodup g hgm)]
        cases hk : eqv K.ltF (K.fk v) k with
        | true =>
          have ha := (subs_iff rfl q1 a k hw).2 hk
          rw [if_pos ha]
          refine Or.inr (Or.inl ⟨hk, ?_, rfl⟩)
          rintro x hx
          have := (h.fin.group hF ((h.mem_subs hF hgm hw).1 ha) x).2 hx
          rw [q2] at this; simpa using this
        | false =>
          rw [if_neg (fun ha => by rw [(subs_iff rfl q1 a k hw).1 ha] at hk; cases hk)]; exact Or.inr (Or.inr ⟨hk, rfl⟩)
  | clearing =>
    have hall : ∀ g ∈ gs, Inv K.byPk g.set ∧ g.set.forward ≠ [] ∧ g.subs.Nodup := fun g hg => ⟨h.fin.inv g hg, h.fin.ne g hg, h.nodup g hg⟩
    have hev : ∀ a k, w.watches a k → Spec.Due K w k .clearing (eventsOf a (gs.map destroyed).flatten) := by
      intro a k hw
      rw [eventsOf_destroyed a gs hall (pairwise_subs hF h a), if_pos]
      · rfl
      · obtain ⟨g, h1, h2, _⟩ := h.watched a k hw
        exact ⟨g, h1, h2⟩
    have hse : ∀ n ∈ (gs.map destroyed).flatten, ∃ k, w.watches n.observer k ∧ ∀ x, x ∈ n.seen ↔ Spec.Shown K w k .clearing x := by
      intro n hn
      simp only [List.mem_flatten, List.mem_map] at hn
      obtain ⟨_, ⟨g, hg, rfl⟩, hn⟩ := hn
      have hn : n ∈ deliver g.subs [(.clearing, g.set.forward)] := by
        rw [← notify_eq]
        simp only [destroyed] at hn
        split at hn
        · exact hn
        · simp at hn
      obtain ⟨n1, n2, n3⟩ := mem_deliver hn
      obtain ⟨k, h1, h2⟩ := h.watcher g hg _ n1
      refine ⟨k, h1, fun x => ?_⟩
      obtain ⟨A, B, rfl⟩ := List.append_of_mem hg
      rw [n3, h.fin.group hF h2 x]
      rfl
    cases gs with
    | nil => exact ⟨[], [], [], rfl, h.clear, by simpa using hev, by simp⟩
    | cons g gs => exact ⟨[], _, _, rfl, h.clear, hev, hse⟩

theorem subscribed_iff {gs : List (OSet α)} {a : Nat} : subscribed gs a = true ↔ ∃ g ∈ gs, a ∈ g.subs := by
  simp [subscribed]

theorem WI.subscribed {K : Keys α κ φ} {gs : List (OSet α)} {w : Spec.World α φ} {items : List (Item α)} (h : WI K gs w items) (a : Nat) :
    subscribed gs a = true ↔ ∃ k, w.watches a k := by
  rw [subscribed_iff]
  constructor
  · rintro ⟨g, hg, ha⟩
    obtain ⟨k, h1, _⟩ := h.watcher g hg a ha
    exact ⟨k, h1⟩
  · rintro ⟨k, hk⟩
    obtain ⟨g, h1, h2, _⟩ := h.watched a k hk
    exact ⟨g, h1, h2⟩

/-- Only the observers change. -/
theorem FInv.subs {K : Keys α κ φ} {gs gs' : List (OSet α)} {S : α → Prop} (h : FInv K gs S) (he : gs'.map OSet.set = gs.map OSet.set) : FInv K gs' S := by
  have hm : ∀ s, (∃ g ∈ gs', g.set = s) ↔ ∃ g ∈ gs, g.set = s := by
    intro s
    have := congrArg (s ∈ ·) he
    simpa using this
  have back : ∀ g' ∈ gs', ∃ g ∈ gs, g.set = g'.set := fun g' hg' => (hm g'.set).1 ⟨g', hg', rfl⟩
  refine ⟨?_, ?_, ?_, ?_, ?_⟩
  · intro g' hg'; obtain ⟨g, hg, e⟩ := back g' hg'; rw [← e]; exact h.inv g hg
  · intro g' hg'; obtain ⟨g, hg, e⟩ := back g' hg'; rw [← e]; exact h.ne g hg
  · intro g' hg'; obtain ⟨g, hg, e⟩ := back g' hg'; rw [← e]; exact h.same g hg
  · have h1 : (gs.map OSet.set).Pairwise (fun s t => ∀ x ∈ s.forward, ∀ y ∈ t.forward, K.ltF (K.fk x) (K.fk y) = true) := by
      rw [List.pairwise_map]; exact h.sorted
    rw [← he, List.pairwise_map] at h1; exact h1
  · intro x
    rw [h.mem]
    constructor
    · rintro ⟨g, hg, hx⟩
      obtain ⟨g', hg', e⟩ := (hm g.set).2 ⟨g, hg, rfl⟩
      exact ⟨g', hg', by rw [e]; exact hx⟩
    · rintro ⟨g', hg', hx⟩
      obtain ⟨g, hg, e⟩ := back g' hg'
      exact ⟨g, hg, by rw [e]; exact hx⟩

theorem WI.watch {K : Keys α κ φ} (hF : StrictWeak K.ltF) {gs : List (OSet α)} {w : Spec.World α φ} {items : List (Item α)} (h : WI K gs w items) {k : φ} {a : Nat}
    (hx : ∃ x, w.at K k x) (ha : ∀ k', ¬ w.watches a k') :
    ∃ gs' L, Watch.watch K gs k a = .ok (gs', [.started a L]) ∧ WI K gs' (Spec.next K w (.watch k a)) (items ++ [.started a L]) ∧ ∀ x, x ∈ L ↔ w.at K k x := by
  rcases findGroup_ok hF h.fin k with ⟨A, g, B, rfl, q2, q3⟩ | ⟨_, q2⟩
  · have hsub : Watch.subscribed (A ++ g :: B) a = false := by
      rw [Bool.eq_false_iff]; intro hs
      obtain ⟨k', hk'⟩ := (h.subscribed a).1 hs
      exact ha k' hk'
    have hgm : g ∈ A ++ g :: B := by simp
    have hno : ∀ f ∈ A ++ g :: B, a ∉ f.subs := by
      intro f hf haf
      have := subscribed_iff.2 ⟨f, hf, haf⟩
      rw [hsub] at this; cases this
    have hfin : FInv K (A ++ (⟨g.set, g.subs ++ [a]⟩ : OSet α) :: B) w.has := FInv.subs h.fin (by simp)
    have hmem : ∀ f ∈ A ++ (⟨g.set, g.subs ++ [a]⟩ : OSet α) :: B, f = ⟨g.set, g.subs ++ [a]⟩ ∨ f ∈ A ++ g :: B := by
      intro f hf
      rcases List.mem_append.1 hf with hf | hf
      · exact Or.inr (by simp [hf])
      · rcases List.mem_cons.1 hf with hf | hf
        · exact Or.inl hf
        · exact Or.inr (by simp [hf])
    have hother : ∀ f ∈ A ++ g :: B, ∀ b ∈ f.subs, Follows K.byPk b (items ++ [.started a g.set.forward]) f.set.forward := by
      intro f hf b hb
      obtain ⟨S, es, h1, h2⟩ := h.follows f hf b hb
      refine ⟨S, es, ?_, h2⟩
      rw [knows_started_other items _ (by rintro rfl; exact hno f hf hb), h1]
    refine ⟨A ++ ⟨g.set, g.subs ++ [a]⟩ :: B, g.set.forward, ?_, ⟨hfin, ?_, ?_, ?_, ?_, ?_⟩, h.fin.group hF q3⟩
    · simp only [Watch.watch, q2, Res.ok_bind, getElem_mid, hsub, set_mid]; rfl
    · intro f hf
      rcases hmem f hf with rfl | hf
      · refine List.nodup_append.2 ⟨h.nodup g hgm, by simp, ?_⟩
        rintro b hb c hc rfl
        rw [List.mem_singleton] at hc; subst hc
        exact hno g hgm hb
      · exact h.nodup f hf
    · rintro b l l' (h1 | ⟨rfl, rfl⟩) (h2 | ⟨h2, rfl⟩)
      · exact h.uniq b l l' h1 h2
      · subst h2; exact absurd h1 (ha l)
      · exact absurd h2 (ha l')
      · rfl
    · rintro b l (h1 | ⟨rfl, rfl⟩)
      · obtain ⟨f, h2, h3, h4⟩ := h.watched b l h1
        rcases List.mem_append.1 h2 with h2 | h2
        · exact ⟨f, by simp [h2], h3, h4⟩
        · rcases List.mem_cons.1 h2 with rfl | h2
          · exact ⟨⟨f.set, f.subs ++ [a]⟩, by simp, by simp [h3], h4⟩
          · exact ⟨f, by simp [h2], h3, h4⟩
      · exact ⟨_, List.mem_append.2 (Or.inr (List.mem_cons_self ..)), by simp, q3⟩
    · intro f hf b hb
      rcases hmem f hf with rfl | hf
      · rcases List.mem_append.1 hb with hb | hb
        · obtain ⟨l, h1, h2⟩ := h.watcher g hgm b hb
          exact ⟨l, Or.inl h1, h2⟩
        · rw [List.mem_singleton] at hb; subst hb
          exact ⟨k, Or.inr ⟨rfl, rfl⟩, q3⟩
      · obtain ⟨l, h1, h2⟩ := h.watcher f hf b hb
        exact ⟨l, Or.inl h1, h2⟩
    · intro f hf b hb
      rcases hmem f hf with rfl | hf
      · rcases List.mem_append.1 hb with hb | hb
        · exact hother g hgm b hb
        · rw [List.mem_singleton] at hb; subst hb
          refine ⟨g.set.forward, [], by simp [knows, List.foldl_append, knows1], Replays.refl _ _, ?_⟩
          have hi := h.fin.inv g hgm
          rw [hi.forward]; exact hi.vals_sorted
      · exact hother f hf b hb
  · exfalso
    obtain ⟨x, hx, hxk⟩ := hx
    obtain ⟨g, hg, hxg⟩ := (h.fin.mem x).1 hx
    rw [q2 g hg x hxg] at hxk; cases hxk

theorem WI.unwatch {K : Keys α κ φ} {gs : List (OSet α)} {w : Spec.World α φ} {items : List (Item α)} (h : WI K gs w items) {a : Nat}
    (ha : ∃ k, w.watches a k) :
    ∃ gs', Watch.unwatch gs a = .ok gs' ∧ WI K gs' (Spec.next K w (.unwatch a)) (items ++ []) := by
  refine ⟨gs.map (fun g => { g with subs := g.subs.filter (· ≠ a) }), by simp only [Watch.unwatch, (h.subscribed a).2 ha, if_true], ?_⟩
  rw [List.append_nil]
  refine ⟨FInv.subs h.fin (by simp), ?_, fun b l l' h1 h2 => h.uniq b l l' h1.1 h2.1, ?_, ?_, ?_⟩
  · intro f hf
    obtain ⟨g, hg, rfl⟩ := List.mem_map.1 hf
    exact (h.nodup g hg).filter _
  · rintro b l ⟨h1, h2⟩
    obtain ⟨g, h3, h4, h5⟩ := h.watched b l h1
    exact ⟨_, List.mem_map.2 ⟨g, h3, rfl⟩, by simp [h4, h2], h5⟩
  · intro f hf b hb
    obtain ⟨g, hg, rfl⟩ := List.mem_map.1 hf
    simp only [List.mem_filter, decide_not, Bool.not_eq_true', decide_eq_false_iff_not] at hb
    obtain ⟨l, h1, h2⟩ := h.watcher g hg b hb.1
    exact ⟨l, ⟨h1, hb.2⟩, h2⟩
  · intro f hf b hb
    obtain ⟨g, hg, rfl⟩ := List.mem_map.1 hf
    exact h.follows g hg b (List.mem_filter.1 hb).1

theorem WI.step {K : Keys α κ φ} (hP : StrictWeak K.ltP) (hF : StrictWeak K.ltF) {gs : List (OSet α)} {w : Spec.World α φ} {items : List (Item α)}
    (h : WI K gs w items) {op : Op α φ} (ho : Spec.Allowed K w op) :
    ∃ gs' items', Watch.step K gs op = .ok (gs', items') ∧ WI K gs' (Spec.next K w op) (items ++ items') := by
  cases op with
  | event e =>
    obtain ⟨gs', evs, notes, h1, h2, _⟩ := h.event hP hF ho
    exact ⟨gs', _, by simp only [Watch.step, h1, Res.ok_bind], h2⟩
  | watch k a =>
    obtain ⟨gs', L, h1, h2, _⟩ := h.watch hF ho.1 ho.2
    exact ⟨gs', _, h1, h2⟩
  | unwatch a =>
    obtain ⟨gs', h1, h2⟩ := h.unwatch ho
    exact ⟨gs', [], by simp only [Watch.step, h1, Res.ok_bind], h2⟩

theorem WI.run {K : Keys α κ φ} (hP : StrictWeak K.ltP) (hF : StrictWeak K.ltF) : ∀ (ops : List (Op α φ)) {gs : List (OSet α)} {w : Spec.World α φ}
    {items : List (Item α)}, WI K gs w items → Spec.Legal K w ops →
    ∃ gs' items', Watch.run K gs ops = .ok (gs', items') ∧ WI K gs' (Spec.after K w ops) (items ++ items') := by
  intro ops
  induction ops with
  | nil => intro gs w items h _; exact ⟨gs, [], rfl, by rw [List.append_nil]; exact h⟩
  | cons op ops ih =>
    intro gs w items h hl
    obtain ⟨gs1, i1, h1, h2⟩ := h.step hP hF hl.1
    obtain ⟨gs2, i2, h3, h4⟩ := ih h2 hl.2
    exact ⟨gs2, i1 ++ i2, by simp only [Watch.run, h1, h3, Res.ok_bind], by rw [← List.append_assoc]; exact h4⟩

theorem WI.init (K : Keys α κ φ) : WI K ([] : List (OSet α)) (Spec.start : Spec.World α φ) [] :=
  ⟨FInv.empty K, by simp, by rintro a k k' h; exact h.elim, by rintro a k h; exact h.elim, by simp, by simp⟩

end Verif.ForeignSet.Watch
