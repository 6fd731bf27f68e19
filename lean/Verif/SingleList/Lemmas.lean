import Verif.SingleList.Spec

namespace Verif.SingleList

open Verif
open Verif.QuickList (Ptr Links upd rd wr)

/-- Following `next` from `p` visits the elements of the list and then `q`. -/
def Path (m : Links) (p : Nat) : List Nat → Nat → Prop
  | [], q => m p = some q
  | a :: l, q => m p = some a ∧ Path m a l q

theorem path_congr {m m' : Links} {l : List Nat} {p q : Nat} (h : Path m p l q) (hp : m' p = m p) (hl : ∀ a ∈ l, m' a = m a) : Path m' p l q := by
  induction l generalizing p with
  | nil => simpa [Path, hp] using h
  | cons a l ih =>
    simp only [Path] at h ⊢
    exact ⟨by rw [hp]; exact h.1, ih h.2 (hl a (by simp)) (fun b hb => hl b (by simp [hb]))⟩

theorem path_some {m : Links} {l : List Nat} {p q a : Nat} (h : Path m p l q) (ha : a ∈ l) : m a ≠ none := by
  induction l generalizing p with
  | nil => simp at ha
  | cons b l ih =>
    simp only [Path] at h
    rcases List.mem_cons.mp ha with rfl | ha
    · cases l with
      | nil => simp only [Path] at h; simp [h.2]
      | cons c l => simp only [Path] at h; simp [h.2.1]
    · exact ih h.2 ha

structure Rep (h : St) (A : Spec) : Prop where
  path : ∀ s l, A.lists s = some l → Path h.next s l s
  nodup : ∀ s l, A.lists s = some l → l.Nodup
  disj : ∀ s t l k a, A.lists s = some l → A.lists t = some k → a ∈ l → a ∈ k → s = t
  alL : ∀ s, A.lists s ≠ none → h.al s = true
  alE : ∀ a, A.elems a ≠ none → h.al a = true
  mem : ∀ s l a, A.lists s = some l → a ∈ l → A.elems a = some false
  sep : ∀ s, A.lists s ≠ none → A.elems s = none
  free : ∀ a, A.elems a = some false → ¬ A.InList a → h.next a = none
  stale : ∀ a, A.elems a = some true → h.next a ≠ none

theorem rep_init : Rep {} {} := by constructor <;> simp

variable {h h1 : St} {A : Spec}

theorem Rep.ne (r : Rep h A) {s t : Nat} {l : List Nat} (hs : A.lists s = some l) (ht : A.lists t ≠ none) : t ∉ l := by
  intro hm
  have h1 := r.mem s l t hs hm
  rw [r.sep t ht] at h1
  cases h1

theorem rep_newList (r : Rep h A) (s : Nat) (ha : A.Allowed (.newList s)) : ∃ h1, step h (.newList s) = .ok h1 ∧ Rep h1 (A.step (.newList s)) := by
  refine ⟨_, rfl, ?_⟩
  obtain ⟨a1, a2⟩ := ha
  have hin : ∀ a, A.InList a → a ≠ s := fun a ⟨t, l, h1, h2⟩ e => by have := r.mem t l a h1 h2; rw [e, a2] at this; cases this
  obtain ⟨r1, r2, r3, r4, r5, r6, r7, r8, r9⟩ := r
  constructor <;> simp only [Spec.step, set, upd]
  · intro t l ht
    by_cases e : t = s
    · rw [if_pos e] at ht
      cases ht
      subst e
      simp [Path, upd]
    · rw [if_neg e] at ht
      exact path_congr (r1 t l ht) (by simp [upd, e]) (fun a ha => by simp [upd, hin a ⟨t, l, ht, ha⟩])
  · grind
  · grind
  · grind
  · grind
  · grind
  · grind
  · intro a ha hn
    have : a ≠ s := fun e => by rw [e, a2] at ha; cases ha
    rw [if_neg this]
    refine r8 a ha fun ⟨t, l, h1, h2⟩ => hn ⟨t, l, ?_, h2⟩
    have : t ≠ s := fun e => by rw [e, a1] at h1; cases h1
    simp [set, this, h1]
  · grind

theorem rep_newElem (r : Rep h A) (a : Nat) (ha : A.Allowed (.newElem a)) : ∃ h1, step h (.newElem a) = .ok h1 ∧ Rep h1 (A.step (.newElem a)) := by
  refine ⟨_, rfl, ?_⟩
  obtain ⟨a1, a2⟩ := ha
  have hin : ∀ b, A.InList b → b ≠ a := fun b ⟨t, l, h1, h2⟩ e => by have := r.mem t l b h1 h2; rw [e, a2] at this; cases this
  obtain ⟨r1, r2, r3, r4, r5, r6, r7, r8, r9⟩ := r
  constructor <;> simp only [Spec.step, set, upd]
  · intro t l ht
    have : t ≠ a := fun e => by rw [e, a1] at ht; cases ht
    exact path_congr (r1 t l ht) (by simp [upd, this]) (fun b hb => by simp [upd, hin b ⟨t, l, ht, hb⟩])
  · exact r2
  · exact r3
  · grind
  · grind
  · grind
  · grind
  · intro b hb hn
    by_cases e : b = a
    · simp [e]
    · rw [if_neg e] at hb ⊢
      exact r8 b hb hn
  · grind

theorem rep_delElem (r : Rep h A) (a : Nat) (ha : A.Allowed (.delElem a)) : ∃ h1, step h (.delElem a) = .ok h1 ∧ Rep h1 (A.step (.delElem a)) := by
  refine ⟨_, rfl, ?_⟩
  obtain ⟨a1, a2⟩ := ha
  have hm : ∀ t l b, A.lists t = some l → b ∈ l → b ≠ a := fun t l b h1 h2 e => a2 ⟨t, l, h1, e ▸ h2⟩
  obtain ⟨r1, r2, r3, r4, r5, r6, r7, r8, r9⟩ := r
  constructor <;> simp only [Spec.step, set, upd]
  · exact r1
  · exact r2
  · exact r3
  · grind
  · grind
  · grind
  · grind
  · intro b hb hn
    by_cases e : b = a
    · simp [e] at hb
    · rw [if_neg e] at hb
      exact r8 b hb hn
  · grind

theorem path_wr_head {m : Links} {s a : Nat} {l : List Nat} (h : Path m s l s) (ha : a ∉ l) (hs : s ∉ l) (hne : a ≠ s) :
    Path (upd (upd m a (m s)) s (some a)) s (a :: l) s := by
  simp only [Path]
  refine ⟨by simp [upd], ?_⟩
  cases l with
  | nil =>
    simp only [Path] at h ⊢
    simp [upd, hne, h]
  | cons b l =>
    simp only [Path] at h ⊢
    refine ⟨by simp [upd, hne, h.1], path_congr h.2 ?_ ?_⟩
    · simp only [List.mem_cons, not_or] at ha hs
      simp [upd, Ne.symm ha.1, Ne.symm hs.1]
    · intro c hc
      simp only [List.mem_cons, not_or] at ha hs
      have h1 : c ≠ s := fun e => hs.2 (e ▸ hc)
      have h2 : c ≠ a := fun e => ha.2 (e ▸ hc)
      simp [upd, h1, h2]

theorem rep_push (r : Rep h A) (s a : Nat) (ha : A.Allowed (.push s a)) : ∃ h1, step h (.push s a) = .ok h1 ∧ Rep h1 (A.step (.push s a)) := by
  obtain ⟨a1, a2, a3⟩ := ha
  have hs := r.alL s a1
  have hea := r.alE a a2
  have hne : a ≠ s := fun e => a2 (by rw [e]; exact r.sep s a1)
  obtain ⟨l, hl⟩ := Option.ne_none_iff_exists'.mp a1
  refine ⟨⟨h.al, upd (upd h.next a (h.next s)) s (some a)⟩, ?_, ?_⟩
  · simp [step, QuickList.Single.insertAfter, rd, wr, hs, hea]
  have hsl : ∀ t k, A.lists t = some k → s ∉ k := fun t k ht => r.ne ht a1
  have hal : ∀ t k, A.lists t = some k → a ∉ k := fun t k ht hm => a3 ⟨t, k, ht, hm⟩
  obtain ⟨r1, r2, r3, r4, r5, r6, r7, r8, r9⟩ := r
  have hta : ∀ t, A.lists t ≠ none → t ≠ a := fun t ht e => a2 (by rw [← e]; exact r7 t ht)
  constructor <;> simp only [Spec.step, set, hl, Option.getD_some]
  · intro t k ht
    by_cases e : t = s
    · subst e
      simp only [if_true, Option.some.injEq] at ht
      subst ht
      exact path_wr_head (r1 t l hl) (hal t l hl) (hsl t l hl) hne
    · rw [if_neg e] at ht
      have := hta t (by rw [ht]; simp)
      refine path_congr (r1 t k ht) (by simp [upd, e, this]) fun b hb => ?_
      have h1 : b ≠ s := fun e => hsl t k ht (e ▸ hb)
      have h2 : b ≠ a := fun e => hal t k ht (e ▸ hb)
      simp [upd, h1, h2]
  · intro t k ht
    split at ht
    · cases ht
      exact List.nodup_cons.mpr ⟨hal s l hl, r2 s l hl⟩
    · exact r2 t k ht
  · grind
  · grind
  · grind
  · grind
  · grind
  · intro b hb hn
    have hba : b ≠ a := fun e => hn ⟨s, a :: l, by simp [set], by simp [e]⟩
    rw [if_neg hba] at hb
    have hbs : b ≠ s := fun e => by have := r7 s a1; rw [e, this] at hb; cases hb
    simp only [upd, if_neg hba, if_neg hbs]
    refine r8 b hb fun ⟨t, k, h1, h2⟩ => hn ?_
    by_cases e : t = s
    · subst e
      rw [hl] at h1
      cases h1
      exact ⟨t, a :: l, by simp [set], by simp [h2]⟩
    · exact ⟨t, k, by simp [set, e, h1], h2⟩
  · intro b hb
    have hba : b ≠ a := fun e => by simp [e] at hb
    rw [if_neg hba] at hb
    have hbs : b ≠ s := fun e => by have := r7 s a1; rw [e, this] at hb; cases hb
    simp only [upd, if_neg hba, if_neg hbs]
    exact r9 b hb

theorem rep_clear (r : Rep h A) (s : Nat) (ha : A.Allowed (.clear s)) : ∃ h1, step h (.clear s) = .ok h1 ∧ Rep h1 (A.step (.clear s)) := by
  have hs := r.alL s ha
  obtain ⟨l, hl⟩ := Option.ne_none_iff_exists'.mp ha
  refine ⟨⟨h.al, upd h.next s (some s)⟩, ?_, ?_⟩
  · simp [step, QuickList.Single.clear, wr, hs]
  have hsl : ∀ t k, A.lists t = some k → s ∉ k := fun t k ht => r.ne ht ha
  have hse := r.sep s ha
  obtain ⟨r1, r2, r3, r4, r5, r6, r7, r8, r9⟩ := r
  constructor <;> simp only [Spec.step, set, drop, hl, Option.getD_some]
  · intro t k ht
    by_cases e : t = s
    · subst e
      simp only [if_true, Option.some.injEq] at ht
      subst ht
      simp [Path, upd]
    · rw [if_neg e] at ht
      refine path_congr (r1 t k ht) (by simp [upd, e]) fun b hb => ?_
      have h1 : b ≠ s := fun e => hsl t k ht (e ▸ hb)
      simp [upd, h1]
  · grind
  · grind
  · grind
  · grind
  · grind
  · grind
  · intro b hb hn
    split at hb
    · cases hb
    · next hbl =>
      have hbs : b ≠ s := fun e => by rw [e, hse] at hb; cases hb
      simp only [upd, if_neg hbs]
      refine r8 b hb fun ⟨t, k, h1, h2⟩ => hn ?_
      by_cases e : t = s
      · subst e
        rw [hl] at h1
        cases h1
        exact absurd h2 hbl
      · exact ⟨t, k, by simp [set, e, h1], h2⟩
  · intro b hb
    split at hb
    · next hbl =>
      have hbs : b ≠ s := fun e => hsl s l hl (e ▸ hbl)
      simp only [upd, if_neg hbs]
      exact path_some (r1 s l hl) hbl
    · have hbs : b ≠ s := fun e => by rw [e, hse] at hb; cases hb
      simp only [upd, if_neg hbs]
      exact r9 b hb

theorem rep_delList (r : Rep h A) (s : Nat) (ha : A.Allowed (.delList s)) : ∃ h1, step h (.delList s) = .ok h1 ∧ Rep h1 (A.step (.delList s)) := by
  obtain ⟨l, hl⟩ := Option.ne_none_iff_exists'.mp ha
  refine ⟨_, rfl, ?_⟩
  have hsl : ∀ t k, A.lists t = some k → s ∉ k := fun t k ht => r.ne ht ha
  have hse := r.sep s ha
  obtain ⟨r1, r2, r3, r4, r5, r6, r7, r8, r9⟩ := r
  constructor <;> simp only [Spec.step, set, drop, hl, Option.getD_some, upd]
  · intro t k ht
    split at ht
    · cases ht
    · exact r1 t k ht
  · grind
  · grind
  · grind
  · grind
  · grind
  · grind
  · intro b hb hn
    split at hb
    · cases hb
    · next hbl =>
      refine r8 b hb fun ⟨t, k, h1, h2⟩ => hn ?_
      by_cases e : t = s
      · subst e
        rw [hl] at h1
        cases h1
        exact absurd h2 hbl
      · exact ⟨t, k, by simp [set, e, h1], h2⟩
  · intro b hb
    split at hb
    · next hbl => exact path_some (r1 s l hl) hbl
    · exact r9 b hb

/-- The heap after `pop_front`. -/
theorem popFront_eq (r : Rep h A) {s a : Nat} {l : List Nat} (hl : A.lists s = some (a :: l)) :
    popFront h s = .ok (a, ⟨h.al, upd (upd h.next s (h.next a)) a none⟩) := by
  have hs := r.alL s (by simp [hl])
  have hp := r.path s _ hl
  have hea := r.mem s _ a hl (by simp)
  have hal := r.alE a (by simp [hea])
  have hne : a ≠ s := fun e => by have := r.sep s (by simp [hl]); rw [← e, hea] at this; cases this
  simp only [Path] at hp
  simp [popFront, QuickList.Single.removeAfter, rd, wr, hs, hal, hp.1, cast, hne]

theorem rep_pop (r : Rep h A) (s : Nat) (ha : A.Allowed (.pop s)) : ∃ h1, step h (.pop s) = .ok h1 ∧ Rep h1 (A.step (.pop s)) := by
  obtain ⟨a, l, hl⟩ := ha
  refine ⟨⟨h.al, upd (upd h.next s (h.next a)) a none⟩, by simp [step, popFront_eq r hl], ?_⟩
  have hsn : A.lists s ≠ none := by simp [hl]
  have hsl : ∀ t k, A.lists t = some k → s ∉ k := fun t k ht => r.ne ht hsn
  have hse := r.sep s hsn
  obtain ⟨r1, r2, r3, r4, r5, r6, r7, r8, r9⟩ := r
  have hea := r6 s _ a hl (by simp)
  have hta : ∀ t, A.lists t ≠ none → t ≠ a := fun t ht e => by have := r7 t ht; rw [e, hea] at this; cases this
  have hnd := List.nodup_cons.mp (r2 s _ hl)
  constructor <;> simp only [Spec.step, set, hl, Option.getD_some, List.tail_cons]
  · intro t k ht
    by_cases e : t = s
    · subst e
      simp only [if_true, Option.some.injEq] at ht
      subst ht
      have hp := r1 t _ hl
      simp only [Path] at hp
      have hne := hta t hsn
      cases l with
      | nil => simp only [Path] at hp ⊢; simp [upd, hne, hp.2]
      | cons b l =>
        simp only [Path] at hp ⊢
        refine ⟨by simp [upd, hne, hp.2.1], path_congr hp.2.2 ?_ ?_⟩
        · have h1 : b ≠ a := fun e => hnd.1 (by simp [e])
          have h2 : b ≠ t := fun e => hsl t _ hl (by simp [e])
          simp [upd, h1, h2]
        · intro c hc
          have h1 : c ≠ a := fun e => hnd.1 (by simp [← e, hc])
          have h2 : c ≠ t := fun e => hsl t _ hl (by simp [← e, hc])
          simp [upd, h1, h2]
    · rw [if_neg e] at ht
      have := hta t (by rw [ht]; simp)
      refine path_congr (r1 t k ht) (by simp [upd, e, this]) fun b hb => ?_
      have h1 : b ≠ s := fun e => hsl t k ht (e ▸ hb)
      have h2 : b ≠ a := fun e' => e (r3 t s k _ b ht hl hb (by simp [e']))
      simp [upd, h1, h2]
  · grind
  · intro t u k j b ht hu hbk hbj
    split at ht <;> split at hu
    · next e1 e2 => rw [e1, e2]
    · next e1 e2 => cases ht; rw [e1]; exact r3 s u _ j b hl hu (by simp [hbk]) hbj
    · next e1 e2 => cases hu; rw [e2]; exact r3 t s k _ b ht hl hbk (by simp [hbj])
    · exact r3 t u k j b ht hu hbk hbj
  · grind
  · grind
  · grind
  · grind
  · intro b hb hn
    by_cases e : b = a
    · simp [upd, e]
    · have hbs : b ≠ s := fun e => by rw [e, hse] at hb; cases hb
      simp only [upd, if_neg e, if_neg hbs]
      refine r8 b hb fun ⟨t, k, h1, h2⟩ => hn ?_
      by_cases e' : t = s
      · subst e'
        rw [hl] at h1
        cases h1
        exact ⟨t, l, by simp [set], by simpa [e] using h2⟩
      · exact ⟨t, k, by simp [set, e', h1], h2⟩
  · intro b hb
    have hba : b ≠ a := fun e => by rw [e, hea] at hb; cases hb
    have hbs : b ≠ s := fun e => by rw [e, hse] at hb; cases hb
    simp only [upd, if_neg hba, if_neg hbs]
    exact r9 b hb

theorem rep_step (r : Rep h A) (op : Op) (ha : A.Allowed op) : ∃ h1, step h op = .ok h1 ∧ Rep h1 (A.step op) := by
  cases op with
  | newList s => exact rep_newList r s ha
  | delList s => exact rep_delList r s ha
  | newElem a => exact rep_newElem r a ha
  | delElem a => exact rep_delElem r a ha
  | push s a => exact rep_push r s a ha
  | pop s => exact rep_pop r s ha
  | clear s => exact rep_clear r s ha

theorem rep_run (ops : List Op) : ∀ (h : St) (A : Spec), Rep h A → A.AllowedAll ops → ∃ h1, run h ops = .ok h1 ∧ Rep h1 (A.run ops) := by
  induction ops with
  | nil => intro h A r _; exact ⟨h, rfl, r⟩
  | cons op ops ih =>
    intro h A r ha
    obtain ⟨h1, e1, r1⟩ := rep_step r op ha.1
    obtain ⟨h2, e2, r2⟩ := ih h1 _ r1 ha.2
    exact ⟨h2, by simp [run, e1, e2], r2⟩

theorem traverse_path {m : Links} {al : Nat → Bool} {s : Nat} (l : List Nat) : ∀ (p : Nat), Path m p l s → al p = true → (∀ a ∈ l, al a = true) → (∀ a ∈ l, a ≠ s) →
    ∀ fuel, l.length < fuel → QuickList.Single.traverse al m s fuel (m p) = .ok (some l) := by
  induction l with
  | nil =>
    intro p hp _ _ _ fuel hf
    obtain ⟨f, rfl⟩ : ∃ f, fuel = f + 1 := ⟨fuel - 1, by omega⟩
    simp only [Path] at hp
    simp [QuickList.Single.traverse, hp]
  | cons a l ih =>
    intro p hp hal h1 h2 fuel hf
    obtain ⟨f, rfl⟩ : ∃ f, fuel = f + 1 := ⟨fuel - 1, by simp at hf; omega⟩
    simp only [Path] at hp
    have := ih a hp.2 (h1 a (by simp)) (fun b hb => h1 b (by simp [hb])) (fun b hb => h2 b (by simp [hb])) f (by simpa using hf)
    simp [QuickList.Single.traverse, hp.1, h2 a (by simp), rd, h1 a (by simp), this]

end Verif.SingleList
