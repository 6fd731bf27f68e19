import Verif.Guard.Spec

/-! # Counting and simulation -/

namespace Verif.Guard

/-! ## The specification discharges every item exactly once -/

theorem split_count (own : List (Nat × Nat)) (g a : Nat) :
    ((others own g).map (·.2)).count a + (items own g).count a = (own.map (·.2)).count a := by
  induction own with
  | nil => simp [others, items]
  | cons x own ih =>
    simp only [others, items] at ih ⊢
    by_cases h : x.1 = g
    · have h1 : (x.1 == g) = true := by simpa using h
      have h2 : (x.1 != g) = false := by simpa using h
      simp only [List.filter_cons, h1, h2, if_true, Bool.false_eq_true, if_false, List.map_cons, List.count_cons]
      omega
    · have h1 : (x.1 == g) = false := by simpa using h
      have h2 : (x.1 != g) = true := by simpa using h
      simp only [List.filter_cons, h1, h2, if_true, Bool.false_eq_true, if_false, List.map_cons, List.count_cons]
      omega

theorem pass_items (s : Ideal) (g h : Nat) : ((s.pass g h).own.map (·.2)) = s.own.map (·.2) := by
  simp only [Ideal.pass, List.map_map]
  congr 1
  funext x
  simp only [Function.comp]
  split <;> rfl

/-- Items owned, discharged and given up. -/
def Ideal.total (s : Ideal) (a : Nat) : Nat := (s.own.map (·.2)).count a + s.done.count a + s.freed.count a

theorem total_discharge (s : Ideal) (g a : Nat) : (s.discharge g).total a = s.total a := by
  have := split_count s.own g a
  simp only [Ideal.total, Ideal.discharge, List.count_append]; omega

theorem total_giveUp (s : Ideal) (g a : Nat) : (s.giveUp g).total a = s.total a := by
  have := split_count s.own g a
  simp only [Ideal.total, Ideal.giveUp, List.count_append]; omega

theorem total_pass (s : Ideal) (g h a : Nat) : (s.pass g h).total a = s.total a := by
  simp only [Ideal.total, pass_items]
  rfl

theorem total_take (s : Ideal) (g b a : Nat) : (s.take g b).total a = (if b = a then 1 else 0) + s.total a := by
  simp only [Ideal.total, Ideal.take, List.map_cons, List.count_cons, beq_iff_eq]; omega

/-! ## Guards against the specification -/

theorem mem_items {own : List (Nat × Nat)} {g a : Nat} : a ∈ items own g ↔ (g, a) ∈ own := by
  simp only [items, List.mem_map, List.mem_filter, beq_iff_eq]
  constructor
  · rintro ⟨⟨x, y⟩, ⟨h1, h2⟩, h3⟩
    dsimp only at h2 h3
    subst h2 h3; exact h1
  · intro h; exact ⟨(g, a), ⟨h, rfl⟩, rfl⟩

theorem mem_others {own : List (Nat × Nat)} {g : Nat} {x : Nat × Nat} : x ∈ others own g ↔ x ∈ own ∧ x.1 ≠ g := by
  simp [others, List.mem_filter]

/-- Owners own one item each. -/
def Distinct (own : List (Nat × Nat)) : Prop := (own.map (·.1)).Nodup

theorem distinct_others {own : List (Nat × Nat)} (h : Distinct own) (g : Nat) : Distinct (others own g) :=
  List.Nodup.sublist (List.Sublist.map _ List.filter_sublist) h

theorem distinct_cons {own : List (Nat × Nat)} {g a : Nat} (h : Distinct own) (hg : ∀ b, (g, b) ∉ own) :
    Distinct ((g, a) :: own) := by
  simp only [Distinct, List.map_cons, List.nodup_cons, List.mem_map]
  refine ⟨?_, h⟩
  rintro ⟨⟨x, y⟩, h1, h2⟩
  dsimp only at h2; subst h2
  exact hg y h1

theorem items_none {own : List (Nat × Nat)} {g : Nat} (hg : ∀ b, (g, b) ∉ own) : items own g = [] := by
  cases e : items own g with
  | nil => rfl
  | cons b l => exact absurd (mem_items.1 (e ▸ List.mem_cons_self)) (hg b)

theorem items_one {own : List (Nat × Nat)} {g a : Nat} (h : Distinct own) (hg : (g, a) ∈ own) : items own g = [a] := by
  induction own with
  | nil => cases hg
  | cons x own ih =>
    obtain ⟨x1, x2⟩ := x
    simp only [Distinct, List.map_cons, List.nodup_cons] at h
    by_cases e : x1 = g
    · subst e
      have h0 : ∀ b, (x1, b) ∉ own := fun b hb => h.1 (List.mem_map.2 ⟨(x1, b), hb, rfl⟩)
      have h1 : items ((x1, x2) :: own) x1 = x2 :: items own x1 := by simp [items]
      rw [h1, items_none h0]
      rcases List.mem_cons.1 hg with h2 | h2
      · cases h2; rfl
      · exact absurd h2 (h0 a)
    · have h1 : items ((x1, x2) :: own) g = items own g := by simp [items, e]
      rw [h1]
      rcases List.mem_cons.1 hg with h2 | h2
      · cases h2; exact absurd rfl e
      · exact ih h.2 h2

theorem mem_pass {s : Ideal} {g h x a : Nat} (hg : ∀ b, (g, b) ∉ s.own) :
    (x, a) ∈ (s.pass g h).own ↔ (x = g ∧ (h, a) ∈ s.own) ∨ (x ≠ h ∧ x ≠ g ∧ (x, a) ∈ s.own) := by
  simp only [Ideal.pass, List.mem_map]
  constructor
  · rintro ⟨⟨y, b⟩, hm, hy⟩
    by_cases e : y = h
    · rw [if_pos e] at hy
      subst e
      cases hy
      exact .inl ⟨rfl, hm⟩
    · rw [if_neg e] at hy
      cases hy
      exact .inr ⟨e, fun e' => hg a (e' ▸ hm), hm⟩
  · rintro (⟨rfl, hm⟩ | ⟨h1, _, hm⟩)
    · exact ⟨(h, a), hm, by rw [if_pos rfl]⟩
    · exact ⟨(x, a), hm, by rw [if_neg h1]⟩

theorem distinct_pass {s : Ideal} {g h : Nat} (hd : Distinct s.own) (hg : ∀ b, (g, b) ∉ s.own) :
    Distinct (s.pass g h).own := by
  obtain ⟨own, done, freed⟩ := s
  dsimp only at hd hg
  induction own with
  | nil => simp [Distinct, Ideal.pass]
  | cons x own ih =>
    obtain ⟨x1, x2⟩ := x
    have hd' : Distinct own := by
      simp only [Distinct, List.map_cons, List.nodup_cons] at hd; exact hd.2
    have hx : ∀ b, (x1, b) ∉ own := by
      intro b hb
      simp only [Distinct, List.map_cons, List.nodup_cons] at hd
      exact hd.1 (List.mem_map.2 ⟨_, hb, rfl⟩)
    have hg' : ∀ b, (g, b) ∉ own := fun b hb => hg b (List.mem_cons_of_mem _ hb)
    have hgx : x1 ≠ g := by rintro rfl; exact hg x2 List.mem_cons_self
    have h0 := ih hd' hg'
    have hm := fun x a => @mem_pass ⟨own, done, freed⟩ g h x a hg'
    show Distinct ((if x1 = h then (g, x2) else (x1, x2)) :: (Ideal.pass ⟨own, done, freed⟩ g h).own)
    by_cases e : x1 = h
    · rw [if_pos e]
      refine distinct_cons h0 ?_
      intro b hb
      rcases (hm g b).1 hb with ⟨_, h1⟩ | ⟨_, h1, _⟩
      · subst e; exact hx b h1
      · exact h1 rfl
    · rw [if_neg e]
      refine distinct_cons h0 ?_
      intro b hb
      rcases (hm x1 b).1 hb with ⟨h1, _⟩ | ⟨_, _, h1⟩
      · exact hgx h1
      · exact hx b h1

theorem set_same {α : Type} (f : Nat → Option α) (g : Nat) (x : Option α) : set f g x g = x := by simp [set]

theorem set_other {α : Type} (f : Nat → Option α) (x : Option α) {g i : Nat} (h : i ≠ g) : set f g x i = f i := by
  simp [set, h]

/-- The guards `s`, with the names `N`, do what the specification `i` says so far. -/
structure Sim (N : List Nat) (s : State) (i : Ideal) : Prop where
  names : ∀ g, g ∈ N ↔ s.guards g ≠ none
  distinct : Distinct i.own
  own : ∀ g a, (g, a) ∈ i.own ↔ s.guards g = some ⟨some a, true⟩
  callable : ∀ g, s.guards g ≠ some ⟨none, true⟩
  log : s.log = i.done

theorem sim_init : Sim [] State.init Ideal.init :=
  ⟨by simp [State.init], by simp [Distinct, Ideal.init], by simp [State.init, Ideal.init], by simp [State.init], rfl⟩

theorem Sim.fresh {N : List Nat} {s : State} {i : Ideal} (h : Sim N s i) {g : Nat} (hg : s.guards g = none) (b : Nat) :
    (g, b) ∉ i.own := by
  rw [h.own, hg]; simp

theorem Sim.absent {N : List Nat} {s : State} {i : Ideal} (h : Sim N s i) {g : Nat} (hg : g ∉ N) : s.guards g = none := by
  cases e : s.guards g with
  | none => rfl
  | some x => exact absurd ((h.names g).2 (by rw [e]; simp)) hg

theorem sim_create {N : List Nat} {s : State} {i : Ideal} (h : Sim N s i) (k : Kind) {g : Nat} (hg : g ∉ N) (a : Nat)
    (e : Bool) : ∃ s', step k s (.create g a e) = .ok s' ∧ Sim (g :: N) s' (i.step (.create g a e)) := by
  have hn : s.guards g = none := h.absent hg
  refine ⟨{ s with guards := set s.guards g (some ⟨some a, e⟩) }, by simp only [step, hn], ?_, ?_, ?_, ?_, ?_⟩
  · intro x
    by_cases hx : x = g
    · subst hx; simp [set_same]
    · simp [set_other _ _ hx, hx, h.names]
  · cases e
    · exact h.distinct
    · exact distinct_cons h.distinct (h.fresh hn)
  · intro x b
    by_cases hx : x = g
    · subst hx
      simp only [set_same, Ideal.step]
      cases e
      · have := h.fresh hn b
        simp [this]
      · have := h.fresh hn b
        simp [Ideal.take, this, eq_comm]
    · simp only [set_other _ _ hx]
      rw [← h.own]
      cases e
      · rfl
      · simp [Ideal.step, Ideal.take, hx]
  · intro x
    by_cases hx : x = g
    · subst hx; simp [set_same]
    · simp only [set_other _ _ hx]; exact h.callable x
  · cases e <;> exact h.log

theorem sim_release {N : List Nat} {s : State} {i : Ideal} (h : Sim N s i) (k : Kind) {g : Nat} (hg : g ∈ N) :
    ∃ s', step k s (.release g) = .ok s' ∧ Sim N s' (i.step (.release g)) := by
  obtain ⟨x, hx⟩ := Option.ne_none_iff_exists'.1 ((h.names g).1 hg)
  refine ⟨{ s with guards := set s.guards g (some { x with engaged := false }) }, by simp only [step, hx], ?_, ?_, ?_, ?_, ?_⟩
  · intro y
    by_cases hy : y = g
    · subst hy; simp [set_same, hg]
    · simp [set_other _ _ hy, h.names]
  · exact distinct_others h.distinct g
  · intro y b
    show (y, b) ∈ others i.own g ↔ _
    rw [mem_others]
    by_cases hy : y = g
    · subst hy; simp [set_same]
    · simp only [set_other _ _ hy]; rw [← h.own]; simp [hy]
  · intro y
    by_cases hy : y = g
    · subst hy; simp [set_same]
    · simp only [set_other _ _ hy]; exact h.callable y
  · exact h.log

theorem sim_moveCtor {N : List Nat} {s : State} {i : Ideal} (h : Sim N s i) (k : Kind) {g w a : Nat} (hg : g ∉ N)
    (hw : (w, a) ∈ i.own) : ∃ s', step k s (.moveCtor g w) = .ok s' ∧ Sim (g :: N) s' (i.step (.moveCtor g w)) := by
  have hn : s.guards g = none := h.absent hg
  have hw' := (h.own w a).1 hw
  have hgw : g ≠ w := by rintro rfl; rw [hn] at hw'; cases hw'
  refine ⟨{ s with guards := set (set s.guards w (some ⟨k.movedFrom (some a), false⟩)) g (some ⟨some a, true⟩) },
    by simp only [step, hn, hw'], ?_, ?_, ?_, ?_, ?_⟩
  · intro y
    by_cases hy : y = g
    · subst hy; simp [set_same]
    · by_cases hy' : y = w
      · subst hy'
        simp only [set_other _ _ hy, set_same, List.mem_cons, hy, false_or, h.names, hw']
        simp
      · simp [set_other _ _ hy, set_other _ _ hy', hy, h.names]
  · exact distinct_pass h.distinct (h.fresh hn)
  · intro y b
    show (y, b) ∈ (i.pass g w).own ↔ _
    rw [mem_pass (h.fresh hn)]
    by_cases hy : y = g
    · subst hy
      simp [set_same, h.own, hw']
    · by_cases hy' : y = w
      · subst hy'
        simp [set_other _ _ hy, set_same, hy]
      · simp only [set_other _ _ hy, set_other _ _ hy', ← h.own]
        simp [hy, hy']
  · intro y
    by_cases hy : y = g
    · subst hy; simp [set_same]
    · by_cases hy' : y = w
      · subst hy'; simp [set_other _ _ hy, set_same]
      · simp only [set_other _ _ hy, set_other _ _ hy']; exact h.callable y
  · exact h.log

theorem sim_destroy {N : List Nat} {s : State} {i : Ideal} (h : Sim N s i) (k : Kind) {g : Nat} (hg : g ∈ N) :
    ∃ s', step k s (.destroy g) = .ok s' ∧ Sim (N.filter (· != g)) s' (i.step (.destroy g)) := by
  obtain ⟨x, hx⟩ := Option.ne_none_iff_exists'.1 ((h.names g).1 hg)
  have main : ∀ l, l = items i.own g ++ i.done → Sim (N.filter (· != g)) ⟨set s.guards g none, l⟩ (i.step (.destroy g)) := by
    intro l hl
    refine ⟨?_, distinct_others h.distinct g, ?_, ?_, hl⟩
    · intro y
      by_cases hy : y = g
      · subst hy; simp [set_same]
      · simp [set_other _ _ hy, hy, h.names]
    · intro y b
      show (y, b) ∈ others i.own g ↔ _
      rw [mem_others]
      by_cases hy : y = g
      · subst hy; simp [set_same]
      · simp only [set_other _ _ hy]; rw [← h.own]; simp [hy]
    · intro y
      by_cases hy : y = g
      · subst hy; simp [set_same]
      · simp only [set_other _ _ hy]; exact h.callable y
  obtain ⟨f, e⟩ := x
  cases e with
  | false =>
    refine ⟨{ s with guards := set s.guards g none }, by simp [step, hx], main _ ?_⟩
    rw [items_none (fun b hb => by rw [h.own, hx] at hb; cases hb), h.log]; rfl
  | true =>
    cases f with
    | none => exact absurd hx (h.callable g)
    | some a =>
      refine ⟨⟨set s.guards g none, a :: s.log⟩, by simp [step, hx], main _ ?_⟩
      rw [items_one h.distinct ((h.own g a).2 hx), h.log]; rfl

/-! ## Pointers against the specification -/

/-- The pointers `s`, with the names `N`, do what the specification `i` says so far. -/
structure PSim (N : List Nat) (s : Ptrs) (i : Ideal) : Prop where
  names : ∀ u, u ∈ N ↔ s.ptrs u ≠ none
  distinct : Distinct i.own
  own : ∀ u p, (u, p) ∈ i.own ↔ s.ptrs u = some (some p)
  deleted : s.deleted = i.done
  alive : ∀ p, s.alive.count p = (i.own.map (·.2)).count p + i.freed.count p
  once : ∀ p, i.total p ≤ 1

theorem psim_init : PSim [] Ptrs.init Ideal.init :=
  ⟨by simp [Ptrs.init], by simp [Distinct, Ideal.init], by simp [Ptrs.init, Ideal.init], rfl,
    by simp [Ptrs.init, Ideal.init], by simp [Ideal.total, Ideal.init]⟩

theorem PSim.fresh {N : List Nat} {s : Ptrs} {i : Ideal} (h : PSim N s i) {u : Nat} (hu : s.ptrs u = none) (b : Nat) :
    (u, b) ∉ i.own := by
  rw [h.own, hu]; simp

/-- Deleting what `u` owns, and then changing `u`. -/
theorem psim_del {N : List Nat} {s : Ptrs} {i : Ideal} (h : PSim N s i) {u : Nat} {x : Option Nat}
    (hu : s.ptrs u = some x) : ∃ s', del s x = .ok s' ∧ s'.ptrs = s.ptrs ∧
      PSim N { s' with ptrs := set s.ptrs u (some none) } (i.discharge u) := by
  have hN : u ∈ N := (h.names u).2 (by rw [hu]; simp)
  have main : ∀ (al dl : List Nat), dl = items i.own u ++ i.done →
      (∀ p, al.count p + (items i.own u).count p = s.alive.count p) →
      PSim N ⟨set s.ptrs u (some none), al, dl⟩ (i.discharge u) := by
    intro al dl hd ha
    refine ⟨?_, distinct_others h.distinct u, ?_, hd, ?_, fun p => by rw [total_discharge]; exact h.once p⟩
    · intro y
      by_cases hy : y = u
      · subst hy; simp [set_same, hN]
      · simp [set_other _ _ hy, h.names]
    · intro y b
      show (y, b) ∈ others i.own u ↔ _
      rw [mem_others]
      by_cases hy : y = u
      · subst hy; simp [set_same]
      · simp only [set_other _ _ hy]; rw [← h.own]; simp [hy]
    · intro p
      have h1 := ha p
      have h2 := h.alive p
      have h3 := split_count i.own u p
      show al.count p = ((others i.own u).map (·.2)).count p + i.freed.count p
      omega
  cases x with
  | none =>
    refine ⟨s, rfl, rfl, main _ _ ?_ ?_⟩
    · rw [items_none (fun b hb => by rw [h.own, hu] at hb; cases hb), h.deleted]; rfl
    · intro p
      rw [items_none (fun b hb => by rw [h.own, hu] at hb; cases hb)]; rfl
  | some p =>
    have hp : (u, p) ∈ i.own := (h.own u p).2 hu
    have ha : p ∈ s.alive := by
      have h1 := h.alive p
      have h2 : 0 < (i.own.map (·.2)).count p := List.count_pos_iff.2 (List.mem_map.2 ⟨_, hp, rfl⟩)
      exact List.count_pos_iff.1 (by omega)
    refine ⟨{ s with alive := s.alive.erase p, deleted := p :: s.deleted }, by simp [del, ha], rfl, main _ _ ?_ ?_⟩
    · rw [items_one h.distinct hp, h.deleted]; rfl
    · intro q
      have h1 := List.count_pos_iff.2 ha
      rw [items_one h.distinct hp]
      by_cases e : p = q
      · subst e
        rw [List.count_erase_self]
        simp; omega
      · rw [List.count_erase_of_ne (fun e' => e e'.symm)]
        simp [e]

/-- Giving a new object to `u`, which owns nothing. -/
theorem psim_take {N N' : List Nat} {s : Ptrs} {i : Ideal} (h : PSim N s i) {u p : Nat} (hu : ∀ b, (u, b) ∉ i.own)
    (hp : p ∉ s.alive) (hp' : p ∉ s.deleted) (hN : ∀ y, y ∈ N' ↔ y = u ∨ y ∈ N) :
    PSim N' ⟨set s.ptrs u (some (some p)), p :: s.alive, s.deleted⟩ (i.take u p) := by
  refine ⟨?_, distinct_cons h.distinct hu, ?_, h.deleted, ?_, ?_⟩
  · intro y
    rw [hN]
    by_cases hy : y = u
    · subst hy; simp [set_same]
    · simp [set_other _ _ hy, hy, h.names]
  · intro y b
    by_cases hy : y = u
    · subst hy
      simp [set_same, Ideal.take, hu b, eq_comm]
    · simp only [set_other _ _ hy]; rw [← h.own]
      simp [Ideal.take, hy]
  · intro q
    have := h.alive q
    simp only [Ideal.take, List.map_cons, List.count_cons]
    omega
  · intro q
    rw [total_take]
    by_cases e : p = q
    · subst e
      have h1 := h.alive p
      have h2 : s.alive.count p = 0 := List.count_eq_zero.2 hp
      have h3 : i.done.count p = 0 := by rw [← h.deleted]; exact List.count_eq_zero.2 hp'
      simp only [Ideal.total, if_true]; omega
    · rw [if_neg e]; have := h.once q; omega

/-- Passing what `w` owns to `u`, which owns nothing. -/
theorem psim_pass {N N' : List Nat} {s : Ptrs} {i : Ideal} (h : PSim N s i) {u w : Nat} {y : Option Nat}
    (hu : ∀ b, (u, b) ∉ i.own) (hw : s.ptrs w = some y) (huw : u ≠ w) (hN : ∀ y, y ∈ N' ↔ y = u ∨ y ∈ N) :
    PSim N' { s with ptrs := set (set s.ptrs u (some y)) w (some none) } (i.pass u w) := by
  refine ⟨?_, distinct_pass h.distinct hu, ?_, h.deleted, ?_, fun p => by rw [total_pass]; exact h.once p⟩
  · intro z
    rw [hN]
    by_cases hz : z = w
    · subst hz
      simp only [set_same, h.names, hw]; simp
    · simp only [set_other _ _ hz]
      by_cases hz' : z = u
      · subst hz'; simp [set_same]
      · simp [set_other _ _ hz', hz', h.names]
  · intro z b
    rw [mem_pass hu]
    by_cases hz : z = w
    · subst hz
      have : z ≠ u := fun e => huw e.symm
      simp [set_same, this]
    · simp only [set_other _ _ hz]
      by_cases hz' : z = u
      · subst hz'
        simp only [set_same, h.own, hw]; simp
      · simp only [set_other _ _ hz', ← h.own]
        simp [hz, hz']
  · intro p
    rw [pass_items]; exact h.alive p

theorem psim_release {N : List Nat} {s : Ptrs} {i : Ideal} (h : PSim N s i) {u : Nat} (hu : u ∈ N) :
    PSim N { s with ptrs := set s.ptrs u (some none) } (i.giveUp u) := by
  refine ⟨?_, distinct_others h.distinct u, ?_, h.deleted, ?_, fun p => by rw [total_giveUp]; exact h.once p⟩
  · intro y
    by_cases hy : y = u
    · subst hy; simp [set_same, hu]
    · simp [set_other _ _ hy, h.names]
  · intro y b
    show (y, b) ∈ others i.own u ↔ _
    rw [mem_others]
    by_cases hy : y = u
    · subst hy; simp [set_same]
    · simp only [set_other _ _ hy]; rw [← h.own]; simp [hy]
  · intro p
    have h2 := h.alive p
    have h3 := split_count i.own u p
    show s.alive.count p = ((others i.own u).map (·.2)).count p + (items i.own u ++ i.freed).count p
    rw [List.count_append]; omega

theorem psim_gone {N : List Nat} {s : Ptrs} {i : Ideal} (h : PSim N s i) {u : Nat} (hu : ∀ b, (u, b) ∉ i.own) :
    PSim (N.filter (· != u)) { s with ptrs := set s.ptrs u none } i := by
  refine ⟨?_, h.distinct, ?_, h.deleted, h.alive, h.once⟩
  · intro y
    by_cases hy : y = u
    · subst hy; simp [set_same]
    · simp [set_other _ _ hy, hy, h.names]
  · intro y b
    by_cases hy : y = u
    · subst hy; simp [set_same, hu]
    · simp only [set_other _ _ hy]; exact h.own y b

end Verif.Guard
