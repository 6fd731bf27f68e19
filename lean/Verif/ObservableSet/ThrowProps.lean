import Verif.ObservableSet.ThrowLemmas

/-! # C140: a set and its mirrors after an observer has thrown -/

namespace Verif.ObservableSet.Throw

open Verif.VectorSet
open Verif.VectorSet.Spec (eqv)

variable {α : Type}

/-! ### Specification -/

/-- A state some program leads to: operations in any order, exceptions caught; the mirrors have strict weak orders. -/
def Spec.Reachable (lt : α → α → Bool) (n : Net α) : Prop := ∃ ops : List (Op α), (∀ lt', Op.attach lt' ∈ ops → StrictWeak lt') ∧ (run lt Net.init ops).1 = n

/-- The mirror contains exactly the elements of the source. -/
def Spec.Agrees (n : Net α) : Prop := ∀ lt' m, Watcher.mirror lt' m ∈ n.ws → ∀ x, x ∈ m.set.forward ↔ x ∈ n.src.set.forward

/-! ### Proofs -/

def NInv (lt : α → α → Bool) (n : Net α) : Prop := Inv lt n.src.set ∧ ∀ w ∈ n.ws, Good n.src.set.forward w

theorem split_good {e : Event α} {T T' : List α} (hstep : ∀ w w', Good T w → Handled e w w' → Good T' w') (hsub : ∀ x ∈ T, x ∈ T') {A B A' : List (Watcher α)} {w : Watcher α}
    (hg : ∀ z ∈ A ++ w :: B, Good T z) (hA : List.Forall₂ (Handled e) A A') : ∀ z ∈ A' ++ w :: B, Good T' z := by
  intro z hz
  rcases List.mem_append.1 hz with hz | hz
  · exact forall2_good hstep hA (fun y hy => hg y (List.mem_append_left _ hy)) z hz
  · exact (hg z (List.mem_append_right _ hz)).mono hsub

/-- `insert`, all cases. -/
theorem insert_cases {lt : α → α → Bool} (hlt : StrictWeak lt) {n : Net α} (h : NInv lt n) (v : α) :
    (∃ o, insert lt n v = (⟨o, n.ws⟩, .ok false) ∧ Inv lt o.set ∧ o.set.forward = n.src.set.forward)
    ∨ ∃ o, Inv lt o.set ∧ (∀ a, a ∈ o.set.forward ↔ a ∈ n.src.set.forward ∨ a = v) ∧
      ((∃ ws, insert lt n v = (⟨o, ws⟩, .ok true) ∧ List.Forall₂ (Handled (.added v)) n.ws ws)
      ∨ ∃ A w B A' x, n.ws = A ++ w :: B ∧ insert lt n v = (⟨o, A' ++ w :: B⟩, .throw x) ∧ List.Forall₂ (Handled (.added v)) A A' ∧ Throws (.added v) w) := by
  rcases src_insert hlt h.1 v with ⟨_, o, x, notes, k1, k2, k3⟩ | ⟨_, o, notes, k1, k2, k3⟩
  · exact .inl ⟨o, by simp only [insert, k1], k2, k3⟩
  · refine .inr ⟨o, k2, k3, ?_⟩
    rcases notifyAll_spec (.added v) n.ws h.2 with ⟨ws, q1, q2⟩ | ⟨A, w, B, A', x, q1, q2, q3, q4⟩
    · exact .inl ⟨ws, by simp only [insert, k1, q1]; rfl, q2⟩
    · exact .inr ⟨A, w, B, A', x, q1, by simp only [insert, k1, q2]; rfl, q3, q4⟩

/-- `erase`, all cases. -/
theorem erase_cases {lt : α → α → Bool} (hlt : StrictWeak lt) {n : Net α} (h : NInv lt n) (k : α) :
    (n.src.set.forward.any (fun a => eqv lt a k) = false ∧ erase lt n k = (n, .ok false))
    ∨ ∃ e, e ∈ n.src.set.forward ∧ eqv lt e k = true ∧
      ((∃ o ws, erase lt n k = (⟨o, ws⟩, .ok true) ∧ List.Forall₂ (Handled (.removing e)) n.ws ws ∧ Inv lt o.set ∧ ∀ a, a ∈ o.set.forward ↔ a ∈ n.src.set.forward ∧ a ≠ e)
      ∨ ∃ A w B A' x, n.ws = A ++ w :: B ∧ erase lt n k = (⟨n.src, A' ++ w :: B⟩, .throw x) ∧ List.Forall₂ (Handled (.removing e)) A A' ∧ Throws (.removing e) w) := by
  rcases src_find hlt h.1 k with ⟨k0, k1⟩ | ⟨e, k1, k2, k3, o, notes, k4, k5, k6⟩
  · exact .inl ⟨k0, by simp only [erase, k1]⟩
  · refine .inr ⟨e.val, k2, k3, ?_⟩
    rcases notifyAll_spec (.removing e.val) n.ws h.2 with ⟨ws, q1, q2⟩ | ⟨A, w, B, A', x, q1, q2, q3, q4⟩
    · exact .inl ⟨o, ws, by simp only [erase, k1, q1, k4], q2, k5, k6⟩
    · exact .inr ⟨A, w, B, A', x, q1, by simp only [erase, k1, q2], q3, q4⟩

/-- `clear`, all cases. -/
theorem clear_cases {lt : α → α → Bool} {n : Net α} (h : NInv lt n) :
    (n.src.set.forward = [] ∧ clear n = (n, .ok false))
    ∨ (∃ o ws, clear n = (⟨o, ws⟩, .ok true) ∧ List.Forall₂ (Handled .clearing) n.ws ws ∧ Inv lt o.set ∧ o.set.forward = [])
    ∨ ∃ A w B A' x, n.ws = A ++ w :: B ∧ clear n = (⟨n.src, A' ++ w :: B⟩, .throw x) ∧ List.Forall₂ (Handled .clearing) A A' ∧ Throws .clearing w := by
  have he := isEmpty_iff h.1
  cases hc : n.src.set.forward with
  | nil =>
    left
    refine ⟨rfl, ?_⟩
    simp only [clear, he, hc]; rfl
  | cons a S =>
    right
    have he' : n.src.set.isEmpty = false := by rw [he, hc]; rfl
    rcases notifyAll_spec .clearing n.ws h.2 with ⟨ws, q1, q2⟩ | ⟨A, w, B, A', x, q1, q2, q3, q4⟩
    · refine .inl ⟨n.src.clear.1, ws, by simp only [clear, he', q1]; rfl, q2, ?_, ?_⟩
      · simp only [OSet.clear, he']; exact (clear_ok n.src.set).1
      · simp only [OSet.clear, he']; rfl
    · exact .inr ⟨A, w, B, A', x, q1, by simp only [clear, he', q2]; rfl, q3, q4⟩

theorem reflect_cases {lt : α → α → Bool} (hlt : StrictWeak lt) : ∀ (L : List α) (m : OSet α), Inv lt m.set →
    (∃ m' notes, mirrorRun lt m (L.map .added) = .ok (m', notes) ∧ Inv lt m'.set ∧ ∀ a, a ∈ m'.set.forward ↔ a ∈ m.set.forward ∨ a ∈ L)
    ∨ mirrorRun lt m (L.map .added) = .throw .logic := by
  intro L
  induction L with
  | nil => intro m hi; exact .inl ⟨m, [], rfl, hi, by simp⟩
  | cons v L ih =>
    intro m hi
    cases ha : m.set.forward.any (fun a => eqv lt a v) with
    | true => right; simp only [List.map_cons, mirrorRun, mirror_added_dup hlt hi ha]; rfl
    | false =>
      obtain ⟨m1, n1, k1, k2, k3⟩ := mirror_added_new hlt hi ha
      rcases ih m1 k2 with ⟨m', n', q1, q2, q3⟩ | q
      · refine .inl ⟨m', n1 ++ n', by simp only [List.map_cons, mirrorRun, k1, q1, Res.ok_bind], q2, fun a => ?_⟩
        rw [q3, k3, List.mem_cons, or_assoc]
      · right; simp only [List.map_cons, mirrorRun, k1, q, Res.ok_bind]; rfl

theorem attach_cases {lt' : α → α → Bool} (hlt' : StrictWeak lt') (n : Net α) :
    (∃ m, attach n lt' = (⟨n.src, n.ws ++ [.mirror lt' m]⟩, .ok true) ∧ Inv lt' m.set ∧ ∀ a, a ∈ m.set.forward ↔ a ∈ n.src.set.forward)
    ∨ attach n lt' = (n, .throw .logic) := by
  rcases reflect_cases hlt' n.src.set.forward OSet.empty (empty_inv lt') with ⟨m, notes, q1, q2, q3⟩ | q
  · refine .inl ⟨m, by simp only [attach, reflect, q1], q2, fun a => ?_⟩
    rw [q3]; simp [OSet.empty, VSet.empty, VSet.forward]
  · right; simp only [attach, reflect, q]

theorem step_inv {lt : α → α → Bool} (hlt : StrictWeak lt) {n : Net α} (h : NInv lt n) (op : Op α) (hop : ∀ lt', op = .attach lt' → StrictWeak lt') :
    NInv lt (step lt n op).1 ∧ (step lt n op).2 ≠ .ub := by
  cases op with
  | insert v =>
    simp only [step]
    rcases insert_cases hlt h v with ⟨o, k1, k2, k3⟩ | ⟨o, k2, k3, ⟨ws, q1, q2⟩ | ⟨A, w, B, A', x, q1, q2, q3, q4⟩⟩
    · rw [k1]; exact ⟨⟨k2, fun w hw => by rw [k3]; exact h.2 w hw⟩, by simp⟩
    · rw [q1]
      refine ⟨⟨k2, ?_⟩, by simp⟩
      exact forall2_good (fun w w' hg hh => handled_added ((k3 v).2 (.inr rfl)) hg hh) q2 (fun w hw => (h.2 w hw).mono (fun a ha => (k3 a).2 (.inl ha)))
    · rw [q2]
      refine ⟨⟨k2, ?_⟩, by simp⟩
      have hg : ∀ z ∈ A ++ w :: B, Good o.set.forward z := fun z hz => (h.2 z (by rw [q1]; exact hz)).mono (fun a ha => (k3 a).2 (.inl ha))
      exact split_good (fun w w' hg hh => handled_added ((k3 v).2 (.inr rfl)) hg hh) (fun _ hx => hx) hg q3
  | erase k =>
    simp only [step]
    rcases erase_cases hlt h k with ⟨_, k1⟩ | ⟨e, k2, k3, ⟨o, ws, q1, q2, q3, q4⟩ | ⟨A, w, B, A', x, q1, q2, q3, q4⟩⟩
    · rw [k1]; exact ⟨h, by simp⟩
    · rw [q1]
      refine ⟨⟨q3, forall2_good (T := n.src.set.forward) (fun w w' hg hh => ?_) q2 h.2⟩, by simp⟩
      cases hh with
      | other => trivial
      | mirror hm =>
        obtain ⟨g1, g2, g3, g4⟩ := handled_removing hg hm
        exact ⟨g1.1, g1.2.1, fun x hx => (q4 x).2 ⟨g1.2.2 x hx, fun ex => g3 (ex ▸ hx)⟩⟩
    · rw [q2]
      refine ⟨⟨h.1, ?_⟩, by simp⟩
      refine split_good (T := n.src.set.forward) (fun w w' hg hh => ?_) (fun _ hx => hx) (fun z hz => h.2 z (by rw [q1]; exact hz)) q3
      cases hh with
      | other => trivial
      | mirror hm => exact (handled_removing hg hm).1
  | clear =>
    simp only [step]
    rcases clear_cases h with ⟨_, k1⟩ | ⟨o, ws, q1, q2, q3, q4⟩ | ⟨A, w, B, A', x, q1, q2, q3, q4⟩
    · rw [k1]; exact ⟨h, by simp⟩
    · rw [q1]; exact ⟨⟨q3, forall2_good (fun w w' hg hh => handled_clearing hg hh) q2 h.2⟩, by simp⟩
    · rw [q2]
      refine ⟨⟨h.1, ?_⟩, by simp⟩
      exact split_good (fun w w' hg hh => handled_clearing hg hh) (fun _ hx => hx) (fun z hz => h.2 z (by rw [q1]; exact hz)) q3
  | attach lt' =>
    simp only [step]
    have hl := hop lt' rfl
    rcases attach_cases hl n with ⟨m, k1, k2, k3⟩ | k
    · rw [k1]
      refine ⟨⟨h.1, fun w hw => ?_⟩, by simp⟩
      rcases List.mem_append.1 hw with hw | hw
      · exact h.2 w hw
      · rw [List.mem_singleton.1 hw]; exact ⟨hl, k2, fun x hx => (k3 x).1 hx⟩
    · rw [k]; exact ⟨h, by simp⟩
  | subscribe t =>
    simp only [step]
    refine ⟨⟨h.1, fun w hw => ?_⟩, by simp⟩
    rcases List.mem_append.1 hw with hw | hw
    · exact h.2 w hw
    · rw [List.mem_singleton.1 hw]; trivial

theorem init_inv (lt : α → α → Bool) : NInv lt (Net.init : Net α) := ⟨empty_inv lt, by simp [Net.init]⟩

theorem run_inv {lt : α → α → Bool} (hlt : StrictWeak lt) (ops : List (Op α)) : ∀ n : Net α, NInv lt n → (∀ lt', Op.attach lt' ∈ ops → StrictWeak lt') →
    NInv lt (run lt n ops).1 ∧ ∀ r ∈ (run lt n ops).2, r ≠ .ub := by
  induction ops with
  | nil => intro n h _; exact ⟨h, by simp [run]⟩
  | cons op ops ih =>
    intro n h ho
    obtain ⟨h1, h2⟩ := step_inv hlt h op (fun lt' e => ho lt' (by rw [e]; exact List.mem_cons_self))
    obtain ⟨h3, h4⟩ := ih _ h1 (fun lt' hl => ho lt' (List.mem_cons_of_mem _ hl))
    refine ⟨h3, fun r hr => ?_⟩
    simp only [run, List.mem_cons] at hr
    rcases hr with rfl | hr
    · exact h2
    · exact h4 r hr

theorem reachable_inv {lt : α → α → Bool} (hlt : StrictWeak lt) {n : Net α} (h : Spec.Reachable lt n) : NInv lt n := by
  obtain ⟨ops, h1, rfl⟩ := h
  exact (run_inv hlt ops _ (init_inv lt) h1).1

/-- C140: whatever the observers throw and when: no operation is undefined, and a mirror never has an element that the source does not have. -/
theorem c140_subset {lt : α → α → Bool} (hlt : StrictWeak lt) (ops : List (Op α)) (ho : ∀ lt', Op.attach lt' ∈ ops → StrictWeak lt') :
    (∀ r ∈ (run lt Net.init ops).2, r ≠ .ub) ∧ ∀ lt' m, Watcher.mirror lt' m ∈ (run lt Net.init ops).1.ws → ∀ x ∈ m.set.forward, x ∈ (run lt Net.init ops).1.src.set.forward := by
  obtain ⟨h1, h2⟩ := run_inv hlt ops _ (init_inv lt) ho
  exact ⟨h2, fun lt' m hm => (h1.2 _ hm).2.2⟩

/-- C140: after a `clear` that returns, the source and all the mirrors are empty, and so they agree again, whatever has been thrown before. -/
theorem c140_clear {lt : α → α → Bool} (hlt : StrictWeak lt) {n : Net α} (h : Spec.Reachable lt n) (b : Bool) (hc : (clear n).2 = .ok b) :
    (clear n).1.src.set.forward = [] ∧ Spec.Agrees (clear n).1 := by
  have hi := reachable_inv hlt h
  have key : (clear n).1.src.set.forward = [] := by
    rcases clear_cases hi with ⟨k0, k1⟩ | ⟨o, ws, q1, q2, q3, q4⟩ | ⟨A, w, B, A', x, q1, q2, q3, q4⟩
    · rw [k1]; exact k0
    · rw [q1]; exact q4
    · rw [q2] at hc; cases hc
  have hi' := (step_inv hlt hi .clear (by intro l e; cases e)).1
  refine ⟨key, fun lt' m hm x => ⟨(hi'.2 _ hm).2.2 x, fun hx => ?_⟩⟩
  rw [key] at hx; cases hx

/-- C140: an `insert` that throws has inserted; the observers before the one that throws know it, that one and the others after it do not. -/
theorem c140_insert_throws {lt : α → α → Bool} (hlt : StrictWeak lt) {n : Net α} (h : Spec.Reachable lt n) (v : α) (x : Exn) (hx : (insert lt n v).2 = .throw x) :
    (∀ a, a ∈ (insert lt n v).1.src.set.forward ↔ a ∈ n.src.set.forward ∨ a = v)
    ∧ ∃ A w B A', n.ws = A ++ w :: B ∧ (insert lt n v).1.ws = A' ++ w :: B ∧ A'.length = A.length ∧ Throws (.added v) w
      ∧ ∀ lt' m, Watcher.mirror lt' m ∈ A' → v ∈ m.set.forward := by
  have hi := reachable_inv hlt h
  rcases insert_cases hlt hi v with ⟨o, k1, k2, k3⟩ | ⟨o, k2, k3, ⟨ws, q1, q2⟩ | ⟨A, w, B, A', y, q1, q2, q3, q4⟩⟩
  · rw [k1] at hx; cases hx
  · rw [q1] at hx; cases hx
  · rw [q2]
    refine ⟨k3, A, w, B, A', q1, rfl, q3.length_eq.symm, q4, ?_⟩
    have hg : ∀ z ∈ A, Good n.src.set.forward z := fun z hz => hi.2 z (by rw [q1]; exact List.mem_append_left _ hz)
    clear q1 q2
    induction q3 with
    | nil => simp
    | cons hh _ ih =>
      intro lt' m hm
      rcases List.mem_cons.1 hm with e | hm
      · cases hh with
        | other => cases e
        | @mirror lt1 m1 m2 notes hm1 =>
          cases e
          obtain ⟨g1, g2, _⟩ := hg _ List.mem_cons_self
          cases ha : m1.set.forward.any (fun a => eqv lt' a v) with
          | true => rw [mirror_added_dup g1 g2 ha] at hm1; cases hm1
          | false =>
            obtain ⟨m3, n3, e1, e2, e3⟩ := mirror_added_new g1 g2 ha
            rw [hm1] at e1; cases e1
            exact (e3 v).2 (.inr rfl)
      · exact ih (fun z hz => hg z (List.mem_cons_of_mem _ hz)) lt' m hm

/-- C140: an `erase` that throws has removed nothing from the source, but the mirrors before the observer that throws do not have the element any more. -/
theorem c140_erase_throws {lt : α → α → Bool} (hlt : StrictWeak lt) {n : Net α} (h : Spec.Reachable lt n) (k : α) (x : Exn) (hx : (erase lt n k).2 = .throw x) :
    (erase lt n k).1.src = n.src ∧ ∃ e ∈ n.src.set.forward, eqv lt e k = true ∧ ∃ A w B A', n.ws = A ++ w :: B ∧ (erase lt n k).1.ws = A' ++ w :: B ∧ A'.length = A.length
      ∧ Throws (.removing e) w ∧ ∀ lt' m, Watcher.mirror lt' m ∈ A' → e ∉ m.set.forward := by
  have hi := reachable_inv hlt h
  rcases erase_cases hlt hi k with ⟨_, k1⟩ | ⟨e, k2, k3, ⟨o, ws, q1, q2, q3, q4⟩ | ⟨A, w, B, A', y, q1, q2, q3, q4⟩⟩
  · rw [k1] at hx; cases hx
  · rw [q1] at hx; cases hx
  · rw [q2]
    refine ⟨rfl, e, k2, k3, A, w, B, A', q1, rfl, q3.length_eq.symm, q4, ?_⟩
    have hg : ∀ z ∈ A, Good n.src.set.forward z := fun z hz => hi.2 z (by rw [q1]; exact List.mem_append_left _ hz)
    clear q1 q2
    induction q3 with
    | nil => simp
    | cons hh _ ih =>
      intro lt' m hm
      rcases List.mem_cons.1 hm with e' | hm
      · cases hh with
        | other => cases e'
        | @mirror lt1 m1 m2 notes hm1 =>
          cases e'
          exact (handled_removing (hg _ List.mem_cons_self) hm1).2.2.1
      · exact ih (fun z hz => hg z (List.mem_cons_of_mem _ hz)) lt' m hm

/-! ### Histories without exceptions -/

theorem agrees_forall2 {e : Event α} {T T' : List α} (hstep : ∀ lt m m' notes, Good T (.mirror lt m) → (∀ x, x ∈ m.set.forward ↔ x ∈ T) → mirrorOn lt m e = .ok (m', notes) →
    ∀ x, x ∈ m'.set.forward ↔ x ∈ T') {ws ws' : List (Watcher α)} (h : List.Forall₂ (Handled e) ws ws') (hg : ∀ w ∈ ws, Good T w)
    (ha : ∀ lt m, Watcher.mirror lt m ∈ ws → ∀ x, x ∈ m.set.forward ↔ x ∈ T) : ∀ lt m, Watcher.mirror lt m ∈ ws' → ∀ x, x ∈ m.set.forward ↔ x ∈ T' := by
  induction h with
  | nil => simp
  | cons hh _ ih =>
    intro lt m hm
    rcases List.mem_cons.1 hm with e' | hm
    · cases hh with
      | other => cases e'
      | @mirror lt1 m1 m2 notes hm1 =>
        cases e'
        exact hstep _ _ _ _ (hg _ List.mem_cons_self) (ha _ _ List.mem_cons_self) hm1
    · exact ih (fun z hz => hg z (List.mem_cons_of_mem _ hz)) (fun l m hm => ha l m (List.mem_cons_of_mem _ hm)) lt m hm

theorem step_agrees {lt : α → α → Bool} (hlt : StrictWeak lt) {n : Net α} (h : NInv lt n) (ha : Spec.Agrees n) (op : Op α) (hop : ∀ lt', op = .attach lt' → StrictWeak lt')
    (b : Bool) (hr : (step lt n op).2 = .ok b) : Spec.Agrees (step lt n op).1 := by
  cases op with
  | insert v =>
    simp only [step] at hr ⊢
    rcases insert_cases hlt h v with ⟨o, k1, k2, k3⟩ | ⟨o, k2, k3, ⟨ws, q1, q2⟩ | ⟨A, w, B, A', x, q1, q2, q3, q4⟩⟩
    · rw [k1]; intro lt' m hm x; show x ∈ m.set.forward ↔ x ∈ o.set.forward; rw [k3]; exact ha lt' m hm x
    · rw [q1]
      refine agrees_forall2 (T := n.src.set.forward) (fun lt' m m' notes hg hm hh x => ?_) q2 h.2 ha
      cases hy : m.set.forward.any (fun a => eqv lt' a v) with
      | true => rw [mirror_added_dup hg.1 hg.2.1 hy] at hh; cases hh
      | false =>
        obtain ⟨m3, n3, e1, e2, e3⟩ := mirror_added_new hg.1 hg.2.1 hy
        rw [hh] at e1; cases e1
        show x ∈ m'.set.forward ↔ x ∈ o.set.forward
        rw [e3, k3, hm]
    · rw [q2] at hr; cases hr
  | erase k =>
    simp only [step] at hr ⊢
    rcases erase_cases hlt h k with ⟨_, k1⟩ | ⟨e, k2, k3, ⟨o, ws, q1, q2, q3, q4⟩ | ⟨A, w, B, A', x, q1, q2, q3, q4⟩⟩
    · rw [k1]; exact ha
    · rw [q1]
      refine agrees_forall2 (T := n.src.set.forward) (fun lt' m m' notes hg hm hh x => ?_) q2 h.2 ha
      show x ∈ m'.set.forward ↔ x ∈ o.set.forward
      rw [(handled_removing hg hh).2.2.2 ((hm e).2 k2) x, q4, hm]
    · rw [q2] at hr; cases hr
  | clear =>
    simp only [step] at hr ⊢
    rcases clear_cases h with ⟨_, k1⟩ | ⟨o, ws, q1, q2, q3, q4⟩ | ⟨A, w, B, A', x, q1, q2, q3, q4⟩
    · rw [k1]; exact ha
    · rw [q1]
      refine agrees_forall2 (T := n.src.set.forward) (fun lt' m m' notes hg hm hh x => ?_) q2 h.2 ha
      obtain ⟨m3, n3, e1, e2, e3⟩ := mirror_clearing hg.1 hg.2.1
      rw [hh] at e1; cases e1
      show x ∈ m'.set.forward ↔ x ∈ o.set.forward
      rw [e3, q4]
    · rw [q2] at hr; cases hr
  | attach lt' =>
    simp only [step] at hr ⊢
    rcases attach_cases (hop lt' rfl) n with ⟨m, k1, k2, k3⟩ | k
    · rw [k1]
      intro l m' hm x
      rcases List.mem_append.1 hm with hm | hm
      · exact ha l m' hm x
      · cases List.mem_singleton.1 hm; exact k3 x
    · rw [k] at hr; cases hr
  | subscribe t =>
    intro l m hm x
    simp only [step] at hm
    rcases List.mem_append.1 hm with hm | hm
    · exact ha l m hm x
    · cases List.mem_singleton.1 hm

/-- C140 for histories in which nothing was thrown: all the mirrors contain exactly the elements of the source, with whatever orders they have (an order that is too coarse shows itself by throwing).
Missing: after an exception it is false, see the theorems below. -/
theorem c140_agree_partial {lt : α → α → Bool} (hlt : StrictWeak lt) (ops : List (Op α)) (ho : ∀ lt', Op.attach lt' ∈ ops → StrictWeak lt')
    (hok : ∀ r ∈ (run lt Net.init ops).2, ∃ b, r = .ok b) : Spec.Agrees (run lt Net.init ops).1 := by
  have key : ∀ (ops : List (Op α)) (n : Net α), NInv lt n → Spec.Agrees n → (∀ lt', Op.attach lt' ∈ ops → StrictWeak lt') →
      (∀ r ∈ (run lt n ops).2, ∃ b, r = .ok b) → Spec.Agrees (run lt n ops).1 := by
    intro ops
    induction ops with
    | nil => intro n _ ha _ _; exact ha
    | cons op ops ih =>
      intro n hn ha ho hok
      simp only [run, List.mem_cons, forall_eq_or_imp] at hok
      obtain ⟨⟨b, hb⟩, hok⟩ := hok
      have hop : ∀ lt', op = .attach lt' → StrictWeak lt' := fun lt' e => ho lt' (by rw [e]; exact List.mem_cons_self)
      exact ih _ (step_inv hlt hn op hop).1 (step_agrees hlt hn ha op hop b hb) (fun lt' hl => ho lt' (List.mem_cons_of_mem _ hl)) hok
  exact key ops _ (init_inv lt) (by intro l m hm; cases hm) ho hok

/-! ### Violations -/

/-- C140 is violated by `erase`: if an observer behind a mirror throws when an element is removed, then, even after that observer is unsubscribed, every further `erase` of the element throws because the
mirror does not have it any more: the element cannot be erased from the source. -/
theorem c140_stuck_violated {lt : α → α → Bool} (hlt : StrictWeak lt) {n : Net α} (h : Spec.Reachable lt n) (lt' : α → α → Bool) (m : OSet α) (t : Event α → Bool) (ws : List (Watcher α))
    (hw : n.ws = .mirror lt' m :: .other t :: ws) (v : α) (hv : v ∈ n.src.set.forward) (hm : v ∈ m.set.forward) (ht : t (.removing v) = true) :
    ∃ m', (erase lt n v).2 = .throw (.user 0) ∧ (erase lt n v).1 = ⟨n.src, .mirror lt' m' :: .other t :: ws⟩
      ∧ ∀ j, run lt ⟨n.src, .mirror lt' m' :: ws⟩ (List.replicate j (.erase v)) = (⟨n.src, .mirror lt' m' :: ws⟩, List.replicate j (.throw .logic)) := by
  have hi := reachable_inv hlt h
  have hg : Good n.src.set.forward (.mirror lt' m) := hi.2 _ (by rw [hw]; exact List.mem_cons_self)
  obtain ⟨m', notes, k1, k2, k3⟩ := mirror_removing_some hg.1 hg.2.1 (List.any_eq_true.2 ⟨v, hm, eqv_refl hg.1 v⟩)
  obtain ⟨g1, g2, g3, g4⟩ := handled_removing hg k1
  have hf : ∃ e, n.src.set.find (lt v) (fun a => lt a v) = .ok (some e) ∧ e.val = v := by
    rcases src_find hlt hi.1 v with ⟨q1, _⟩ | ⟨e, q1, q2, q3, _⟩
    · rw [List.any_eq_false] at q1
      exact absurd (eqv_refl hlt v) (q1 v hv)
    · exact ⟨e, q1, sorted_unique (sorted_of hi.1) q2 hv q3⟩
  obtain ⟨e, f1, f2⟩ := hf
  have first : erase lt n v = (⟨n.src, .mirror lt' m' :: .other t :: ws⟩, .throw (.user 0)) := by
    simp only [erase, f1, f2, hw, notifyAll, k1, ht, if_true]
  have again : step lt ⟨n.src, .mirror lt' m' :: ws⟩ (.erase v) = (⟨n.src, .mirror lt' m' :: ws⟩, .throw .logic) := by
    simp only [step, erase, f1, f2, notifyAll, mirror_removing_none g1.1 g1.2.1 g2]
  refine ⟨m', by rw [first], by rw [first], fun j => ?_⟩
  induction j with
  | zero => rfl
  | succ j ih => simp only [List.replicate_succ, run, again, ih]

/-- A mirror that compares the last digits. -/
def digitLt (a b : Nat) : Bool := decide (a % 10 < b % 10)

/-- C140 is violated by `insert`: 13 is refused by a mirror that has 3 and has the same last digit, but stays in the source; when 13 is erased from the source, the mirror erases 3; and then 3 cannot be erased
from the source. -/
theorem c140_wrong_removed_violated :
    let r := run (fun a b : Nat => decide (a < b)) Net.init [.attach digitLt, .insert 3, .insert 13, .erase 13, .erase 3, .erase 3]
    r.2 = [.ok true, .ok true, .throw .logic, .ok true, .throw .logic, .throw .logic] ∧ r.1.src.set.forward = [3]
      ∧ r.1.ws.map (fun w => match w with | .mirror _ m => m.set.forward | .other _ => []) = [[]] := by
  refine ⟨rfl, rfl, rfl⟩

/-! ### Examples -/

theorem digitLt_strict : StrictWeak digitLt := by
  constructor <;> intros <;> simp_all [digitLt] <;> omega

/-- A state that meets the hypotheses of `c140_stuck_violated`: a mirror and an observer that throws when 5 is removed. -/
example : ∃ m, (run (fun a b : Nat => decide (a < b)) Net.init [.insert 5, .insert 7, .attach digitLt, .subscribe (fun e => decide (e = .removing 5))]).1.ws =
    [.mirror digitLt m, .other (fun e => decide (e = .removing 5))] ∧ m.set.forward = [5, 7] := ⟨_, rfl, rfl⟩
example : (run (fun a b : Nat => decide (a < b)) Net.init [.insert 5, .attach digitLt, .insert 7, .erase 5, .clear]).2 = List.replicate 5 (.ok true) := rfl

end Verif.ObservableSet.Throw
