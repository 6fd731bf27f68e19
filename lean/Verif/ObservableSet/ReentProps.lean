import Verif.ObservableSet.ReentModel
import Verif.ObservableSet.World

/-!
# C171: observers that change the set from their callbacks
-/

namespace Verif.ObservableSet

open Verif.VectorSet
open Verif.VectorSet.Spec (eqv)

variable {α : Type}

/-! ### Calls -/

theorem next_assoc (x : Res (Now α)) (f g : OSet α → List (Note α) → Res (Now α)) : next (next x f) g = next x fun o log => next (f o log) g := by
  match x with
  | .ok none => rfl
  | .ok (some (o, log)) => rfl
  | .throw e => rfl
  | .ub => rfl

theorem callAll_append (exec : OSet α → List (Note α) → Spec.Op α → Res (Now α)) (react : React α) (e : Event α) (ref : Option Nat) (bs : List Nat) :
    ∀ (as : List Nat) (o : OSet α) (log : List (Note α)),
    callAll exec react e ref (as ++ bs) o log = next (callAll exec react e ref as o log) (callAll exec react e ref bs) := by
  intro as
  induction as with
  | nil => intro o log; rfl
  | cons a as ih =>
    intro o log
    simp only [List.cons_append, callAll]
    split
    · rw [next_assoc]
      congr 1
      funext o' log'
      exact ih o' log'
    · rfl

theorem callAll_quiet {exec : OSet α → List (Note α) → Spec.Op α → Res (Now α)} {react : React α} {e : Event α} {ref : Option Nat} {o : OSet α}
    (hl : live o.set ref = true) : ∀ (as : List Nat) (log : List (Note α)), (∀ log, ∀ a ∈ as, ∀ S, react (log ++ [⟨a, e, S⟩]) = []) →
    callAll exec react e ref as o log = .ok (some (o, log ++ as.map (fun a => ⟨a, e, o.set.forward⟩))) := by
  intro as
  induction as with
  | nil => intro log _; simp [callAll]
  | cons a as ih =>
    intro log hq
    rw [callAll, if_pos hl, hq log a (by simp) _]
    simp only [runOps, ObservableSet.next]
    rw [ih _ fun log b hb S => hq log b (by simp [hb]) S]
    simp

theorem live_of_split {lt : α → α → Bool} {s : VSet α} (hi : Inv lt s) {X Y : List (Elem α)} {e : Elem α} (h : toL s.root = X ++ e :: Y) :
    live s (some e.id) = true := by
  simp [live, hi.list, h]

theorem erase_replays {lt : α → α → Bool} (hlt : StrictWeak lt) {s s' : VSet α} (hi : Inv lt s) (hi' : Inv lt s') {X Y : List (Elem α)} {e : Elem α}
    (h : toL s.root = X ++ e :: Y) (h' : toL s'.root = X ++ Y) : Replays lt (· ∈ s.forward) [.removing e.val] (· ∈ s'.forward) := by
  have hn := sorted_nodup hlt hi.vals_sorted
  rw [vals_split h, List.nodup_append, List.nodup_cons] at hn
  obtain ⟨_, ⟨h2, _⟩, h3⟩ := hn
  rw [hi.forward, hi'.forward, vals_split h]
  refine ⟨by simp [Valid], fun a => ?_⟩
  simp only [applyEvent, vals, h', List.map_append, List.mem_append, List.mem_cons]
  constructor
  · rintro ⟨h4 | h4 | h4, h5⟩
    · exact Or.inl h4
    · exact (h5 h4).elim
    · exact Or.inr h4
  · rintro (h4 | h4)
    · exact ⟨Or.inl h4, fun h5 => h3 a h4 e.val (by simp) h5⟩
    · exact ⟨Or.inr (Or.inr h4), fun h5 => h2 (h5 ▸ h4)⟩

theorem insert_replays {lt : α → α → Bool} (hlt : StrictWeak lt) {o : OSet α} (hi : Inv lt o.set) {v : α} {s : VSet α} {e : Elem α} {b : Bool}
    (h : o.set.insert lt v = .ok (s, e, b)) : Inv lt s ∧ (if b then live s (some e.id) = true else s = o.set) ∧
    Replays lt (· ∈ o.set.forward) (if b then [.added e.val] else []) (· ∈ s.forward) := by
  have h0 : o.step lt (.insert v) = .ok ({ o with set := s }, .inserted e.val b, if b then notify { o with set := s } (.added e.val) else []) := by
    simp only [OSet.step, OSet.insert, h, Res.ok_bind]
  obtain ⟨h1, h2, -, -⟩ := oset_step_inv hlt hi h0
  have hr := expected_replays hlt (by rw [hi.forward]; exact hi.vals_sorted) h1
  refine ⟨h2, ?_, ?_⟩
  · rcases insert_ok hlt hi v with ⟨e', X, Y, q1, -⟩ | ⟨s'', A, B, q1, q2, q3, q4, q5, q6, _⟩
    · rw [q1] at h; cases h; simp
    · rw [q1] at h; cases h; exact live_of_split q6 q5
  · simp only [Spec.step] at h1
    simp only [expected] at hr
    cases hf : o.set.forward.find? (fun a => eqv lt a v) with
    | some a =>
      simp only [hf, Res.ok.injEq, Prod.mk.injEq, Spec.Out.inserted.injEq] at h1
      obtain ⟨_, _, rfl⟩ := h1
      have : o.set.forward.any (fun a => eqv lt a v) = true := by
        rw [List.any_eq_true]
        exact ⟨a, List.mem_of_find?_eq_some hf, List.find?_some (p := fun a => eqv lt a v) hf⟩
      rw [if_pos this] at hr
      exact hr
    | none =>
      simp only [hf, Res.ok.injEq, Prod.mk.injEq, Spec.Out.inserted.injEq] at h1
      obtain ⟨_, h3, rfl⟩ := h1
      have : o.set.forward.any (fun a => eqv lt a v) = false := by
        rw [List.any_eq_false]
        rw [List.find?_eq_none] at hf
        exact hf
      rw [if_neg (by simp [this]), h3] at hr
      exact hr

/-- `find` of an observable set. -/
theorem find_ok {lt : α → α → Bool} (hlt : StrictWeak lt) {s : VSet α} (hi : Inv lt s) (k : α) :
    (s.find (lt k) (fun a => lt a k) = .ok none ∧ s.forward.any (fun a => eqv lt a k) = false) ∨
    ∃ e X Y, s.find (lt k) (fun a => lt a k) = .ok (some e) ∧ toL s.root = X ++ e :: Y ∧ eqv lt e.val k = true := by
  rcases findNode_root (s := s) (keyOK_of_sorted hlt hi.sorted k) with ⟨c, n, l, e, r, gs, p, X, Y, q1, q2, q3, q4⟩ | ⟨p, q1, q2⟩
  · exact Or.inr ⟨e, X, Y, by simp only [VSet.find, q1], q2, by simp [eqv, q3, q4]⟩
  · exact Or.inl ⟨by simp only [VSet.find, q1], by rw [hi.forward]; exact miss_any (vals_all (lt := lt) (k := k) (s := s) q2)⟩

theorem at_ok {lt : α → α → Bool} {s : VSet α} (hi : Inv lt s) {i : Nat} {e : Elem α} (h : s.list[i]? = some e) : ∃ X Y, toL s.root = X ++ e :: Y := by
  rw [← hi.list]
  obtain ⟨X, Y, h⟩ := List.append_of_mem (List.mem_of_getElem? h)
  exact ⟨X, Y, h⟩

/-! ### Observers before which nobody changes anything -/

/-- The operation can be undefined only if `U`; otherwise the events that `a` is sent lead from the old contents to the new ones. -/
def Fine (lt : α → α → Bool) (U : Prop) (a : Nat) (o : OSet α) (log : List (Note α)) (x : Res (Now α)) : Prop :=
  x = .ok none ∨ (x = .ub ∧ U) ∨ ∃ o' new, x = .ok (some (o', log ++ new)) ∧ Inv lt o'.set ∧ o'.subs = o.subs ∧
    Replays lt (· ∈ o.set.forward) (eventsOf a new) (· ∈ o'.set.forward)

theorem Fine.next {lt : α → α → Bool} {U : Prop} {a : Nat} {o : OSet α} {log : List (Note α)} {x : Res (Now α)} {f : OSet α → List (Note α) → Res (Now α)}
    (h : Fine lt U a o log x) (hf : ∀ o' log', Inv lt o'.set → o'.subs = o.subs → Fine lt U a o' log' (f o' log')) : Fine lt U a o log (ObservableSet.next x f) := by
  rcases h with rfl | ⟨rfl, h⟩ | ⟨o', new, rfl, h1, h2, h3⟩
  · exact Or.inl rfl
  · exact Or.inr (Or.inl ⟨rfl, h⟩)
  · simp only [ObservableSet.next]
    rcases hf o' (log ++ new) h1 h2 with h | h | ⟨o'', new', h4, h5, h6, h7⟩
    · exact Or.inl h
    · exact Or.inr (Or.inl h)
    · refine Or.inr (Or.inr ⟨o'', new ++ new', by rw [h4, List.append_assoc], h5, h6.trans h2, ?_⟩)
      rw [eventsOf_append]
      exact h3.append h7

theorem Fine.refl {lt : α → α → Bool} {U : Prop} {a : Nat} {o : OSet α} {log : List (Note α)} (hi : Inv lt o.set) : Fine lt U a o log (.ok (some (o, log))) :=
  Or.inr (Or.inr ⟨o, [], by simp, hi, rfl, Replays.refl _ _⟩)

theorem fine_runOps {lt : α → α → Bool} {U : Prop} {a : Nat} {subs : List Nat} {exec : OSet α → List (Note α) → Spec.Op α → Res (Now α)} : ∀ (ops : List (Spec.Op α)),
    (∀ op ∈ ops, ∀ o log, Inv lt o.set → o.subs = subs → Fine lt U a o log (exec o log op)) → ∀ o log, Inv lt o.set → o.subs = subs →
    Fine lt U a o log (runOps exec ops o log) := by
  intro ops
  induction ops with
  | nil => intro _ o log hi _; exact Fine.refl hi
  | cons op ops ih =>
    intro h o log hi hs
    refine Fine.next (h op (by simp) o log hi hs) fun o' log' hi' hs' => ?_
    exact ih (fun q hq => h q (by simp [hq])) o' log' hi' (hs'.trans hs)

theorem fine_note {lt : α → α → Bool} {U : Prop} {a b : Nat} {o : OSet α} {log : List (Note α)} {e : Event α} {S : List α} {x : Res (Now α)} (hb : b ≠ a)
    (h : Fine lt U a o (log ++ [⟨b, e, S⟩]) x) : Fine lt U a o log x := by
  rcases h with h | h | ⟨o', new, h1, h2, h3, h4⟩
  · exact Or.inl h
  · exact Or.inr (Or.inl h)
  · refine Or.inr (Or.inr ⟨o', ⟨b, e, S⟩ :: new, by rw [h1]; simp, h2, h3, ?_⟩)
    have : eventsOf a (⟨b, e, S⟩ :: new) = eventsOf a new := by simp [eventsOf, hb]
    rw [this]; exact h4

/-- The observers after `a` are called. -/
theorem fine_post {lt : α → α → Bool} {U : Prop} {a : Nat} {subs : List Nat} {exec : OSet α → List (Note α) → Spec.Op α → Res (Now α)} {react : React α}
    (hx : ∀ log, ∀ op ∈ react log, ∀ o log', Inv lt o.set → o.subs = subs → Fine lt U a o log' (exec o log' op)) (e : Event α) (ref : Option Nat) :
    ∀ (as : List Nat), a ∉ as → (as ≠ [] → U) → ∀ o log, Inv lt o.set → o.subs = subs → Fine lt U a o log (callAll exec react e ref as o log) := by
  intro as
  induction as with
  | nil => intro _ _ o log hi _; exact Fine.refl hi
  | cons b as ih =>
    intro ha hu o log hi hs
    rw [callAll]
    split
    · refine Fine.next (fine_note (b := b) (fun h => ha (by simp [h])) (fine_runOps _ (fun op hop o' log' h1 h2 => hx _ op hop o' log' h1 h2) o _ hi hs)) ?_
      intro o' log' hi' hs'
      exact ih (fun h => ha (by simp [h])) (fun _ => hu (by simp)) o' log' hi' (hs'.trans hs)
    · exact Or.inr (Or.inl ⟨rfl, hu (by simp)⟩)

theorem eventsOf_none {a : Nat} {e : Event α} {S : List α} : ∀ {as : List Nat}, a ∉ as → eventsOf a (as.map fun b => (⟨b, e, S⟩ : Note α)) = [] := by
  intro as
  induction as with
  | nil => intro _; rfl
  | cons b as ih =>
    intro h
    simp only [List.mem_cons, not_or] at h
    have := ih h.2
    simp only [eventsOf, List.map_cons, List.filterMap_cons] at this ⊢
    rw [if_neg (fun h1 => h.1 h1.symm), this]

/-- The observers change the set only when something was added, and none of those that are called before `a` does. -/
structure Calm (react : React α) (pre : List Nat) : Prop where
  added : ∀ log n, (∀ v, n.event ≠ .added v) → react (log ++ [n]) = []
  before : ∀ log n, n.observer ∈ pre → react (log ++ [n]) = []

theorem fine_erase {lt : α → α → Bool} (hlt : StrictWeak lt) {U : Prop} {a : Nat} {pre post : List Nat} {exec : OSet α → List (Note α) → Spec.Op α → Res (Now α)}
    {react : React α} (hc : Calm react pre) {o : OSet α} {log : List (Note α)} (hi : Inv lt o.set) (hs : o.subs = pre ++ a :: post)
    (hn : (pre ++ a :: post).Nodup) {X Y : List (Elem α)} {e : Elem α} (h : toL o.set.root = X ++ e :: Y) : Fine lt U a o log (eraseWith exec react o log e) := by
  rw [eraseWith, callAll_quiet (live_of_split hi h) o.subs log fun log b _ S => hc.added log _ (by simp)]
  simp only [ObservableSet.next]
  obtain ⟨s', h1, h2, h3, _⟩ := eraseNode_ok hi h
  refine Or.inr (Or.inr ⟨{ o with set := s' }, _, by rw [h1]; rfl, h3, rfl, ?_⟩)
  rw [eventsOf_subs a _ _ _ (hs ▸ hn), if_pos (by simp [hs])]
  exact erase_replays hlt hi h3 h h2

theorem fine_step {lt : α → α → Bool} (hlt : StrictWeak lt) {U : Prop} {a : Nat} {pre post : List Nat} {react : React α} (hc : Calm react pre)
    (hn : (pre ++ a :: post).Nodup) (hu : post ≠ [] → U) (ha : ∀ log i, .eraseAt i ∈ react log → U) : ∀ (d : Nat) (op : Spec.Op α), (∀ i, op = .eraseAt i → U) →
    ∀ o log, Inv lt o.set → o.subs = pre ++ a :: post → Fine lt U a o log (rstep lt react d o log op) := by
  intro d
  induction d with
  | zero => intro op _ o log _ _; exact Or.inl rfl
  | succ d ih =>
    intro op hop o log hi hs
    have hx : ∀ log, ∀ op ∈ react log, ∀ o log', Inv lt o.set → o.subs = pre ++ a :: post → Fine lt U a o log' (rstep lt react d o log' op) :=
      fun log op h1 o log' hi hs => ih op (fun i h2 => ha log i (h2 ▸ h1)) o log' hi hs
    cases op with
    | insert v =>
      obtain ⟨os, subs⟩ := o
      simp only at hs hi
      subst hs
      simp only [rstep]
      have hr : ∀ s e b, os.insert lt v = .ok (s, e, b) → _ := fun s e b h => insert_replays (o := ⟨os, pre ++ a :: post⟩) hlt hi h
      have hex : ∃ s e b, os.insert lt v = .ok (s, e, b) := by
        rcases insert_ok hlt hi v with ⟨e', X, Y, q1, -⟩ | ⟨s'', A, B, q1, -⟩
        · exact ⟨_, _, _, q1⟩
        · exact ⟨_, _, _, q1⟩
      obtain ⟨s, e, b, hins⟩ := hex
      obtain ⟨h1, h2, h3⟩ := hr s e b hins
      rw [hins]
      simp only [Res.ok_bind]
      cases b with
      | false =>
        simp only [Bool.false_eq_true, if_false] at h2 h3 ⊢
        subst h2
        exact Fine.refl hi
      | true =>
        simp only [if_true] at h2 h3 ⊢
        rw [callAll_append, callAll_quiet (o := ⟨s, pre ++ a :: post⟩) h2 pre log fun log b hb S => hc.before log _ hb]
        simp only [ObservableSet.next]
        rw [callAll, if_pos (by exact h2)]
        have hna : a ∉ pre := by
          intro h; rw [List.nodup_append] at hn; exact hn.2.2 a h a (by simp) rfl
        have hpost : a ∉ post := by
          rw [List.nodup_append, List.nodup_cons] at hn; exact hn.2.1.1
        have hrest := Fine.next (fine_runOps (a := a) (react ((log ++ pre.map fun b => (⟨b, .added e.val, s.forward⟩ : Note α)) ++ [⟨a, .added e.val, s.forward⟩]))
          (hx _) ⟨s, pre ++ a :: post⟩ ((log ++ pre.map fun b => (⟨b, .added e.val, s.forward⟩ : Note α)) ++ [⟨a, .added e.val, s.forward⟩]) h1 rfl)
          (f := callAll (rstep lt react d) react (.added e.val) (some e.id) post)
          (fun o' log' hi' hs' => fine_post hx (.added e.val) (some e.id) post hpost hu o' log' hi' hs')
        rcases hrest with h | h | ⟨o', new, h4, h5, h6, h7⟩
        · exact Or.inl h
        · exact Or.inr (Or.inl h)
        · refine Or.inr (Or.inr ⟨o', (pre.map fun b => (⟨b, .added e.val, s.forward⟩ : Note α)) ++ [⟨a, .added e.val, s.forward⟩] ++ new, ?_, h5, h6, ?_⟩)
          · rw [← List.append_assoc, ← List.append_assoc]; exact h4
          · rw [eventsOf_append, eventsOf_append, eventsOf_none hna]
            have : eventsOf a [(⟨a, .added e.val, s.forward⟩ : Note α)] = [.added e.val] := by simp [eventsOf]
            rw [this]
            exact h3.append h7
    | eraseKey k =>
      simp only [rstep]
      rcases find_ok hlt hi k with ⟨h, -⟩ | ⟨e, X, Y, h, h1, -⟩
      · rw [h]; exact Fine.refl hi
      · rw [h]; exact fine_erase hlt hc hi hs hn h1
    | eraseAt i =>
      simp only [rstep]
      cases h : o.set.list[i]? with
      | none => exact Or.inr (Or.inl ⟨rfl, hop i rfl⟩)
      | some e =>
        obtain ⟨X, Y, h1⟩ := at_ok hi h
        exact fine_erase hlt hc hi hs hn h1
    | clear =>
      simp only [rstep]
      cases he : o.set.isEmpty with
      | true => exact Fine.refl hi
      | false =>
        simp only [Bool.not_false, if_true]
        rw [callAll_quiet rfl o.subs log fun log b _ S => hc.added log _ (by simp)]
        simp only [ObservableSet.next]
        refine Or.inr (Or.inr ⟨{ o with set := o.set.clear }, _, rfl, (clear_ok o.set).1, rfl, ?_⟩)
        rw [eventsOf_subs a _ _ _ (hs ▸ hn), if_pos (by simp [hs])]
        exact ⟨trivial, fun b => by simp [applyEvent, VSet.forward, VSet.clear]⟩
    | _ => exact Fine.refl hi

/-- **C171**, what holds.  Observers may change the set, in any way and nested in each other, when they are told that something was added.  Then every observer that is called before those that do
(or is the first of them) always makes sense of what it is told and arrives at the contents of the set; and if only the last one does, nothing is undefined (erasing by position, where the
position has to exist, aside).
Missing: observers that are called later (`c171_added_violated`), changes when something is removed (`c171_removing_violated`) or cleared (`c171_clearing_violated`). -/
theorem c171_change_when_added_partial {lt : α → α → Bool} (hlt : StrictWeak lt) {s : VSet α} (hr : Reachable lt s) {pre post : List Nat} {a : Nat} (hn : (pre ++ a :: post).Nodup)
    (react : React α) (hadd : ∀ log n, (∀ v, n.event ≠ .added v) → react (log ++ [n]) = []) (hpre : ∀ log n, n.observer ∈ pre → react (log ++ [n]) = [])
    (d : Nat) (ops : List (Spec.Op α)) :
    (∀ o' log, runOps (rstep lt react d) ops ⟨s, pre ++ a :: post⟩ [] = .ok (some (o', log)) →
      o'.subs = pre ++ a :: post ∧ Replays lt (· ∈ s.forward) (eventsOf a log) (· ∈ o'.set.forward)) ∧
    (post = [] → (∀ log i, .eraseAt i ∉ react log) → (∀ i, .eraseAt i ∉ ops) → runOps (rstep lt react d) ops ⟨s, pre ++ a :: post⟩ [] ≠ .ub) ∧
    ∀ x, runOps (rstep lt react d) ops ⟨s, pre ++ a :: post⟩ [] ≠ .throw x := by
  have hi := hr.inv hlt
  have hc : Calm react pre := ⟨hadd, hpre⟩
  have key := fun (U : Prop) (hu : post ≠ [] → U) (ha : ∀ log i, .eraseAt i ∈ react log → U) (ho : ∀ i, .eraseAt i ∈ ops → U) =>
    fine_runOps (lt := lt) (U := U) (a := a) ops (fun op hop o log h1 h2 => fine_step hlt hc hn hu ha d op (fun i h => ho i (h ▸ hop)) o log h1 h2) ⟨s, pre ++ a :: post⟩ [] hi rfl
  refine ⟨fun o' log h => ?_, fun h1 h2 h3 h => ?_, fun x h => ?_⟩
  · rcases key True (fun _ => trivial) (fun _ _ _ => trivial) (fun _ _ => trivial) with h' | ⟨h', -⟩ | ⟨o'', new, h', -, h5, h6⟩
    · rw [h] at h'; cases h'
    · rw [h] at h'; cases h'
    · rw [h] at h'
      simp only [List.nil_append, Res.ok.injEq, Option.some.injEq, Prod.mk.injEq] at h'
      obtain ⟨rfl, rfl⟩ := h'
      exact ⟨h5, h6⟩
  · rcases key False (fun h4 => h4 h1) (fun log i h4 => h2 log i h4) (fun i h4 => h3 i h4) with h' | ⟨-, h'⟩ | ⟨o'', new, h', -⟩
    · rw [h] at h'; cases h'
    · exact h'
    · rw [h] at h'; cases h'
  · rcases key True (fun _ => trivial) (fun _ _ _ => trivial) (fun _ _ => trivial) with h' | ⟨h', -⟩ | ⟨o'', new, h', -⟩ <;> (rw [h] at h'; cases h')

/-- The last observer of a set keeps it small: whatever is added, the smallest elements are erased until there are two (it is told of that too). -/
def keepTwo (last : Nat) : React Nat := fun log =>
  match log.getLast? with
  | some ⟨a, .added _, S⟩ => if a = last ∧ 2 < S.length then [.eraseAt 0] else []
  | _ => []

example : (match runOps (rstep (fun a b => decide (a < b)) (keepTwo 8) 3) [.insert 5, .insert 3, .insert 9, .insert 7] ⟨VSet.empty, [7, 8]⟩ [] with
    | .ok (some (o, log)) => some (o.set.forward, eventsOf 7 log)
    | _ => none) = some ([7, 9], [.added 5, .added 3, .added 9, .removing 3, .added 7, .removing 5]) := by decide +kernel

/-- If nobody changes anything, this is what C19 and C70 are about. -/
theorem c171_nobody {lt : α → α → Bool} (hlt : StrictWeak lt) {o : OSet α} (hr : Reachable lt o.set) (d : Nat) (op : Spec.Op α) (log : List (Note α)) :
    rstep lt (fun _ => []) (d + 1) o log op = (do let (o', _, notes) ← o.step lt op; .ok (some (o', log ++ notes))) := by
  have hi := hr.inv hlt
  have her : ∀ e X Y, toL o.set.root = X ++ e :: Y → eraseWith (rstep lt (fun _ => []) d) (fun _ => []) o log e = (do let (o', notes) ← o.eraseIter e; .ok (some (o', log ++ notes))) := by
    intro e X Y h
    rw [eraseWith, callAll_quiet (live_of_split hi h) o.subs log fun _ _ _ _ => rfl]
    obtain ⟨s', h1, -⟩ := eraseNode_ok hi h
    simp only [ObservableSet.next, OSet.eraseIter, h1, Res.ok_bind, notify]
  cases op with
  | insert v =>
    simp only [rstep, OSet.step, OSet.insert]
    rcases insert_ok hlt hi v with ⟨e', X, Y, q1, -⟩ | ⟨s'', A, B, q1, q2, q3, q4, q5, q6, _⟩
    · simp [q1]
    · simp only [q1, Res.ok_bind, if_true]
      rw [callAll_quiet (o := { o with set := s'' }) (live_of_split q6 q5) o.subs log fun _ _ _ _ => rfl]
      rfl
  | eraseKey k =>
    simp only [rstep, OSet.step, OSet.eraseKey]
    rcases find_ok hlt hi k with ⟨h, -⟩ | ⟨e, X, Y, h, h1, -⟩
    · simp [h]
    · simp only [h, Res.ok_bind, her e X Y h1, OSet.eraseIter]
      cases o.set.eraseNode e.id <;> rfl
  | eraseAt i =>
    simp only [rstep, OSet.step]
    cases h : o.set.list[i]? with
    | none => rfl
    | some e =>
      obtain ⟨X, Y, h1⟩ := at_ok hi h
      simp only [her e X Y h1, OSet.eraseIter]
      cases o.set.eraseNode e.id <;> rfl
  | clear =>
    simp only [rstep, OSet.step, OSet.clear]
    cases he : o.set.isEmpty with
    | true => simp
    | false =>
      simp only [Bool.not_false, if_true]
      rw [callAll_quiet rfl o.subs log fun _ _ _ _ => rfl]
      rfl
  | find k =>
    obtain ⟨s, k1, -⟩ := oset_step hlt hi (.find k) rfl
    rw [k1]
    simp only [OSet.step, VSet.step, Res.bind_eq_ok, Prod.exists] at k1
    obtain ⟨s1, x, ⟨y, -, k2⟩, k3⟩ := k1
    simp only [Res.ok.injEq, Prod.mk.injEq, OSet.mk.injEq] at k2 k3
    obtain ⟨⟨rfl, -⟩, -⟩ := k3
    obtain ⟨rfl, -⟩ := k2
    simp [rstep, expected, deliver]
  | upperBound k =>
    obtain ⟨s, k1, -⟩ := oset_step hlt hi (.upperBound k) rfl
    rw [k1]
    simp only [OSet.step, VSet.step, Res.bind_eq_ok, Prod.exists] at k1
    obtain ⟨s1, x, ⟨y, -, k2⟩, k3⟩ := k1
    simp only [Res.ok.injEq, Prod.mk.injEq, OSet.mk.injEq] at k2 k3
    obtain ⟨⟨rfl, -⟩, -⟩ := k3
    obtain ⟨rfl, -⟩ := k2
    simp [rstep, expected, deliver]
  | _ => simp [rstep, OSet.step, VSet.step]

/-! ### What goes wrong -/

theorem not_live {lt : α → α → Bool} {s s' : VSet α} (hi : Inv lt s) (hi' : Inv lt s') {X Y : List (Elem α)} {e : Elem α} (h : toL s.root = X ++ e :: Y)
    (h' : toL s'.root = X ++ Y) : live s' (some e.id) = false := by
  have hu := hi.uniq
  rw [h, Uniq, List.pairwise_append, List.pairwise_cons] at hu
  simp only [live, hi'.list, h', List.any_eq_false, beq_iff_eq, List.mem_append]
  rintro x (hx | hx) h1
  · exact hu.2.2 x hx e (by simp) h1
  · exact hu.2.1.1 x hx h1.symm

theorem erase_gone {lt : α → α → Bool} {s : VSet α} (hi : Inv lt s) {p : Nat} (h : live s (some p) = false) : s.eraseNode p = .ub := by
  simp only [live, hi.list, List.any_eq_false, beq_iff_eq] at h
  rcases locate_ok p s.root [] with ⟨c, n, l, e, r, gs, q1, q2, q3⟩ | ⟨q1, -⟩
  · simp only [zip] at q2
    refine (h e ?_ q3).elim
    rw [← q2, toL_zip]; simp [toL]
  · simp only [VSet.eraseNode, q1]

/-- Observer `a` erases again whatever is added. -/
def eraseAdded (a : Nat) : React α := fun log =>
  match log.getLast? with
  | some ⟨b, .added v, _⟩ => if b = a then [.eraseKey v] else []
  | _ => []

/-- **C171 is violated** when something is added: if an observer erases it at once, the observers after it are called with a reference to an element that is not there any more. -/
theorem c171_added_violated {lt : α → α → Bool} (hlt : StrictWeak lt) {s : VSet α} (hr : Reachable lt s) (v : α) (hv : s.forward.any (fun a => eqv lt a v) = false)
    (a b : Nat) (rest : List Nat) (d : Nat) : rstep lt (eraseAdded a) (d + 2) ⟨s, a :: b :: rest⟩ [] (.insert v) = .ub := by
  have hi := hr.inv hlt
  rcases insert_ok hlt hi v with ⟨e', X, Y, q1, q2, q3, q4⟩ | ⟨s', A, B, q1, q2, q3, q4, q5, q6, _⟩
  · rw [List.any_eq_false] at hv
    exact (hv e'.val (by rw [hi.forward, vals_split q2]; simp) (by simp [eqv, q3, q4])).elim
  · rw [rstep]
    simp only [q1, Res.ok_bind, if_true]
    rw [callAll, if_pos (live_of_split q6 q5)]
    have hre : ∀ log : List (Note α), eraseAdded a (log ++ [⟨a, .added v, s'.forward⟩]) = [.eraseKey v] := by
      intro log; simp [eraseAdded]
    simp only [hre, runOps, rstep]
    rcases find_ok hlt q6 v with ⟨h, h1⟩ | ⟨e, X, Y, h, h1, h2⟩
    · rw [List.any_eq_false] at h1
      exact (h1 v (by rw [q6.forward, vals_split q5]; simp) (eqv_refl hlt v)).elim
    · have he : e = ⟨s.nextId, v⟩ := by
        have h3 : e ∈ toL s'.root := by rw [h1]; simp
        have h4 := sorted_unique q6.vals_sorted (a := e.val) (b := v) (by rw [vals_split h1]; simp) (by rw [vals_split q5]; simp) h2
        rw [q5, List.mem_append, List.mem_cons] at h3
        have hu := q6.sorted
        rw [q5, Sorted, List.pairwise_append, List.pairwise_cons] at hu
        rcases h3 with h3 | h3 | h3
        · have := hu.2.2 e h3 _ (List.mem_cons_self ..)
          simp only [h4, hlt.irrefl] at this; cases this
        · exact h3
        · have := hu.2.1.1 e h3
          simp only [h4, hlt.irrefl] at this; cases this
      subst he
      rw [h]
      simp only [Res.ok_bind]
      rw [eraseWith, callAll_quiet (live_of_split q6 h1) _ _ fun log c _ S => by simp [eraseAdded]]
      obtain ⟨s2, h5, h6, h7, _⟩ := eraseNode_ok q6 h1
      simp only [ObservableSet.next, h5, Res.ok_bind]
      rw [callAll, if_neg (by simp only [not_live q6 h7 h1 h6]; decide)]

/-- The first time that something is removed, the observer that is told first removes it itself. -/
def eraseFirst : React α := fun log =>
  match log with
  | [⟨_, .removing v, _⟩] => [.eraseKey v]
  | _ => []

/-- **C171 is violated** when something is removed: if the observer that is told first erases it itself (once), it is erased twice, and others are called with a reference to what is not there any more. -/
theorem c171_removing_violated {lt : α → α → Bool} (hlt : StrictWeak lt) {s : VSet α} (hr : Reachable lt s) (v : α) (hv : s.forward.any (fun a => eqv lt a v) = true)
    (a : Nat) (rest : List Nat) (d : Nat) : rstep lt eraseFirst (d + 2) ⟨s, a :: rest⟩ [] (.eraseKey v) = .ub := by
  have hi := hr.inv hlt
  rcases find_ok hlt hi v with ⟨-, h1⟩ | ⟨e, X, Y, h, h1, h2⟩
  · rw [h1] at hv; cases hv
  · have hl := live_of_split hi h1
    have hf : s.find (lt e.val) (fun a => lt a e.val) = .ok (some e) := by
      rcases find_ok hlt hi e.val with ⟨-, h3⟩ | ⟨e', X', Y', h3, h4, h5⟩
      · rw [List.any_eq_false] at h3
        exact (h3 e.val (by rw [hi.forward, vals_split h1]; simp) (eqv_refl hlt _)).elim
      · have h6 := sorted_unique hi.vals_sorted (a := e'.val) (b := e.val) (by rw [vals_split h4]; simp) (by rw [vals_split h1]; simp) h5
        have h7 : e' ∈ toL s.root := by rw [h4]; simp
        have hu := hi.sorted
        rw [h1, Sorted, List.pairwise_append, List.pairwise_cons] at hu
        rw [h1, List.mem_append, List.mem_cons] at h7
        rcases h7 with h7 | h7 | h7
        · have := hu.2.2 e' h7 _ (List.mem_cons_self ..)
          simp only [h6, hlt.irrefl] at this; cases this
        · rw [h3, h7]
        · have := hu.2.1.1 e' h7
          simp only [h6, hlt.irrefl] at this; cases this
    rw [rstep]
    simp only [h, Res.ok_bind]
    rw [eraseWith, callAll, if_pos hl]
    simp only [List.nil_append, eraseFirst, runOps]
    rw [rstep]
    simp only [hf, Res.ok_bind]
    rw [eraseWith]
    have hq : ∀ (as : List Nat) (n : Note α) (log : List (Note α)), callAll (rstep lt eraseFirst d) eraseFirst (.removing e.val) (some e.id) as ⟨s, a :: rest⟩ (n :: log) =
        .ok (some (⟨s, a :: rest⟩, n :: (log ++ as.map fun b => ⟨b, .removing e.val, s.forward⟩))) := by
      intro as
      induction as with
      | nil => intro n log; simp [callAll]
      | cons b as ih =>
        intro n log
        rw [callAll, if_pos (by exact hl)]
        have : eraseFirst ((n :: log) ++ [(⟨b, .removing e.val, s.forward⟩ : Note α)]) = [] := by
          cases log <;> simp [eraseFirst]
        rw [this]
        simp only [runOps, ObservableSet.next, List.cons_append]
        rw [ih]
        simp
    rw [hq]
    obtain ⟨s2, h5, h6, h7, _⟩ := eraseNode_ok hi h1
    have hd := not_live hi h7 h1 h6
    simp only [ObservableSet.next, h5, Res.ok_bind]
    cases rest with
    | nil =>
      simp only [callAll]
      rw [erase_gone h7 hd]; rfl
    | cons b rest => rw [callAll, if_neg (by simp only [hd]; decide)]

/-- When the set is cleared, something is inserted. -/
def insertCleared (w : α) : React α := fun log =>
  match log.getLast? with
  | some ⟨_, .clearing, _⟩ => [.insert w]
  | _ => []

/-- **C171 is violated** when the set is cleared: what an observer inserts meanwhile disappears, although all of them were told that it was added. -/
theorem c171_clearing_violated {lt : α → α → Bool} (hlt : StrictWeak lt) {s : VSet α} (hr : Reachable lt s) (hs : s.forward ≠ []) (w : α)
    (hw : s.forward.any (fun a => eqv lt a w) = false) (a d : Nat) :
    ∃ o' log, rstep lt (insertCleared w) (d + 2) ⟨s, [a]⟩ [] .clear = .ok (some (o', log)) ∧ eventsOf a log = [.clearing, .added w] ∧ o'.set.forward = [] ∧
      ¬ Replays lt (· ∈ s.forward) (eventsOf a log) (· ∈ o'.set.forward) := by
  have hi := hr.inv hlt
  rcases insert_ok hlt hi w with ⟨e', X, Y, q1, q2, q3, q4⟩ | ⟨s', A, B, q1, q2, q3, q4, q5, q6, _⟩
  · rw [List.any_eq_false] at hw
    exact (hw e'.val (by rw [hi.forward, vals_split q2]; simp) (by simp [eqv, q3, q4])).elim
  · have he : s.isEmpty = false := by
      rw [isEmpty_iff hi]
      cases hf : s.forward with
      | nil => exact (hs hf).elim
      | cons => rfl
    refine ⟨⟨s'.clear, [a]⟩, [⟨a, .clearing, s.forward⟩, ⟨a, .added w, s'.forward⟩], ?_, by simp [eventsOf], rfl, ?_⟩
    · rw [rstep]
      simp only [he, Bool.not_false, if_true]
      rw [callAll, if_pos (show live s none = true from rfl)]
      simp only [List.nil_append, insertCleared, List.getLast?_singleton, runOps]
      rw [rstep]
      simp only [q1, Res.ok_bind, if_true]
      rw [callAll, if_pos (live_of_split q6 q5)]
      rfl
    · have : eventsOf a [(⟨a, .clearing, s.forward⟩ : Note α), ⟨a, .added w, s'.forward⟩] = [.clearing, .added w] := by simp [eventsOf]
      rw [this]
      rintro ⟨-, -, h⟩
      have := (h w).1 (Or.inr rfl)
      simp [VSet.forward, VSet.clear] at this

example : ∃ s, Reachable (fun a b : Nat => decide (a < b)) s ∧ s.forward = [5] :=
  ⟨_, ⟨[.insert 5], [.inserted 5 true], rfl⟩, rfl⟩

end Verif.ObservableSet
