import Verif.UpdateQueue.Spec

/-! # Invariant of the update queue -/

namespace Verif.UpdateQueue

variable {U : Type}

def Frame.holds : Frame U → Bool
  | .pushLock _ => false
  | .clearLock => false
  | _ => true

def Frame.msg : Frame U → Option Nat
  | .pushCopy m _ => some m
  | .pushLink m _ => some m
  | _ => none

def Phase.holds : Phase → Bool
  | .prepMove => true
  | .prepUnlock => true
  | .freeAt _ _ => true
  | .freeIn _ _ => true
  | .freeUnlock _ => true
  | _ => false

/-- How many times thread `t` has locked the mutex. -/
def held (s : Sys U) (t : Nat) : Nat := (s.stack t).countP Frame.holds + if t = 0 ∧ s.phase.holds then 1 else 0

/-- The messages that are in no list, because `Push` is dealing with them. -/
def inflight (s : Sys U) : List Nat :=
  match s.owner with
  | some t => (s.stack t).filterMap Frame.msg
  | none => []

/-- The updates waiting and the ones left of the current batch. -/
abbrev Abs (U : Type) := List (Nat × U) × Option (List U)

/-- The functions of a batch are released one after another. -/
def Released (s : Sys U) : Prop :=
  match s.phase with
  | .freeAt i _ => ∀ j m, j < i → s.rendering[j]? = some m → s.func m = none
  | .freeIn i _ => ∀ j m, j ≤ i → s.rendering[j]? = some m → s.func m = none
  | _ => True

def absStep (a : Abs U) : Item U → Option (Abs U)
  | .pushed t u => some (a.1 ++ [(t, u)], a.2)
  | .cleared => some ([], a.2)
  | .batch => match a.2 with
    | none => some ([], some (a.1.map Prod.snd))
    | some _ => none
  | .applied _ => match a.2 with
    | some (_ :: r) => some (a.1, some r)
    | _ => none
  | .threw => some a
  | .returned _ _ => some a
  | .pushThrew _ => some a
  | .finished false => match a.2 with
    | some [] => some (a.1, none)
    | _ => none
  | .finished true => match a.2 with
    | some _ => some (a.1, none)
    | _ => none

/-- The update applied is the first one left. -/
def absOK (a : Abs U) : Item U → Prop
  | .applied u => ∃ r, a.2 = some (u :: r)
  | _ => True

def BatchOK (s : Sys U) (B : Option (List U)) : Prop :=
  match s.phase with
  | .idle | .prepLock | .prepMove | .freeUnlock _ => s.rendering = [] ∧ B = none
  | .prepUnlock => ∃ L, B = some L ∧ s.rendering.map s.func = L.map some
  | .at_ i => ∃ L, B = some L ∧ (s.rendering.drop i).map s.func = L.map some
  | .in_ i => i < s.rendering.length ∧ ∃ L, B = some L ∧ (s.rendering.drop (i + 1)).map s.func = L.map some
  | .freeLock e | .freeAt _ e | .freeIn _ e => ∃ L, B = some L ∧ (e = false → L = [])

structure Inv (s : Sys U) (W : List (Nat × U)) (B : Option (List U)) (X : List Nat) : Prop where
  lock : ∀ t, held s t = if s.owner = some t then s.depth else 0
  pos : ∀ t, s.owner = some t → 0 < s.depth
  msgs : ∀ m, s.pending.count m + s.free.count m + s.rendering.count m + (inflight s).count m + X.count m =
    if m < s.next then 1 else 0
  pend : s.pending.map s.func = W.map (fun p => some p.2)
  shape : ∀ t f fs, s.stack t = f :: fs → ∀ g ∈ fs, ∃ m u, g = .pushCopy m u
  link : ∀ t m u, Frame.pushLink m u ∈ s.stack t → s.func m = some u
  user0 : s.stack 0 ≠ [] → s.phase.user = true
  batch : BatchOK s B
  released : Released s

theorem Inv.init : Inv (Sys.init : Sys U) [] none [] := by
  refine ⟨?_, ?_, ?_, rfl, ?_, ?_, ?_, ⟨rfl, rfl⟩, trivial⟩ <;> simp [Sys.init, held, inflight, Phase.holds]

theorem msgs_nil_of_held {fs : List (Frame U)} (h : fs.countP Frame.holds = 0) : fs.filterMap Frame.msg = [] := by
  induction fs with
  | nil => rfl
  | cons f fs ih =>
    rw [List.countP_cons] at h
    have h1 : fs.countP Frame.holds = 0 := by omega
    have h2 : f.holds = false := by
      cases hf : f.holds with
      | false => rfl
      | true => rw [hf] at h; simp at h
    rw [List.filterMap_cons]
    cases f <;> simp_all [Frame.holds, Frame.msg]

/-- A thread inside the critical section owns the mutex. -/
theorem Inv.owner_of_frame {s : Sys U} {W : List (Nat × U)} {B : Option (List U)} {X : List Nat} (h : Inv s W B X) {t : Nat} {f : Frame U}
    (hf : f ∈ s.stack t) (hh : f.holds = true) : s.owner = some t := by
  have h1 := h.lock t
  have h2 : 0 < (s.stack t).countP Frame.holds := List.countP_pos_iff.2 ⟨f, hf, hh⟩
  by_cases ho : s.owner = some t
  · exact ho
  · rw [if_neg ho] at h1; simp only [held] at h1; omega

theorem Inv.owner_of_phase {s : Sys U} {W : List (Nat × U)} {B : Option (List U)} {X : List Nat} (h : Inv s W B X)
    (hh : s.phase.holds = true) : s.owner = some 0 := by
  have h1 := h.lock 0
  by_cases ho : s.owner = some 0
  · exact ho
  · rw [if_neg ho] at h1; simp [held, hh] at h1

theorem Inv.no_msg {s : Sys U} {W : List (Nat × U)} {B : Option (List U)} {X : List Nat} (h : Inv s W B X) {t : Nat}
    (ho : s.owner ≠ some t) : (s.stack t).filterMap Frame.msg = [] := by
  have h1 := h.lock t
  rw [if_neg ho] at h1
  exact msgs_nil_of_held (by simp only [held] at h1; omega)

theorem Inv.inflight_count {s : Sys U} {W : List (Nat × U)} {B : Option (List U)} {X : List Nat} (h : Inv s W B X) (t m : Nat) :
    ((s.stack t).filterMap Frame.msg).count m ≤ (inflight s).count m := by
  by_cases ho : s.owner = some t
  · simp [inflight, ho]
  · rw [h.no_msg ho]; simp

/-- A message that `Push` is dealing with is in no list. -/
theorem Inv.fresh {s : Sys U} {W : List (Nat × U)} {B : Option (List U)} {X : List Nat} (h : Inv s W B X) {t m : Nat} {f : Frame U}
    (hf : f ∈ s.stack t) (hm : f.msg = some m) : m ∉ s.pending ∧ m ∉ s.free ∧ m ∉ s.rendering ∧ m < s.next := by
  have h1 := h.msgs m
  have h2 := h.inflight_count t m
  have h3 : 0 < ((s.stack t).filterMap Frame.msg).count m :=
    List.count_pos_iff.2 (List.mem_filterMap.2 ⟨f, hf, hm⟩)
  split at h1
  · next hlt =>
    refine ⟨?_, ?_, ?_, hlt⟩ <;>
    · intro hc
      have := List.count_pos_iff.2 hc
      omega
  · omega

theorem Inv.disjoint {s : Sys U} {W : List (Nat × U)} {B : Option (List U)} {X : List Nat} (h : Inv s W B X) {m : Nat} :
    (m ∈ s.rendering → m ∉ s.pending ∧ m ∉ s.free) ∧ (m ∈ s.free → m ∉ s.pending) := by
  have h1 := h.msgs m
  constructor
  · intro hr
    have := List.count_pos_iff.2 hr
    refine ⟨fun hc => ?_, fun hc => ?_⟩ <;>
    · have := List.count_pos_iff.2 hc
      split at h1 <;> omega
  · intro hr hc
    have := List.count_pos_iff.2 hr
    have := List.count_pos_iff.2 hc
    split at h1 <;> omega

theorem lock_some {s s1 : Sys U} {t : Nat} (h : s.lock t = some s1) :
    (s.owner = none ∧ s1 = { s with owner := some t, depth := 1 }) ∨
    (s.owner = some t ∧ s1 = { s with depth := s.depth + 1 }) := by
  simp only [Sys.lock] at h
  split at h
  · next ho => exact Or.inl ⟨ho, (Option.some.inj h).symm⟩
  · next t' ho =>
    split at h
    · next he => subst he; exact Or.inr ⟨ho, (Option.some.inj h).symm⟩
    · cases h

/-- Locking, while thread `t` goes on with one more lock held: everything but the lock is as it was. -/
theorem Inv.locked {s s1 : Sys U} {W : List (Nat × U)} {B : Option (List U)} {X : List Nat} (h : Inv s W B X) {t : Nat}
    (hl : s.lock t = some s1) : s1.owner = some t ∧ s1.depth = (if s.owner = some t then s.depth else 0) + 1 ∧
      s1 = { s with owner := s1.owner, depth := s1.depth } ∧ inflight s1 = inflight s ∧ (∀ t', t' ≠ t → held s t' = 0) := by
  have hz : (s.owner = none ∨ s.owner = some t) → ∀ t', t' ≠ t → held s t' = 0 := by
    intro ho t' hne
    rw [h.lock t', if_neg]
    rcases ho with ho | ho
    · rw [ho]; simp
    · rw [ho]; intro he; exact hne (Option.some.inj he).symm
  rcases lock_some hl with ⟨ho, rfl⟩ | ⟨ho, rfl⟩
  · refine ⟨rfl, by simp [ho], rfl, ?_, hz (Or.inl ho)⟩
    simp only [inflight, ho]
    exact h.no_msg (by rw [ho]; simp)
  · refine ⟨ho, by simp [ho], by simp, ?_, hz (Or.inr ho)⟩
    simp only [inflight, ho]

theorem unlock_some {s : Sys U} {W : List (Nat × U)} {B : Option (List U)} {X : List Nat} (h : Inv s W B X) {t : Nat}
    (ho : s.owner = some t) : ∃ s1, s.unlock t = some s1 ∧
      ((s.depth = 1 ∧ s1 = { s with owner := none, depth := 0 }) ∨
       (1 < s.depth ∧ s1 = { s with depth := s.depth - 1 })) := by
  have := h.pos t ho
  by_cases h1 : s.depth = 1
  · exact ⟨{ s with owner := none, depth := 0 }, by simp [Sys.unlock, ho, h1], Or.inl ⟨h1, rfl⟩⟩
  · exact ⟨{ s with depth := s.depth - 1 }, by simp [Sys.unlock, ho, h1], Or.inr ⟨by omega, rfl⟩⟩

theorem batchOK_func {s : Sys U} {B : Option (List U)} (h : BatchOK s B) {f : Nat → Option U}
    (hf : ∀ m ∈ s.rendering, f m = s.func m) : BatchOK { s with func := f } B := by
  have hm : ∀ i, (s.rendering.drop i).map f = (s.rendering.drop i).map s.func := by
    intro i
    apply List.map_congr_left
    intro m hm
    exact hf m (List.mem_of_mem_drop hm)
  simp only [BatchOK] at h ⊢
  have hm0 : s.rendering.map f = s.rendering.map s.func := List.map_congr_left hf
  clear hf
  split at h
  all_goals (try exact h)
  · rw [hm0]; exact h
  · rw [hm]; exact h
  · rw [hm]; exact h

/-- The lock field after an unlock of thread `t` whose count goes down by one. -/
theorem unlock_lock {s s1 : Sys U} {W : List (Nat × U)} {B : Option (List U)} {X : List Nat} (h : Inv s W B X) {t : Nat}
    (ho : s.owner = some t) (hc : (s.depth = 1 ∧ s1 = { s with owner := none, depth := 0 }) ∨
      (1 < s.depth ∧ s1 = { s with depth := s.depth - 1 })) {s2 : Sys U} (h2 : s2.owner = s1.owner)
    (h3 : s2.depth = s1.depth) (ht : held s2 t + 1 = held s t) (hother : ∀ t', t' ≠ t → held s2 t' = held s t') :
    (∀ t', held s2 t' = if s2.owner = some t' then s2.depth else 0) ∧ (∀ t', s2.owner = some t' → 0 < s2.depth) := by
  have hl := h.lock t
  rw [if_pos ho] at hl
  rcases hc with ⟨hd, rfl⟩ | ⟨hd, rfl⟩
  · simp only at h2 h3
    constructor
    · intro t'
      rw [h2, h3]
      simp only [reduceCtorEq, if_false]
      by_cases he : t' = t
      · subst he; omega
      · rw [hother t' he, h.lock t', if_neg]
        rw [ho]; intro e; exact he (Option.some.inj e).symm
    · intro t' h'; rw [h2] at h'; cases h'
  · simp only at h2 h3
    constructor
    · intro t'
      rw [h2, h3]
      by_cases he : t' = t
      · subst he; rw [if_pos ho]; omega
      · rw [hother t' he, h.lock t', if_neg, if_neg]
        · rw [ho]; intro e; exact he (Option.some.inj e).symm
        · rw [ho]; intro e; exact he (Option.some.inj e).symm
    · intro t' h'; rw [h3]; omega

theorem lock_lock {s s1 : Sys U} {W : List (Nat × U)} {B : Option (List U)} {X : List Nat} (h : Inv s W B X) {t : Nat}
    (hl : s.lock t = some s1) {s2 : Sys U} (h2 : s2.owner = s1.owner)
    (h3 : s2.depth = s1.depth) (ht : held s2 t = held s t + 1) (hother : ∀ t', t' ≠ t → held s2 t' = held s t') :
    (∀ t', held s2 t' = if s2.owner = some t' then s2.depth else 0) ∧ (∀ t', s2.owner = some t' → 0 < s2.depth) := by
  obtain ⟨q1, q2, _, _, q5⟩ := h.locked hl
  constructor
  · intro t'
    rw [h2, h3, q1]
    by_cases he : t' = t
    · subst he; rw [if_pos rfl, ht, h.lock t', q2]
    · rw [hother t' he, q5 t' he, if_neg]
      intro e; exact he (Option.some.inj e).symm
  · intro t' _; rw [h3, q2]; omega

theorem held_setStack (s : Sys U) (t : Nat) (fs : List (Frame U)) (t' : Nat) :
    held (s.setStack t fs) t' = if t' = t then fs.countP Frame.holds + (if t = 0 ∧ s.phase.holds then 1 else 0)
      else held s t' := by
  simp only [held, Sys.setStack]
  split
  · next h => subst h; rfl
  · rfl

theorem shape_set {s : Sys U} {t : Nat} {fs : List (Frame U)}
    (h : ∀ t f fs, s.stack t = f :: fs → ∀ g ∈ fs, ∃ m u, g = .pushCopy m u)
    (hn : ∀ f gs, fs = f :: gs → ∀ g ∈ gs, ∃ m u, g = .pushCopy m u) :
    ∀ t' f gs, (s.setStack t fs).stack t' = f :: gs → ∀ g ∈ gs, ∃ m u, g = .pushCopy m u := by
  intro t' f gs he
  simp only [Sys.setStack] at he
  split at he
  · exact hn f gs he
  · exact h t' f gs he

theorem link_set {s : Sys U} {t : Nat} {fs : List (Frame U)} {func : Nat → Option U}
    (h : ∀ t' m u, t' ≠ t → Frame.pushLink m u ∈ s.stack t' → func m = some u)
    (hn : ∀ m u, Frame.pushLink m u ∈ fs → func m = some u) :
    ∀ t' m u, Frame.pushLink m u ∈ (s.setStack t fs).stack t' → func m = some u := by
  intro t' m u he
  simp only [Sys.setStack] at he
  split at he
  · exact hn m u he
  · next hne => exact h t' m u hne he

theorem copies_no_link {fs : List (Frame U)} (h : ∀ g ∈ fs, ∃ m u, g = .pushCopy m u) (m : Nat) (u : U) :
    Frame.pushLink m u ∉ fs := by
  intro hm
  obtain ⟨_, _, he⟩ := h _ hm
  cases he

theorem copies_shape {fs : List (Frame U)} (h : ∀ g ∈ fs, ∃ m u, g = .pushCopy m u) :
    ∀ f gs, fs = f :: gs → ∀ g ∈ gs, ∃ m u, g = .pushCopy m u := by
  rintro f gs rfl g hg
  exact h g (by simp [hg])

end Verif.UpdateQueue
