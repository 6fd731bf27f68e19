import Verif.UpdateQueue.Step

/-! # From the invariant to sequences of effects -/

namespace Verif.UpdateQueue

attribute [local simp] List.countP_cons List.filterMap_cons

variable {U : Type}

theorem pushes_append (xs ys : List (Item U)) : pushes (xs ++ ys) = pushes xs ++ pushes ys := List.filterMap_append ..
theorem applications_append (xs ys : List (Item U)) : applications (xs ++ ys) = applications xs ++ applications ys :=
  List.filterMap_append ..
theorem pushesOf_append (t : Nat) (xs ys : List (Item U)) : pushesOf t (xs ++ ys) = pushesOf t xs ++ pushesOf t ys :=
  List.filterMap_append ..
theorem returnsOf_append (t : Nat) (xs ys : List (Item U)) : returnsOf t (xs ++ ys) = returnsOf t xs ++ returnsOf t ys :=
  List.filterMap_append ..

theorem Accepts.waiting {items : List (Item U)} : ∀ {a b : Abs U}, Accepts a items b →
    b.1 = items.foldl waiting1 a.1 := by
  induction items with
  | nil => rintro a b rfl; rfl
  | cons x xs ih =>
    rintro a b ⟨_, a', h2, h3⟩
    rw [ih h3, List.foldl_cons]
    congr 1
    obtain ⟨W, B⟩ := a
    cases x with
    | pushed => cases h2; rfl
    | cleared => cases h2; rfl
    | batch => cases B <;> cases h2; rfl
    | applied => rcases B with _ | _ | _ <;> cases h2; rfl
    | threw => cases h2; rfl
    | returned => cases h2; rfl
    | pushThrew => cases h2; rfl
    | finished e => cases e <;> rcases B with _ | _ | _ <;> cases h2 <;> rfl

theorem Accepts.oneBatch {items : List (Item U)} : ∀ {W : List (Nat × U)} {L : List U} {b : Abs U},
    Accepts (W, some L) items b → OneBatch items → ∃ L', b.2 = some L' ∧ L = applications items ++ L' := by
  induction items with
  | nil => rintro W L b rfl _; exact ⟨L, rfl, rfl⟩
  | cons x xs ih =>
    rintro W L b ⟨h1, a', h2, h3⟩ hb
    have hx := hb x (by simp)
    have hb' : OneBatch xs := fun y hy => hb y (by simp [hy])
    cases x with
    | pushed => cases h2; exact ih h3 hb'
    | cleared => cases h2; exact ih h3 hb'
    | batch => exact absurd rfl hx.1
    | applied u =>
      obtain ⟨r, hr⟩ := h1
      cases hr
      cases h2
      obtain ⟨L', q1, q2⟩ := ih h3 hb'
      exact ⟨L', q1, by rw [q2]; rfl⟩
    | threw => cases h2; exact ih h3 hb'
    | returned => cases h2; exact ih h3 hb'
    | pushThrew => cases h2; exact ih h3 hb'
    | finished e => exact absurd rfl (hx.2 e)

theorem Accepts.between {items : List (Item U)} : ∀ {W : List (Nat × U)} {b : Abs U},
    Accepts (W, none) items b → OneBatch items → b.2 = none ∧ applications items = [] := by
  induction items with
  | nil => rintro W b rfl _; exact ⟨rfl, rfl⟩
  | cons x xs ih =>
    rintro W b ⟨h1, a', h2, h3⟩ hb
    have hx := hb x (by simp)
    have hb' : OneBatch xs := fun y hy => hb y (by simp [hy])
    cases x with
    | batch => exact absurd rfl hx.1
    | applied u => obtain ⟨r, hr⟩ := h1; cases hr
    | finished e => exact absurd rfl (hx.2 e)
    | pushed => cases h2; exact ih h3 hb'
    | cleared => cases h2; exact ih h3 hb'
    | threw => cases h2; exact ih h3 hb'
    | returned => cases h2; exact ih h3 hb'
    | pushThrew => cases h2; exact ih h3 hb'

theorem Accepts.total {items : List (Item U)} : ∀ {W : List (Nat × U)} {B : Option (List U)} {b : Abs U},
    Accepts (W, B) items b → Item.cleared ∉ items → Item.finished true ∉ items →
    applications items ++ b.2.getD [] ++ b.1.map Prod.snd = B.getD [] ++ W.map Prod.snd ++ (pushes items).map Prod.snd := by
  induction items with
  | nil => rintro W B b rfl _ _; simp [applications, pushes]
  | cons x xs ih =>
    rintro W B b ⟨h1, a', h2, h3⟩ hc hf
    simp only [List.mem_cons, not_or] at hc hf
    cases x with
    | pushed t u =>
      cases h2; rw [show applications (Item.pushed t u :: xs) = applications xs from rfl, ih h3 hc.2 hf.2]
      simp [pushes]
    | cleared => exact absurd rfl hc.1
    | batch =>
      cases B with
      | some _ => cases h2
      | none =>
        cases h2; rw [show applications (Item.batch :: xs) = applications xs from rfl, ih h3 hc.2 hf.2]
        simp [pushes]
    | applied u =>
      obtain ⟨r, hr⟩ := h1
      cases hr
      cases h2
      rw [show applications (Item.applied u :: xs) = u :: applications xs from rfl, List.cons_append, List.cons_append,
        ih h3 hc.2 hf.2]
      simp [pushes]
    | threw => cases h2; exact ih h3 hc.2 hf.2
    | returned => cases h2; exact ih h3 hc.2 hf.2
    | pushThrew => cases h2; exact ih h3 hc.2 hf.2
    | finished e =>
      cases e with
      | true => exact absurd rfl hf.1
      | false =>
        rcases B with _ | _ | _ <;> cases h2
        exact ih (B := none) h3 hc.2 hf.2

theorem Accepts.batch_none {a b : Abs U} {items : List (Item U)} (h : Accepts a (Item.batch :: items) b) :
    a.2 = none ∧ Accepts ([], some (a.1.map Prod.snd)) items b := by
  obtain ⟨_, a', h2, h3⟩ := h
  obtain ⟨W, B⟩ := a
  cases B with
  | some _ => cases h2
  | none => cases h2; exact ⟨rfl, h3⟩

theorem Accepts.finished {a b : Abs U} {e : Bool} (h : Accepts a [Item.finished e] b) :
    ∃ L, a.2 = some L ∧ (e = false → L = []) ∧ b = (a.1, none) := by
  obtain ⟨_, a', h2, h3⟩ := h
  cases h3
  obtain ⟨W, B⟩ := a
  cases e <;> rcases B with _ | _ | _ <;> cases h2 <;> simp

/-- Whether an update of the current batch has thrown. -/
def failed1 (b : Bool) : Item U → Bool
  | .batch => false
  | .threw => true
  | _ => b

def failed (items : List (Item U)) : Bool := items.foldl failed1 false

/-- The flag says whether an update threw. -/
def FailOK (p : Phase) (b : Bool) : Prop :=
  match p with
  | .idle | .prepLock | .prepMove | .freeUnlock _ => True
  | .prepUnlock | .at_ _ | .in_ _ => b = false
  | .freeLock e | .freeAt _ e | .freeIn _ e => b = e

theorem unlock_phase {s s1 : Sys U} {t : Nat} (h : s.unlock t = some s1) : s1.phase = s.phase ∧ s1.stack = s.stack ∧
    s1.rendering = s.rendering ∧ s1.func = s.func ∧ s1.pending = s.pending := by
  simp only [Sys.unlock] at h
  split at h
  · split at h <;> cases h <;> exact ⟨rfl, rfl, rfl, rfl, rfl⟩
  · cases h

theorem lock_phase {s s1 : Sys U} {t : Nat} (h : s.lock t = some s1) : s1.phase = s.phase ∧ s1.stack = s.stack ∧
    s1.rendering = s.rendering ∧ s1.func = s.func ∧ s1.pending = s.pending := by
  rcases lock_some h with ⟨_, rfl⟩ | ⟨_, rfl⟩ <;> exact ⟨rfl, rfl, rfl, rfl, rfl⟩

/-- What a step of a frame can do to the trace and to the parts that only `ApplyUpdates` changes. -/
theorem stepFrame_frame {s s' : Sys U} {t : Nat} {throws : Bool} {f : Frame U} {fs : List (Frame U)} {items : List (Item U)}
    (h : stepFrame s t throws f fs = .ok s' items) : s'.phase = s.phase ∧ s'.rendering = s.rendering ∧
      (∀ x ∈ items, (∃ t u, x = .pushed t u) ∨ x = .cleared ∨ (∃ t u, x = .returned t u) ∨ ∃ t, x = .pushThrew t) := by
  cases f with
  | pushLock u =>
    simp only [stepFrame] at h
    split at h
    · cases h
    · next s1 hl => cases h; obtain ⟨a, b, c, _⟩ := lock_phase hl; exact ⟨a, c, by simp⟩
  | pushTake u =>
    simp only [stepFrame] at h
    split at h
    · split at h
      · split at h
        · cases h
        · next s1 hl => cases h; obtain ⟨a, b, c, _⟩ := unlock_phase hl; exact ⟨a, c, by simp⟩
      · cases h; exact ⟨rfl, rfl, by simp⟩
    · cases h; exact ⟨rfl, rfl, by simp⟩
  | pushCopy m u =>
    simp only [stepFrame] at h
    split at h
    · split at h
      · cases h
      · next s1 hl => cases h; obtain ⟨a, b, c, _⟩ := unlock_phase hl; exact ⟨a, c, by simp⟩
    · cases h; exact ⟨rfl, rfl, by simp⟩
  | pushLink m u => cases h; exact ⟨rfl, rfl, by simp⟩
  | clearLock =>
    simp only [stepFrame] at h
    split at h
    · cases h
    · next s1 hl => cases h; obtain ⟨a, b, c, _⟩ := lock_phase hl; exact ⟨a, c, by simp⟩
  | clearSplice => cases h; exact ⟨rfl, rfl, by simp⟩
  | unlock u =>
    simp only [stepFrame] at h
    split at h
    · cases h
    · next s1 hl => cases h; obtain ⟨a, b, c, _⟩ := unlock_phase hl; refine ⟨a, c, ?_⟩; cases u <;> simp

theorem failed_frame {items : List (Item U)} (h : ∀ x ∈ items, (∃ t u, x = Item.pushed t u) ∨ x = .cleared ∨
    (∃ t u, x = .returned t u) ∨ ∃ t, x = .pushThrew t) (b : Bool) : items.foldl failed1 b = b := by
  induction items with
  | nil => rfl
  | cons x xs ih =>
    rw [List.foldl_cons]
    have : failed1 b x = b := by
      rcases h x (by simp) with ⟨t, u, rfl⟩ | rfl | ⟨t, u, rfl⟩ | ⟨t, rfl⟩ <;> rfl
    rw [this]; exact ih (fun y hy => h y (by simp [hy]))

theorem stepPhase_fail {s s' : Sys U} {throws b : Bool} {items : List (Item U)} (h : stepPhase s throws = .ok s' items)
    (hb : FailOK s.phase b) : FailOK s'.phase (items.foldl failed1 b) ∧
      (∀ u, Item.applied u ∈ items → b = false) ∧ (∀ e, Item.finished e ∈ items → b = e) := by
  cases hp : s.phase with
  | idle => simp [stepPhase, hp] at h
  | prepLock =>
    simp only [stepPhase, hp] at h
    split at h <;> cases h
    simp [FailOK]
  | prepMove => simp only [stepPhase, hp] at h; cases h; simp [FailOK, failed1]
  | prepUnlock =>
    simp only [stepPhase, hp] at h
    split at h <;> cases h
    rw [hp] at hb; exact ⟨hb, by simp, by simp⟩
  | at_ i =>
    rw [hp] at hb
    simp only [stepPhase, hp] at h
    split at h
    · split at h <;> cases h
      exact ⟨hb, fun _ _ => hb, by simp⟩
    · cases h; exact ⟨hb, by simp, by simp⟩
  | in_ i =>
    rw [hp] at hb
    simp only [stepPhase, hp] at h
    split at h <;> cases h
    · simp [FailOK, failed1]
    · exact ⟨hb, by simp, by simp⟩
  | freeLock e =>
    rw [hp] at hb
    simp only [stepPhase, hp] at h
    split at h <;> cases h
    exact ⟨hb, by simp, by simp⟩
  | freeAt i e =>
    rw [hp] at hb
    simp only [stepPhase, hp] at h
    split at h <;> cases h
    · exact ⟨hb, by simp, by simp⟩
    · refine ⟨trivial, by simp, ?_⟩
      intro e' he
      simp at he; subst he; exact hb
  | freeIn i e =>
    rw [hp] at hb
    simp only [stepPhase, hp] at h
    split at h <;> cases h
    exact ⟨hb, by simp, by simp⟩
  | freeUnlock e =>
    simp only [stepPhase, hp] at h
    split at h <;> cases h
    simp [FailOK]

theorem stepPhase_single {s s' : Sys U} {throws : Bool} {items : List (Item U)} (h : stepPhase s throws = .ok s' items) :
    items.length ≤ 1 := by
  simp only [stepPhase] at h
  split at h <;> (try split at h) <;> (try split at h) <;> cases h <;> simp

/-- Every application happens before the first failure of its batch, and a batch ends in failure iff an update threw. -/
structure FailTrace (items : List (Item U)) : Prop where
  applied : ∀ xs u ys, items = xs ++ Item.applied u :: ys → failed xs = false
  finished : ∀ xs e ys, items = xs ++ Item.finished e :: ys → failed xs = e

theorem append_cons_cases {α : Type} {xs ys l r : List α} {x : α} (h : l ++ r = xs ++ x :: ys) (hr : r.length ≤ 1) :
    (∃ ys', l = xs ++ x :: ys') ∨ (xs = l ∧ r = [x]) := by
  rcases List.append_eq_append_iff.1 h with ⟨a, h1, h2⟩ | ⟨c, h1, h2⟩
  · match r, a with
    | [], [] => simp at h2
    | [], _ :: _ => simp at h2
    | [y], [] => simp at h2 h1; exact Or.inr ⟨h1, by rw [h2.1]⟩
    | [y], z :: a => simp at h2
    | _ :: _ :: _, _ => simp at hr
  · match c with
    | [] => simp at h1 h2; rw [← h2] at hr ⊢; simp at hr; exact Or.inr ⟨h1.symm, by rw [hr]⟩
    | z :: c => simp at h2; exact Or.inl ⟨c, by rw [h1, h2.1]⟩

theorem mem_frame_not {items : List (Item U)} (h : ∀ x ∈ items, (∃ t u, x = Item.pushed t u) ∨ x = .cleared ∨
    (∃ t u, x = .returned t u) ∨ ∃ t, x = .pushThrew t) : (∀ u, Item.applied u ∉ items) ∧ (∀ e, Item.finished e ∉ items) := by
  constructor
  · intro u hu
    rcases h _ hu with ⟨_, _, q⟩ | q | ⟨_, _, q⟩ | ⟨_, q⟩ <;> cases q
  · intro u hu
    rcases h _ hu with ⟨_, _, q⟩ | q | ⟨_, _, q⟩ | ⟨_, q⟩ <;> cases q

theorem stepFrame_single {s s' : Sys U} {t : Nat} {throws : Bool} {f : Frame U} {fs : List (Frame U)} {items : List (Item U)}
    (h : stepFrame s t throws f fs = .ok s' items) : items.length ≤ 1 := by
  cases f <;> simp only [stepFrame] at h <;> (repeat' split at h) <;> cases h <;> simp

/-- What any step does to the trace: nothing, or one effect. -/
theorem step_single {s s' : Sys U} {a : Act U} {items : List (Item U)} (h : step s a = .ok s' items) :
    items.length ≤ 1 := by
  cases a with
  | callPush t u => simp only [step] at h; split at h <;> cases h; simp
  | callClear t => simp only [step] at h; split at h <;> cases h; simp
  | callApply => simp only [step] at h; split at h <;> cases h; simp
  | run t throws =>
    simp only [step] at h
    split at h
    · exact stepFrame_single h
    · split at h
      · exact stepPhase_single h
      · cases h

theorem Exec.fail {s : Sys U} {items : List (Item U)} (h : Exec s items) : FailOK s.phase (failed items) ∧ FailTrace items := by
  induction h with
  | init => exact ⟨trivial, ⟨by simp, by simp⟩⟩
  | @step s s' items new a _ hs ih =>
    obtain ⟨h1, h2⟩ := ih
    have hsing := step_single hs
    have key : FailOK s'.phase (new.foldl failed1 (failed items)) ∧ (∀ u, Item.applied u ∈ new → failed items = false) ∧
        (∀ e, Item.finished e ∈ new → failed items = e) := by
      cases a with
      | callPush t u => simp only [UpdateQueue.step] at hs; split at hs <;> cases hs; exact ⟨h1, by simp, by simp⟩
      | callClear t => simp only [UpdateQueue.step] at hs; split at hs <;> cases hs; exact ⟨h1, by simp, by simp⟩
      | callApply => simp only [UpdateQueue.step] at hs; split at hs <;> cases hs; exact ⟨trivial, by simp, by simp⟩
      | run t throws =>
        simp only [UpdateQueue.step] at hs
        split at hs
        · obtain ⟨q1, _, q3⟩ := stepFrame_frame hs
          obtain ⟨r1, r2⟩ := mem_frame_not q3
          rw [failed_frame q3, q1]
          exact ⟨h1, fun u hu => absurd hu (r1 u), fun e he => absurd he (r2 e)⟩
        · split at hs
          · exact stepPhase_fail hs h1
          · cases hs
    obtain ⟨k1, k2, k3⟩ := key
    refine ⟨?_, ⟨?_, ?_⟩⟩
    · rw [failed, List.foldl_append]; exact k1
    · intro xs u ys he
      rcases append_cons_cases he hsing with ⟨ys', q⟩ | ⟨rfl, q⟩
      · exact h2.applied xs u ys' q
      · exact k2 u (by rw [q]; simp)
    · intro xs u ys he
      rcases append_cons_cases he hsing with ⟨ys', q⟩ | ⟨rfl, q⟩
      · exact h2.finished xs u ys' q
      · exact k3 u (by rw [q]; simp)

/-- A call of `Push` that has linked its message returns next. -/
def returning (s : Sys U) (t : Nat) : List U :=
  match s.stack t with
  | .unlock (some u) :: _ => [u]
  | _ => []

theorem Exec.returns {s : Sys U} {items : List (Item U)} (h : Exec s items) (t : Nat) :
    pushesOf t items = returnsOf t items ++ returning s t := by
  induction h with
  | init => rfl
  | @step s s' items new a he hs ih =>
    obtain ⟨W, B, X, _, _, hinv⟩ := he.inv
    rw [pushesOf_append, returnsOf_append, ih, List.append_assoc, List.append_assoc]
    congr 1
    cases a with
    | callPush t' u =>
      simp only [UpdateQueue.step] at hs
      split at hs <;> cases hs
      next hu =>
      show _ ++ [] = [] ++ _
      by_cases ht : t = t'
      · subst ht
        simp only [Sys.user] at hu
        simp only [returning, Sys.setStack, if_true]
        cases hst : s.stack t with
        | nil => simp
        | cons f fs => rw [hst] at hu; cases f <;> simp at hu ⊢
      · simp [returning, Sys.setStack, ht]
    | callClear t' =>
      simp only [UpdateQueue.step] at hs
      split at hs <;> cases hs
      next hu =>
      show _ ++ [] = [] ++ _
      by_cases ht : t = t'
      · subst ht
        simp only [Sys.user] at hu
        simp only [returning, Sys.setStack, if_true]
        cases hst : s.stack t with
        | nil => simp
        | cons f fs => rw [hst] at hu; cases f <;> simp at hu ⊢
      · simp [returning, Sys.setStack, ht]
    | callApply =>
      simp only [UpdateQueue.step] at hs
      split at hs <;> cases hs
      simp [returning, pushesOf, returnsOf]
    | run t' throws =>
      simp only [UpdateQueue.step] at hs
      split at hs
      · next f fs hst =>
        have hcp := hinv.shape t' f fs hst
        have hret : ∀ s1 : Sys U, returning (s1.setStack t' fs) t' = [] := by
          intro s1
          simp only [returning, Sys.setStack, if_true]
          cases fs with
          | nil => rfl
          | cons g gs => obtain ⟨m, u, rfl⟩ := hcp g (by simp); rfl
        have hoth : ∀ (s1 : Sys U) (gs : List (Frame U)), s1.stack = s.stack → t ≠ t' →
            returning (s1.setStack t' gs) t = returning s t := by
          intro s1 gs h1 hne
          simp [returning, Sys.setStack, hne, h1]
        cases f with
        | pushLock u =>
          simp only [stepFrame] at hs
          split at hs
          · cases hs
          · next s1 hl =>
            cases hs
            obtain ⟨_, q, _⟩ := lock_phase hl
            by_cases ht : t = t'
            · subst ht; simp [returning, hst, Sys.setStack, pushesOf, returnsOf]
            · rw [hoth _ _ q ht]; simp [pushesOf, returnsOf]
        | pushTake u =>
          simp only [stepFrame] at hs
          split at hs
          · split at hs
            · split at hs
              · cases hs
              · next s1 hl =>
                cases hs
                obtain ⟨_, q, _⟩ := unlock_phase hl
                by_cases ht : t = t'
                · subst ht; rw [hret]; simp [returning, hst, pushesOf, returnsOf]
                · rw [hoth _ _ q ht]; simp [pushesOf, returnsOf]
            · cases hs
              by_cases ht : t = t'
              · subst ht; simp [returning, hst, Sys.setStack, pushesOf, returnsOf]
              · rw [hoth _ _ (by rfl) ht]; simp [pushesOf, returnsOf]
          · cases hs
            by_cases ht : t = t'
            · subst ht; simp [returning, hst, Sys.setStack, pushesOf, returnsOf]
            · rw [hoth _ _ (by rfl) ht]; simp [pushesOf, returnsOf]
        | pushCopy m u =>
          simp only [stepFrame] at hs
          split at hs
          · split at hs
            · cases hs
            · next s1 hl =>
              cases hs
              obtain ⟨_, q, _⟩ := unlock_phase hl
              by_cases ht : t = t'
              · subst ht; rw [hret]; simp [returning, hst, pushesOf, returnsOf]
              · rw [hoth _ _ q ht]; simp [pushesOf, returnsOf]
          · cases hs
            by_cases ht : t = t'
            · subst ht; simp [returning, hst, Sys.setStack, pushesOf, returnsOf]
            · rw [hoth _ _ (by rfl) ht]; simp [pushesOf, returnsOf]
        | pushLink m u =>
          cases hs
          by_cases ht : t = t'
          · subst ht; simp [returning, hst, Sys.setStack, pushesOf, returnsOf]
          · rw [hoth _ _ (by rfl) ht]; simp [pushesOf, returnsOf, Ne.symm ht]
        | clearLock =>
          simp only [stepFrame] at hs
          split at hs
          · cases hs
          · next s1 hl =>
            cases hs
            obtain ⟨_, q, _⟩ := lock_phase hl
            by_cases ht : t = t'
            · subst ht; simp [returning, hst, Sys.setStack, pushesOf, returnsOf]
            · rw [hoth _ _ q ht]; simp [pushesOf, returnsOf]
        | clearSplice =>
          cases hs
          by_cases ht : t = t'
          · subst ht; simp [returning, hst, Sys.setStack, pushesOf, returnsOf]
          · rw [hoth _ _ (by rfl) ht]; simp [pushesOf, returnsOf]
        | unlock u =>
          simp only [stepFrame] at hs
          split at hs
          · cases hs
          · next s1 hl =>
            cases hs
            obtain ⟨_, q, _⟩ := unlock_phase hl
            by_cases ht : t = t'
            · subst ht; rw [hret]; cases u <;> simp [returning, hst, pushesOf, returnsOf]
            · rw [hoth _ _ q ht]; cases u <;> simp [pushesOf, returnsOf, Ne.symm ht]
      · split at hs
        · next hst ht0 =>
          subst ht0
          have hsame : s'.stack = s.stack ∧ (∀ x ∈ new, (∀ a u, x ≠ Item.pushed a u) ∧ ∀ a u, x ≠ Item.returned a u) := by
            simp only [stepPhase] at hs
            split at hs <;> (try split at hs) <;> (try split at hs) <;> cases hs <;>
              first
              | exact ⟨rfl, by simp⟩
              | (next hl => first | exact ⟨(lock_phase hl).2.1, by simp⟩ | exact ⟨(unlock_phase hl).2.1, by simp⟩)
          have e1 : pushesOf t new = [] := by
            simp only [pushesOf, List.filterMap_eq_nil_iff]
            intro x hx
            have := hsame.2 x hx
            cases x with
            | pushed a u => exact absurd rfl (this.1 a u)
            | _ => rfl
          have e2 : returnsOf t new = [] := by
            simp only [returnsOf, List.filterMap_eq_nil_iff]
            intro x hx
            have := hsame.2 x hx
            cases x with
            | returned a u => exact absurd rfl (this.2 a u)
            | _ => rfl
          rw [e1, e2]; simp [returning, hsame.1]
        · cases hs

end Verif.UpdateQueue
