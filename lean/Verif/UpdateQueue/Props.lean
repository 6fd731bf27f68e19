import Verif.UpdateQueue.Safety

/-!
# Properties of the update queue (C22-C24, C71, C72)

All the theorems are about `Exec s items`: some interleaving of any number of threads, each doing any calls it likes (also
from inside updates), has led to the state `s`, and `items` are the visible effects in the order in which they happened.
-/

namespace Verif.UpdateQueue

variable {U : Type} {s : Sys U}

/-! ## Running a schedule (for the examples) -/

def runActs : Sys U → List (Act U) → Option (Sys U × List (Item U))
  | s, [] => some (s, [])
  | s, a :: as =>
    match step s a with
    | .ok s' items => (runActs s' as).map (fun p => (p.1, items ++ p.2))
    | _ => none

theorem exec_of_runActs {as : List (Act U)} : ∀ {s s' : Sys U} {pre items : List (Item U)}, Exec s pre →
    runActs s as = some (s', items) → Exec s' (pre ++ items) := by
  induction as with
  | nil => intro s s' pre items h he; cases he; simpa using h
  | cons a as ih =>
    intro s s' pre items h he
    simp only [runActs] at he
    split at he
    · next s1 i1 hs =>
      cases hr : runActs s1 as with
      | none => simp [hr] at he
      | some p =>
        rw [hr] at he
        cases he
        rw [← List.append_assoc]
        exact ih (h.step a hs) hr
    · cases he

theorem exec_of_schedule {as : List (Act U)} {items : List (Item U)}
    (h : (runActs Sys.init as).map Prod.snd = some items) : ∃ s : Sys U, Exec s items := by
  cases hr : runActs Sys.init as with
  | none => simp [hr] at h
  | some p =>
    rw [hr] at h
    cases h
    exact ⟨p.1, by simpa using exec_of_runActs Exec.init (hr.trans rfl)⟩

/-- `n` steps of thread `t`, no exception. -/
def go (t n : Nat) : List (Act U) := List.replicate n (.run t false)

/-! ## C22 -/

theorem failed_mem {items : List (Item U)} : ∀ {b : Bool}, items.foldl failed1 b = true → b = true ∨ Item.threw ∈ items := by
  induction items with
  | nil => intro b h; exact Or.inl h
  | cons x xs ih =>
    intro b h
    rw [List.foldl_cons] at h
    rcases ih h with h1 | h1
    · cases x with
      | batch => cases h1
      | threw => exact Or.inr (by simp)
      | _ => exact Or.inl h1
    · exact Or.inr (by simp [h1])

theorem no_failed_batch {items : List (Item U)} (h : Exec s items) (hd : Item.threw ∉ items) :
    Item.finished true ∉ items := by
  intro hm
  obtain ⟨xs, ys, rfl⟩ := List.append_of_mem hm
  have := h.fail.2.finished xs true ys rfl
  rcases failed_mem this with h1 | h1
  · cases h1
  · exact hd (by simp [h1])

/-- **C22** (order, nothing twice, nothing invented).  As long as pending updates are not cleared and no update throws,
the sequence of applied updates is at any moment an initial segment of the sequence of pushed updates. -/
theorem c22_applied_in_push_order {items : List (Item U)} (h : Exec s items) (hd : NothingDropped items) :
    applications items <+: (pushes items).map Prod.snd := by
  obtain ⟨W, B, X, h1, _, _⟩ := h.inv
  have := h1.total hd.1 (no_failed_batch h hd.2)
  simp only [Option.getD_none, List.map_nil, List.nil_append] at this
  exact ⟨_, by rw [← List.append_assoc]; exact this⟩

/-- **C22** (nothing is lost).  When a batch is through, everything pushed before it began has been applied, in order, and
nothing else. -/
theorem c22_all_applied {t0 t2 : List (Item U)} {e : Bool} (h : Exec s (t0 ++ Item.batch :: t2 ++ [Item.finished e]))
    (hb : OneBatch t2) (hd : NothingDropped (t0 ++ Item.batch :: t2 ++ [Item.finished e])) :
    applications (t0 ++ Item.batch :: t2 ++ [Item.finished e]) = (pushes t0).map Prod.snd := by
  obtain ⟨W, B, X, h1, _, _⟩ := h.inv
  have hne := no_failed_batch h hd.2
  obtain ⟨b2, k1, k2⟩ := h1.split
  obtain ⟨b1, k3, k4⟩ := k1.split
  obtain ⟨q1, q2⟩ := k4.batch_none
  obtain ⟨L', r1, r2⟩ := q2.oneBatch hb
  obtain ⟨L, f1, f2, _⟩ := k2.finished
  rw [r1] at f1
  cases f1
  have he : e = false := by
    cases e with
    | false => rfl
    | true => exact absurd (by simp) hne
  have ht := k3.total (by intro hc; exact hd.1 (by simp [hc])) (by intro hc; exact hne (by simp [hc]))
  rw [q1] at ht
  simp only [Option.getD_none, List.map_nil, List.append_nil, List.nil_append] at ht
  rw [f2 he, List.append_nil] at r2
  rw [applications_append, applications_append, ← ht, r2]
  simp [applications]

/-- **C22** (each producer's order).  In each thread the calls of `Push` that have returned, in the order in which they
returned, are the updates this thread has pushed, in the order in which they entered the queue, except possibly one whose
`Push` has not returned yet. -/
theorem c22_program_order {items : List (Item U)} (h : Exec s items) (t : Nat) :
    ∃ rest, pushesOf t items = returnsOf t items ++ rest ∧ rest.length ≤ 1 := by
  refine ⟨_, h.returns t, ?_⟩
  simp only [returning]
  split <;> simp

/-- The order of one producer is the order of all, restricted to its updates. -/
theorem producer_order (t : Nat) (items : List (Item U)) :
    pushesOf t items = ((pushes items).filter (fun p => p.1 = t)).map Prod.snd := by
  induction items with
  | nil => rfl
  | cons x xs ih =>
    cases x with
    | pushed t' u =>
      by_cases ht : t' = t
      · simp [pushesOf, pushes, ht] at ih ⊢; exact ih
      · simp [pushesOf, pushes, ht] at ih ⊢; exact ih
    | _ => exact ih

/-- **C22** (no undefined behaviour).  No action of any thread is undefined: the mutex is only unlocked by its owner and no
empty function is called. -/
theorem c22_never_undefined {items : List (Item U)} (h : Exec s items) (a : Act U) : step s a ≠ .ub := by
  obtain ⟨W, B, X, _, _, hi⟩ := h.inv
  exact (hi.step a).1

/-- **C22** (no data race).  No memory location of the queue is accessed by two threads at the same time: neither a list nor
a function object (which is accessed as long as it runs, is being assigned or is being released). -/
theorem c22_no_data_race {items : List (Item U)} (h : Exec s items) {t t' : Nat} {l : Loc} {w w' : Bool}
    (h1 : (l, w) ∈ uses s t) (h2 : (l, w') ∈ uses s t') : t = t' := by
  obtain ⟨W, B, X, _, _, hi⟩ := h.inv
  exact hi.owns_unique (hi.owns h1) (hi.owns h2)

/-- **C22** (no deadlock).  While some thread is inside a function of the queue, some thread can make a step (user code that
is running may end). -/
theorem c22_no_deadlock {items : List (Item U)} (h : Exec s items) {t : Nat}
    (hin : s.stack t ≠ [] ∨ (t = 0 ∧ s.phase ≠ .idle)) : ∃ t' s' new, step s (.run t' false) = .ok s' new := by
  obtain ⟨W, B, X, _, _, hi⟩ := h.inv
  exact progress hi hin

/-- Two producers and the consumer: thread 2 is interrupted inside `Push` by nobody (it has the mutex), thread 1 pushes 30
while the batch [10, 20] is being applied, and the update 20 itself pushes 99. -/
def demo : List (Act Nat) :=
  [.callPush 1 10] ++ go 1 3 ++ [.callPush 2 20] ++ go 1 2 ++ go 2 5 ++ [.callApply] ++ go 0 4 ++ [.callPush 1 30] ++
  go 1 5 ++ go 0 2 ++ [.callPush 0 99] ++ go 0 5 ++ go 0 2 ++ go 0 7 ++ [.callApply] ++ go 0 8 ++ go 0 7

def demoItems : List (Item Nat) :=
  [.pushed 1 10, .returned 1 10, .pushed 2 20, .returned 2 20] ++
  .batch :: [.applied 10, .pushed 1 30, .returned 1 30, .applied 20, .pushed 0 99, .returned 0 99] ++ [.finished false] ++
  .batch :: [.applied 30, .applied 99] ++ [.finished false]

example : (runActs Sys.init demo).map Prod.snd = some demoItems := by rfl
example : ∃ s : Sys Nat, Exec s demoItems := exec_of_schedule (as := demo) (by rfl)
example : NothingDropped demoItems := by constructor <;> decide
example : applications demoItems = [10, 20, 30, 99] ∧ (pushes demoItems).map Prod.snd = [10, 20, 30, 99] := by decide
example : OneBatch ([.applied 30, .applied 99] : List (Item Nat)) := by simp [OneBatch]
/-- A moment at which thread 1 copies into a block while the consumer runs an update: two function objects are in use. -/
example : ∃ (s : Sys Nat) (items : List (Item Nat)), Exec s items ∧ (.func 1, true) ∈ uses s 1 ∧ (.func 0, false) ∈ uses s 0 := by
  have h : runActs (Sys.init : Sys Nat) ([.callPush 1 10] ++ go 1 5 ++ [.callApply] ++ go 0 4 ++ [.callPush 1 30] ++ go 1 2) =
      some _ := rfl
  exact ⟨_, _, exec_of_runActs Exec.init h, by decide, by decide⟩

/-! ## C23 -/

/-- **C23** (a batch is what was waiting when it began). -/
theorem c23_batch_is_what_waited {t0 t2 : List (Item U)} (h : Exec s (t0 ++ Item.batch :: t2 ++ [Item.finished false]))
    (hb : OneBatch t2) : applications t2 = (waiting t0).map Prod.snd := by
  obtain ⟨W, B, X, h1, _, _⟩ := h.inv
  obtain ⟨b2, k1, k2⟩ := h1.split
  obtain ⟨b1, k3, k4⟩ := k1.split
  obtain ⟨q1, q2⟩ := k4.batch_none
  obtain ⟨L', r1, r2⟩ := q2.oneBatch hb
  obtain ⟨L, f1, f2, _⟩ := k2.finished
  rw [r1] at f1
  cases f1
  rw [f2 rfl, List.append_nil] at r2
  rw [← r2, k3.waiting]
  rfl

theorem waiting_no_clear {items : List (Item U)} : ∀ {w : List (Nat × U)}, OneBatch items → Item.cleared ∉ items →
    items.foldl waiting1 w = w ++ pushes items := by
  induction items with
  | nil => intro w _ _; simp [pushes]
  | cons x xs ih =>
    intro w hb hc
    have hx := hb x (by simp)
    have hb' : OneBatch xs := fun y hy => hb y (by simp [hy])
    simp only [List.mem_cons, not_or] at hc
    rw [List.foldl_cons, ih hb' hc.2]
    cases x with
    | pushed t u => simp [waiting1, pushes]
    | cleared => exact absurd rfl hc.1
    | batch => exact absurd rfl hx.1
    | _ => rfl

/-- **C23** (what is pushed while a batch runs, by any thread or by an update of the batch, is applied by the next one, together
with what is pushed between the two).  It does not matter whether the first batch ended with an exception. -/
theorem c23_pushed_while_applying {t0 t1 t2 t3 : List (Item U)} {e : Bool}
    (h : Exec s (t0 ++ Item.batch :: t1 ++ Item.finished e :: t2 ++ Item.batch :: t3 ++ [Item.finished false]))
    (h1 : OneBatch t1) (h2 : OneBatch t2) (h3 : OneBatch t3) (hc1 : Item.cleared ∉ t1) (hc2 : Item.cleared ∉ t2) :
    applications t3 = (pushes (t1 ++ t2)).map Prod.snd := by
  rw [c23_batch_is_what_waited h h3]
  congr 1
  simp only [waiting, List.foldl_append, List.foldl_cons]
  rw [waiting_no_clear h2 hc2]
  have : waiting1 (t1.foldl waiting1 (waiting1 (t0.foldl waiting1 []) Item.batch)) (Item.finished e) =
      t1.foldl waiting1 [] := rfl
  rw [this, waiting_no_clear h1 hc1, pushes_append]
  rfl

/-- **C23** (a batch ends).  Once `ApplyUpdates` has taken `n` updates, it makes at most `4n + 5` steps of its own before it
returns, whatever the other threads and the updates do; pushing forever from inside updates does not make it run forever. -/
theorem c23_batch_terminates {s0 s' : Sys U} {t0 : List (Item U)} {throws : Bool} {k : Nat} (h : Exec s0 t0)
    (hs : step s0 (.run 0 throws) = .ok s [Item.batch]) (hseg : Seg s k s') : k ≤ 4 * (waiting t0).length + 5 := by
  obtain ⟨W, B, X, hacc, _, hi⟩ := h.inv
  have hw : W = waiting t0 := hacc.waiting
  have hlen : s0.pending.length = W.length := by
    have := congrArg List.length hi.pend
    simpa using this
  have key : s.phase = .prepUnlock ∧ s.rendering = s0.pending := by
    simp only [step] at hs
    split at hs
    · next f fs hst =>
      obtain ⟨_, _, q⟩ := stepFrame_frame hs
      rcases q _ (List.mem_singleton.2 rfl) with ⟨_, _, q⟩ | q | ⟨_, _, q⟩ | ⟨_, q⟩ <;> cases q
    · simp only [if_true] at hs
      simp only [stepPhase] at hs
      split at hs <;> (try split at hs) <;> (try split at hs) <;> cases hs
      exact ⟨rfl, rfl⟩
  have := (hseg.bound (by rw [key.1]; rfl)).1
  have hl : left s = 4 * s.rendering.length + 5 := by simp [left, key.1]
  rw [hl, key.2, hlen, hw] at this
  omega

example : ∃ s : Sys Nat, Exec s ([.pushed 1 10, .returned 1 10, .pushed 2 20, .returned 2 20] ++
    Item.batch :: [.applied 10, .pushed 1 30, .returned 1 30, .applied 20, .pushed 0 99, .returned 0 99] ++
    Item.finished false :: [] ++ Item.batch :: [.applied 30, .applied 99] ++ [.finished false]) :=
  exec_of_schedule (as := demo) (by rfl)
/-- `k` steps of `ApplyUpdates` alone. -/
def applySteps : Nat → Sys U → Option (Sys U)
  | 0, s => some s
  | k + 1, s =>
    match applySteps k s with
    | none => none
    | some s1 =>
      match s1.stack 0 with
      | _ :: _ => none
      | [] => match step s1 (.run 0 false) with
        | .ok s2 _ => some s2
        | _ => none

theorem seg_of_applySteps : ∀ {k : Nat} {s s' : Sys U}, applySteps k s = some s' → Seg s k s' := by
  intro k
  induction k with
  | zero => intro s s' h; cases h; exact .refl _
  | succ k ih =>
    intro s s' h
    simp only [applySteps] at h
    split at h
    · cases h
    · next s1 h1 =>
      split at h
      · cases h
      · next hst =>
        split at h
        · next s2 items hs => cases h; exact .apply false (ih h1) hs hst
        · cases h

/-- The bound is reached when no update throws (`4n + 5` steps for one update: 9). -/
example : ∃ (s0 s s' : Sys Nat) (t0 : List (Item Nat)), Exec s0 t0 ∧ t0 = [Item.pushed 1 10, .returned 1 10] ∧
    step s0 (.run 0 false) = .ok s [Item.batch] ∧ Seg s 9 s' := by
  have h : runActs (Sys.init : Sys Nat) ([.callPush 1 10] ++ go 1 5 ++ [.callApply] ++ go 0 1) = some _ := rfl
  exact ⟨_, _, _, _, exec_of_runActs Exec.init h, rfl, rfl, seg_of_applySteps (k := 9) rfl⟩

/-! ## C24 -/

theorem failed_oneBatch {t0 t2 : List (Item U)} (hb : OneBatch t2) :
    failed (t0 ++ Item.batch :: t2) = true ↔ Item.threw ∈ t2 := by
  have h1 : failed (t0 ++ Item.batch :: t2) = t2.foldl failed1 false := by
    simp [failed, List.foldl_append, failed1]
  rw [h1]
  constructor
  · intro h
    rcases failed_mem h with h | h
    · cases h
    · exact h
  · intro h
    have gen : ∀ (l : List (Item U)) (b : Bool), OneBatch l → (b = true ∨ Item.threw ∈ l) → l.foldl failed1 b = true := by
      intro l
      induction l with
      | nil => intro b _ h; simpa using h
      | cons x xs ih =>
        intro b hb h
        have hx := hb x (by simp)
        rw [List.foldl_cons]
        apply ih _ (fun y hy => hb y (by simp [hy]))
        cases x with
        | batch => exact absurd rfl hx.1
        | threw => exact Or.inl rfl
        | _ => simpa [failed1] using h
    exact gen t2 false hb (Or.inr h)

/-- **C24** (a failing update).  `ApplyUpdates` ends with an exception exactly if an update of the batch threw; what has been
applied of the batch is then an initial segment of what was waiting when it began; nothing is applied after the update that
threw; and what waits afterwards is exactly what was pushed since. -/
theorem c24_failed_batch {t0 t2 : List (Item U)} {e : Bool} (h : Exec s (t0 ++ Item.batch :: t2 ++ [Item.finished e]))
    (hb : OneBatch t2) :
    (e = true ↔ Item.threw ∈ t2) ∧ applications t2 <+: (waiting t0).map Prod.snd ∧
    (∀ a b, t2 = a ++ Item.threw :: b → applications b = []) ∧
    (Item.cleared ∉ t2 → waiting (t0 ++ Item.batch :: t2 ++ [Item.finished e]) = pushes t2) := by
  have hf := h.fail.2
  refine ⟨?_, ?_, ?_, ?_⟩
  · rw [← failed_oneBatch (t0 := t0) hb, hf.finished _ e [] rfl]
  · obtain ⟨W, B, X, h1, _, _⟩ := h.inv
    obtain ⟨b2, k1, k2⟩ := h1.split
    obtain ⟨b1, k3, k4⟩ := k1.split
    obtain ⟨q1, q2⟩ := k4.batch_none
    obtain ⟨L', r1, r2⟩ := q2.oneBatch hb
    refine ⟨L', ?_⟩
    rw [← r2, k3.waiting]
    rfl
  · rintro a b rfl
    by_cases hn : applications b = []
    · exact hn
    · exfalso
      obtain ⟨u, hu⟩ := List.exists_mem_of_ne_nil _ hn
      obtain ⟨x, hx, hxu⟩ := List.mem_filterMap.1 hu
      have hxe : x = Item.applied u := by cases x <;> simp at hxu; rw [hxu]
      subst hxe
      obtain ⟨c, d, rfl⟩ := List.append_of_mem hx
      have := hf.applied (t0 ++ Item.batch :: (a ++ Item.threw :: c)) u (d ++ [Item.finished e]) (by simp)
      have h2 := (failed_oneBatch (t0 := t0) (t2 := a ++ Item.threw :: c) (by
        intro y hy
        apply hb y
        simp only [List.mem_append, List.mem_cons] at hy ⊢
        rcases hy with hy | hy | hy <;> simp [hy])).2 (by simp)
      rw [h2] at this; cases this
  · intro hc
    simp only [waiting, List.foldl_append, List.foldl_cons, List.foldl_nil]
    show t2.foldl waiting1 [] = _
    rw [waiting_no_clear hb hc]; rfl

/-- **C24** (the queue stays usable).  After a batch that failed, the next batch that does not fail applies exactly what has
been pushed since the failed one began, in order (a corollary of the general statement above, with the exception spelled
out), and in between nothing is applied at all. -/
theorem c24_queue_usable {t0 t1 t2 t3 : List (Item U)}
    (h : Exec s (t0 ++ Item.batch :: t1 ++ Item.finished true :: t2 ++ Item.batch :: t3 ++ [Item.finished false]))
    (h1 : OneBatch t1) (h2 : OneBatch t2) (h3 : OneBatch t3) (hc1 : Item.cleared ∉ t1) (hc2 : Item.cleared ∉ t2) :
    applications t3 = (pushes (t1 ++ t2)).map Prod.snd ∧ applications t2 = [] := by
  refine ⟨c23_pushed_while_applying h h1 h2 h3 hc1 hc2, ?_⟩
  obtain ⟨W, B, X, k, _, _⟩ := h.inv
  have e : t0 ++ Item.batch :: t1 ++ Item.finished true :: t2 ++ Item.batch :: t3 ++ [Item.finished false] =
    (t0 ++ Item.batch :: t1 ++ [Item.finished true]) ++ (t2 ++ (Item.batch :: t3 ++ [Item.finished false])) := by simp
  rw [e] at k
  obtain ⟨b1, k1, k2⟩ := k.split
  obtain ⟨b0, _, k0⟩ := k1.split
  obtain ⟨L, _, _, hb1⟩ := k0.finished
  obtain ⟨b2, k3, _⟩ := k2.split
  rw [hb1] at k3
  exact (k3.between h2).2

/-- The first of three updates pushes 40 and the second one throws; the third one is discarded; the next batch applies 40
and what was pushed in between. -/
def failDemo : List (Act Nat) :=
  [.callPush 1 10] ++ go 1 5 ++ [.callPush 1 20] ++ go 1 5 ++ [.callPush 1 30] ++ go 1 5 ++ [.callApply] ++ go 0 4 ++
  [.callPush 0 40] ++ go 0 5 ++ go 0 2 ++ [.run 0 true] ++ go 0 9 ++ [.callPush 2 50] ++ go 2 5 ++ [.callApply] ++ go 0 15

example : ∃ s : Sys Nat, Exec s ([.pushed 1 10, .returned 1 10, .pushed 1 20, .returned 1 20, .pushed 1 30, .returned 1 30] ++
    Item.batch :: [.applied 10, .pushed 0 40, .returned 0 40, .applied 20, .threw] ++ Item.finished true ::
    [.pushed 2 50, .returned 2 50] ++ Item.batch :: [.applied 40, .applied 50] ++ [.finished false]) :=
  exec_of_schedule (as := failDemo) (by rfl)

/-! ## C71 -/

/-- **C71**, as far as it holds: no call of `Push` has thrown.  Whenever no thread is inside the queue, every message block
that was ever allocated is in exactly one of the two lists whose destructors delete their elements. -/
theorem c71_blocks_owned_partial {items : List (Item U)} (h : Exec s items) (hq : Quiet s)
    (ht : ∀ t, Item.pushThrew t ∉ items) : (s.pending ++ s.free).Nodup ∧ s.rendering = [] ∧
      ∀ m, m ∈ s.pending ++ s.free ↔ m < s.next := by
  obtain ⟨W, B, X, _, hx, hi⟩ := h.inv
  have hX : X = [] := by
    rcases hx with hx | ⟨t, hx⟩
    · exact hx
    · exact absurd hx (ht t)
  have hr : s.rendering = [] := by
    have := hi.batch
    simp only [BatchOK, hq.2] at this
    exact this.1
  have hfl : inflight s = [] := by
    simp only [inflight]
    split
    · rw [hq.1]; rfl
    · rfl
  have hm : ∀ m, (s.pending ++ s.free).count m = if m < s.next then 1 else 0 := by
    intro m
    have := hi.msgs m
    rw [hr, hfl, hX] at this
    simpa using this
  refine ⟨List.nodup_iff_count.2 (fun m => by rw [hm]; split <;> simp), hr, ?_⟩
  intro m
  rw [← List.count_pos_iff, hm]
  split <;> simp [*]

/-- Two blocks in flight at the same time, recycled later: three updates, two blocks. -/
example : ∃ (s : Sys Nat) (items : List (Item Nat)), Exec s items ∧ s.next = 2 ∧ s.pending = [1] ∧ s.free = [0] := by
  have h : runActs (Sys.init : Sys Nat) ([.callPush 1 10] ++ go 1 5 ++ [.callApply] ++ go 0 4 ++ [.callPush 1 30] ++ go 1 5 ++
    go 0 7) = some _ := rfl
  exact ⟨_, _, exec_of_runActs Exec.init h, rfl, rfl, rfl⟩

/-- **C71** does not hold in general: if copying the function into the block throws, the block is in no list any more, so
nothing will ever delete it.  (Here: the block comes from the free list, after one update was pushed and applied.) -/
theorem c71_blocks_owned_violated : ∃ (s : Sys Nat) (items : List (Item Nat)), Exec s items ∧ Quiet s ∧
    ∃ m, m < s.next ∧ m ∉ s.pending ++ s.free ++ s.rendering := by
  have h : runActs (Sys.init : Sys Nat) ([.callPush 1 10] ++ go 1 5 ++ [.callApply] ++ go 0 11 ++ [.callPush 1 20] ++ go 1 2 ++
    [.run 1 true]) = some _ := rfl
  refine ⟨_, _, exec_of_runActs Exec.init h, ⟨?_, rfl⟩, 0, by decide, by decide⟩
  intro t
  by_cases ht : t = 1
  · subst ht; rfl
  · simp [Sys.setStack, ht, Sys.init]

/-- **C71** is false for every queue that has a free block: if no thread is inside and the copy of the function into the block throws, the block is in no list any more. -/
theorem c71_every_block_violated {items : List (Item U)} (h : Exec s items) (hq : Quiet s) (t : Nat) (u : U) {m : Nat} {fr : List Nat} (hf : s.free = m :: fr) :
    ∃ s', runActs s (.callPush t u :: go t 2 ++ [.run t true]) = some (s', [.pushThrew t]) ∧ Exec s' (items ++ [.pushThrew t]) ∧ Quiet s' ∧
      m < s'.next ∧ m ∉ s'.pending ++ s'.free ++ s'.rendering := by
  obtain ⟨W, B, X, hacc, _, hi⟩ := h.inv
  have hst : ∀ t, s.stack t = [] := hq.1
  have hph : s.phase = .idle := hq.2
  have hown : s.owner = none := by
    cases ho : s.owner with
    | none => rfl
    | some t =>
      have h1 := hi.lock t
      have h2 := hi.pos t ho
      simp [held, hst, hph, ho, Phase.holds] at h1
      omega
  have hu : s.user t = true := by simp [Sys.user, hst, hph, Phase.user]
  have hm := hi.msgs m
  rw [hf, List.count_cons_self] at hm
  have hlt : m < s.next := by
    by_cases hlt : m < s.next
    · exact hlt
    · rw [if_neg hlt] at hm; omega
  rw [if_pos hlt] at hm
  have hrun : ∃ s', runActs s (.callPush t u :: go t 2 ++ [.run t true]) = some (s', [.pushThrew t]) ∧ s'.next = s.next ∧ s'.pending = s.pending ∧ s'.free = fr ∧
      s'.rendering = s.rendering ∧ (∀ k, s'.stack k = []) ∧ s'.phase = .idle := by
    refine ⟨⟨none, 0, s.pending, fr, s.rendering, s.func, s.next,
      fun k => if k = t then [] else if k = t then [.pushCopy m u] else if k = t then [.pushTake u] else if k = t then [.pushLock u] else [], s.phase⟩,
      by simp [runActs, go, List.replicate, step, hu, stepFrame, Sys.setStack, Sys.lock, Sys.unlock, hown, hst, hf], rfl, rfl, rfl, rfl, ?_, hph⟩
    intro k
    by_cases hk : k = t <;> simp [hk]
  obtain ⟨s', h1, h2, h3, h4, h5, h6, h7⟩ := hrun
  refine ⟨s', h1, exec_of_runActs h h1, ⟨h6, h7⟩, by omega, ?_⟩
  rw [h3, h4, h5, ← List.count_eq_zero, List.count_append, List.count_append]
  omega

-- Non-vacuity: one update was pushed and applied, its block is free.
example : ∃ (s : Sys Nat) (items : List (Item Nat)), Exec s items ∧ Quiet s ∧ s.free = [0] := by
  have h : runActs (Sys.init : Sys Nat) ([.callPush 1 10] ++ go 1 5 ++ [.callApply] ++ go 0 11) = some _ := rfl
  refine ⟨_, _, exec_of_runActs Exec.init h, ⟨?_, rfl⟩, rfl⟩
  intro t
  by_cases ht : t = 1
  · subst ht; rfl
  · simp [Sys.setStack, ht, Sys.init]

/-! ## C72 -/

/-- **C72**, as far as it holds: `ClearPending` has not been called.  Whenever no thread is inside the queue, the only
functions (with their captures) it keeps alive are those of updates that wait; those of the batches applied, also of the
discarded rest of a failed batch, have been released. -/
theorem c72_functions_released_partial {items : List (Item U)} (h : Exec s items) (hq : Quiet s)
    (hc : Item.cleared ∉ items) {m : Nat} {u : U} (hm : s.func m = some u) : u ∈ (waiting items).map Prod.snd := by
  obtain ⟨W, B, X, hacc, _, hi⟩ := h.inv
  have hw : W = waiting items := hacc.waiting
  have hr : s.rendering = [] := by
    have := hi.batch
    simp only [BatchOK, hq.2] at this
    exact this.1
  rcases h.alive hc m u hm with a | a | ⟨t, a⟩
  · have h1 : s.func m ∈ s.pending.map s.func := List.mem_map.2 ⟨m, a, rfl⟩
    rw [hi.pend, hm] at h1
    obtain ⟨p, hp, he⟩ := List.mem_map.1 h1
    cases he
    rw [← hw]
    exact List.mem_map.2 ⟨p, hp, rfl⟩
  · rw [hr] at a; cases a
  · rw [hq.1] at a; cases a

example : ∃ (s : Sys Nat) (items : List (Item Nat)), Exec s items ∧ s.func 0 = none ∧ s.func 1 = some 30 ∧
    (waiting items).map Prod.snd = [30] := by
  have h : runActs (Sys.init : Sys Nat) ([.callPush 1 10] ++ go 1 5 ++ [.callApply] ++ go 0 4 ++ [.callPush 1 30] ++ go 1 5 ++
    go 0 7) = some _ := rfl
  exact ⟨_, _, exec_of_runActs Exec.init h, rfl, rfl, rfl⟩

/-- **C72** does not hold in general: `ClearPending` drops the updates but keeps their functions alive, until the block is
used again or the queue is destroyed. -/
theorem c72_functions_released_violated : ∃ (s : Sys Nat) (items : List (Item Nat)), Exec s items ∧ Quiet s ∧
    s.func 0 = some 10 ∧ waiting items = [] := by
  have h : runActs (Sys.init : Sys Nat) ([.callPush 1 10] ++ go 1 5 ++ [.callClear 2] ++ go 2 3) = some _ := rfl
  refine ⟨_, _, exec_of_runActs Exec.init h, ⟨?_, rfl⟩, rfl, rfl⟩
  intro t
  by_cases ht : t = 1
  · subst ht; rfl
  · by_cases ht2 : t = 2
    · subst ht2; rfl
    · simp [Sys.setStack, ht, ht2, Sys.init]

/-- **C72** is false for every queue: if no thread is inside, a call of `ClearPending` by any thread leaves no update waiting, but the functions of all that waited are still alive. -/
theorem c72_every_clear_violated {items : List (Item U)} (h : Exec s items) (hq : Quiet s) (t : Nat) :
    ∃ s', runActs s (.callClear t :: go t 3) = some (s', [.cleared]) ∧ Exec s' (items ++ [.cleared]) ∧ Quiet s' ∧ waiting (items ++ [.cleared]) = [] ∧
      ∀ p ∈ waiting items, ∃ m, s'.func m = some p.2 := by
  obtain ⟨W, B, X, hacc, _, hi⟩ := h.inv
  have hw : W = waiting items := hacc.waiting
  have hst : ∀ t, s.stack t = [] := hq.1
  have hph : s.phase = .idle := hq.2
  have hown : s.owner = none := by
    cases ho : s.owner with
    | none => rfl
    | some t =>
      have h1 := hi.lock t
      have h2 := hi.pos t ho
      simp [held, hst, hph, ho, Phase.holds] at h1
      omega
  have hu : s.user t = true := by simp [Sys.user, hst, hph, Phase.user]
  have hrun : ∃ s', runActs s (.callClear t :: go t 3) = some (s', [.cleared]) ∧ s'.func = s.func ∧ (∀ k, s'.stack k = []) ∧ s'.phase = .idle := by
    refine ⟨⟨none, 0, [], s.free ++ s.pending, s.rendering, s.func, s.next,
      fun k => if k = t then [] else if k = t then [.unlock none] else if k = t then [.clearSplice] else if k = t then [.clearLock] else [], s.phase⟩,
      by simp [runActs, go, List.replicate, step, hu, stepFrame, Sys.setStack, Sys.lock, Sys.unlock, hown, hst], rfl, ?_, hph⟩
    intro k
    by_cases hk : k = t <;> simp [hk]
  obtain ⟨s', h1, h2, h3, h4⟩ := hrun
  refine ⟨s', h1, exec_of_runActs h h1, ⟨h3, h4⟩, by simp [waiting, waiting1], ?_⟩
  intro p hp
  rw [← hw] at hp
  have h5 : some p.2 ∈ s.pending.map s.func := by
    rw [hi.pend]
    exact List.mem_map.2 ⟨p, hp, rfl⟩
  obtain ⟨m, _, h6⟩ := List.mem_map.1 h5
  exact ⟨m, by rw [h2, h6]⟩

-- Non-vacuity: two updates wait.
example : ∃ (s : Sys Nat) (items : List (Item Nat)), Exec s items ∧ Quiet s ∧ (waiting items).map Prod.snd = [10, 30] := by
  have h : runActs (Sys.init : Sys Nat) ([.callPush 1 10] ++ go 1 5 ++ [.callPush 1 30] ++ go 1 5) = some _ := rfl
  refine ⟨_, _, exec_of_runActs Exec.init h, ⟨?_, rfl⟩, rfl⟩
  intro t
  by_cases ht : t = 1
  · subst ht; rfl
  · simp [Sys.setStack, ht, Sys.init]

end Verif.UpdateQueue
