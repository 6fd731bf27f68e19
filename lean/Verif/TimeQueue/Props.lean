import Verif.TimeQueue.Model

/-! # C55: timers -/

namespace Verif.TimeQueue

/-- The tasks resumed. -/
def resumedTasks : List Event → List Task
  | [] => []
  | .resumed t _ :: es => t :: resumedTasks es
  | .slept _ :: es => resumedTasks es

/-- The tasks pushed by the coroutines that were resumed. -/
def pushed : List Event → List (Int × List Task) → List Task
  | .resumed _ _ :: es, (_, sp) :: ins => sp ++ pushed es ins
  | .slept _ :: es, _ :: ins => pushed es ins
  | _, _ => []

/-- C55, first half: no coroutine is resumed before its deadline. Missing: the order and the delay (`c55_order_violated`, `c55_delay_violated`). -/
theorem c55_not_early_partial (Q : Queue) (q : List Task) (ins : List (Int × List Task)) :
    ∀ t now, Event.resumed t now ∈ (loop Q q ins).1 → t.deadline < now := by
  induction ins generalizing q with
  | nil => intro t now h; simp [loop] at h
  | cons i ins ih =>
    obtain ⟨c, sp⟩ := i
    intro t now h
    simp only [loop] at h
    cases ht : turn Q q c sp with
    | none => rw [ht] at h; simp at h
    | some r =>
      obtain ⟨e, q'⟩ := r
      rw [ht] at h
      simp only [List.mem_cons] at h
      rcases h with h | h
      · subst h
        simp only [turn] at ht
        cases htop : Q.top q with
        | none => rw [htop] at ht; cases ht
        | some u =>
          rw [htop] at ht
          simp only [] at ht
          split at ht
          · rename_i hd
            cases ht
            exact hd
          · cases ht
      · exact ih q' t now h

/-- C55: every coroutine is resumed once for each time it was pushed, or is still in the queue. -/
theorem c55_exactly_once (Q : Queue) (q : List Task) (ins : List (Int × List Task)) :
    (resumedTasks (loop Q q ins).1 ++ (loop Q q ins).2).Perm (q ++ pushed (loop Q q ins).1 ins) := by
  induction ins generalizing q with
  | nil => simp [loop, resumedTasks, pushed]
  | cons i ins ih =>
    obtain ⟨c, sp⟩ := i
    simp only [loop]
    cases ht : turn Q q c sp with
    | none => simp [resumedTasks, pushed]
    | some r =>
      obtain ⟨e, q'⟩ := r
      simp only []
      have hi := ih q'
      simp only [turn] at ht
      cases htop : Q.top q with
      | none => rw [htop] at ht; cases ht
      | some u =>
        rw [htop] at ht
        simp only [] at ht
        have hu := Q.mem q u htop
        split at ht
        · cases ht
          simp only [resumedTasks, pushed, List.cons_append]
          refine (List.Perm.cons u hi).trans ?_
          have h1 : (u :: q.erase u).Perm q := (List.perm_cons_erase hu).symm
          have h2 : (u :: (sp ++ q.erase u ++ pushed (loop Q (sp ++ q.erase u) ins).1 ins)).Perm
              ((u :: q.erase u) ++ (sp ++ pushed (loop Q (sp ++ q.erase u) ins).1 ins)) := by
            rw [List.cons_append, ← List.append_assoc]
            exact List.Perm.cons u ((List.perm_append_comm).append_right _)
          exact h2.trans (h1.append_right _)
        · cases ht
          simp only [resumedTasks, pushed]
          exact hi

/-- C55: with something in the queue the loop goes on, and when the clock has passed all deadlines a coroutine is resumed. -/
theorem c55_progress (Q : Queue) (q : List Task) (now : Int) (spawn : List Task) (hq : q ≠ [])
    (hn : ∀ t ∈ q, t.deadline < now) : ∃ t ∈ q, turn Q q now spawn = some (.resumed t now, spawn ++ q.erase t) := by
  cases htop : Q.top q with
  | none => exact absurd htop (Q.some q hq)
  | some u =>
    have hu := Q.mem q u htop
    refine ⟨u, hu, ?_⟩
    simp only [turn, htop]
    rw [if_pos (hn u hu)]

/-- C55 is violated: a coroutine is not resumed as long as one with a later deadline is in the queue: that one comes first,
and only when its own time has come. -/
theorem c55_order_violated (Q : Queue) (q : List Task) (ins : List (Int × List Task)) (x y : Task) (hy : y ∈ q)
    (hlt : x.deadline < y.deadline) (pre post : List Event) (now : Int)
    (h : (loop Q q ins).1 = pre ++ .resumed x now :: post) :
    ∃ now', Event.resumed y now' ∈ pre ∧ y.deadline < now' := by
  induction ins generalizing q pre with
  | nil => simp [loop] at h
  | cons i ins ih =>
    obtain ⟨c, sp⟩ := i
    simp only [loop] at h
    cases ht : turn Q q c sp with
    | none => rw [ht] at h; simp at h
    | some r =>
      obtain ⟨e, q'⟩ := r
      rw [ht] at h
      simp only [] at h
      simp only [turn] at ht
      cases htop : Q.top q with
      | none => rw [htop] at ht; cases ht
      | some u =>
        rw [htop] at ht
        simp only [] at ht
        have hmax := Q.max q u htop y hy
        simp only [less, decide_eq_false_iff_not, Int.not_lt] at hmax
        cases pre with
        | nil =>
          simp only [List.nil_append, List.cons.injEq] at h
          obtain ⟨rfl, _⟩ := h
          split at ht
          · cases ht; omega
          · cases ht
        | cons e' pre =>
          simp only [List.cons_append, List.cons.injEq] at h
          obtain ⟨rfl, h⟩ := h
          split at ht
          · rename_i hd
            cases ht
            by_cases e : y = u
            · subst e
              exact ⟨c, List.mem_cons_self, hd⟩
            · have hy' : y ∈ sp ++ q.erase u :=
                List.mem_append_right _ ((List.mem_erase_of_ne e).2 hy)
              obtain ⟨now', h1, h2⟩ := ih _ hy' pre h
              exact ⟨now', List.mem_cons_of_mem _ h1, h2⟩
          · cases ht
            obtain ⟨now', h1, h2⟩ := ih _ hy pre h
            exact ⟨now', List.mem_cons_of_mem _ h1, h2⟩

/-- C55 is violated: with a timer that is due and a later one the thread sleeps until the later deadline. -/
theorem c55_delay_violated (Q : Queue) (x y : Task) (now : Int) (spawn : List Task) (hx : x.deadline < now)
    (hy : now ≤ y.deadline) : turn Q [x, y] now spawn = some (.slept y.deadline, [x, y]) := by
  cases htop : Q.top [x, y] with
  | none => exact absurd htop (Q.some _ (by simp))
  | some u =>
    have hm := Q.mem _ u htop
    have hmax := Q.max _ u htop y (by simp)
    simp only [less, decide_eq_false_iff_not, Int.not_lt] at hmax
    simp only [List.mem_cons, List.not_mem_nil, or_false] at hm
    rcases hm with rfl | rfl
    · omega
    · simp only [turn, htop]
      rw [if_neg (by omega)]

/-- C55: a duration that is not positive does not suspend; otherwise the coroutine is in the queue with its deadline. -/
theorem c55_await (q : List Task) (now d : Int) (h : Nat) :
    (d ≤ 0 → await q now d h = none) ∧ (0 < d → await q now d h = some (⟨now + d, h⟩ :: q)) := by
  constructor
  · intro hd; simp [await, hd]
  · intro hd; rw [await, if_neg (by omega)]; rfl

/-! A queue: the first of the latest. -/

def best : List Task → Option Task
  | [] => none
  | t :: l => match best l with
    | none => some t
    | some u => if u.deadline > t.deadline then some u else some t

def listQueue : Queue where
  top := best
  mem := by
    intro l
    induction l with
    | nil => intro t h; cases h
    | cons a l ih =>
      intro t h
      simp only [best] at h
      cases hb : best l with
      | none => rw [hb] at h; cases h; exact List.mem_cons_self
      | some u =>
        rw [hb] at h
        simp only [] at h
        split at h <;> cases h
        · exact List.mem_cons_of_mem _ (ih _ hb)
        · exact List.mem_cons_self
  max := by
    intro l
    induction l with
    | nil => intro t h; cases h
    | cons a l ih =>
      intro t h x hx
      simp only [best] at h
      simp only [less, decide_eq_false_iff_not, Int.not_lt]
      cases hb : best l with
      | none =>
        have hl : l = [] := by
          cases l with
          | nil => rfl
          | cons b l =>
            simp only [best] at hb
            cases h2 : best l with
            | none => rw [h2] at hb; cases hb
            | some v => rw [h2] at hb; simp only [] at hb; split at hb <;> cases hb
        subst hl
        rw [hb] at h; cases h
        simp at hx
        rw [hx]; omega
      | some u =>
        rw [hb] at h
        simp only [] at h
        have hu := ih u hb
        rcases List.mem_cons.1 hx with rfl | hx
        · split at h <;> cases h <;> omega
        · have := hu x hx
          simp only [less, decide_eq_false_iff_not, Int.not_lt] at this
          split at h <;> cases h <;> omega
  some := by
    intro l hl h
    cases l with
    | nil => exact hl rfl
    | cons b l =>
      simp only [best] at h
      cases h2 : best l with
      | none => rw [h2] at h; cases h
      | some v => rw [h2] at h; simp only [] at h; split at h <;> cases h

example : loop listQueue [⟨5, 0⟩, ⟨9, 1⟩] [(6, []), (10, [⟨20, 2⟩]), (11, []), (21, []), (22, [])] =
    ([.slept 9, .resumed ⟨9, 1⟩ 10, .slept 20, .resumed ⟨20, 2⟩ 21, .resumed ⟨5, 0⟩ 22], []) := by decide

end Verif.TimeQueue
