import Verif.Aggregator.Spec

/-! # Aggregators (C54) -/

namespace Verif.Aggregator

variable {V : Type}

theorem run_append (moved : V → V) (s : Agg V) (a b : List (Op V)) : s.run moved (a ++ b) = (s.run moved a).run moved b := by
  simp [Agg.run, List.foldl_append]

theorem latest_append (i : Nat) (a b : List (Op V)) : latest i (a ++ b) = (latest i b).or (latest i a) := by
  induction a with
  | nil => simp [latest]
  | cons op a ih =>
    cases op with
    | set j v => simp only [List.cons_append, latest, ih, Option.or_assoc]
    | cancel => exact ih

theorem run_length (moved : V → V) (s : Agg V) (ops : List (Op V)) :
    (s.run moved ops).values.length = s.values.length := by
  induction ops generalizing s with
  | nil => rfl
  | cons op ops ih =>
    show ((s.step moved op).run moved ops).values.length = _
    rw [ih]
    cases op with
    | cancel => rfl
    | set i v =>
      simp only [Agg.step, Agg.set]
      split <;> simp [Agg.call]

theorem run_cancelled (moved : V → V) (s : Agg V) (ops : List (Op V)) :
    (s.run moved ops).cancelled = true ↔ s.cancelled = true ∨ Cancelled ops := by
  induction ops generalizing s with
  | nil => simp [Agg.run, Cancelled]
  | cons op ops ih =>
    show ((s.step moved op).run moved ops).cancelled = true ↔ _
    rw [ih]
    cases op with
    | cancel => simp [Agg.step, Agg.cancel, Cancelled]
    | set i v =>
      have : (s.step moved (.set i v)).cancelled = s.cancelled := by
        simp only [Agg.step, Agg.set]; split <;> simp [Agg.call]
      rw [this]; simp [Cancelled]

theorem all_iff (s : Agg V) : s.all = true ↔ ∀ i, i < s.values.length → s.values[i]? ≠ some none := by
  simp only [Agg.all, Bool.not_eq_true', List.any_eq_false]
  constructor
  · intro h i hi h'
    exact h none (List.mem_of_getElem? h') rfl
  · intro h x hx hn
    obtain ⟨i, hi, e⟩ := List.getElem_of_mem hx
    refine h i hi ?_
    rw [List.getElem?_eq_getElem hi, e]
    cases x with
    | none => rfl
    | some v => cases hn

theorem call_complete (s : Agg V) (h : s.all = true) : s.values = (s.values.filterMap id).map some := by
  have h' : ∀ x ∈ s.values, x.isNone = false := by
    simp only [Agg.all, Bool.not_eq_true', List.any_eq_false] at h
    intro x hx
    cases x with
    | none => exact absurd rfl (h none hx)
    | some v => rfl
  clear h
  generalize s.values = l at h'
  induction l with
  | nil => rfl
  | cons x l ih =>
    cases x with
    | none => exact absurd (h' none List.mem_cons_self) (by simp)
    | some v =>
      simp only [List.filterMap_cons, id, List.map_cons, List.cons.injEq, true_and]
      exact ih fun y hy => h' y (List.mem_cons_of_mem _ hy)

theorem snocInd {α : Type} {P : List α → Prop} (h0 : P []) (h1 : ∀ l x, P l → P (l ++ [x])) (l : List α) : P l := by
  have : ∀ l : List α, P l.reverse := by
    intro l
    induction l with
    | nil => exact h0
    | cons x l ih => rw [List.reverse_cons]; exact h1 _ _ ih
  have := this l.reverse
  rwa [List.reverse_reverse] at this

theorem all_map_some (l : List V) (b : Bool) (c : List (List V)) : (⟨l.map some, b, c⟩ : Agg V).all = true := by
  simp only [Agg.all, Bool.not_eq_true', List.any_eq_false, List.mem_map]
  rintro x ⟨y, _, rfl⟩; simp

theorem filterMap_map_some (l : List V) : (l.map some).filterMap id = l := by
  induction l with
  | nil => rfl
  | cons x l ih => simp only [List.map_cons, List.filterMap_cons, id, ih]

/-- Until the values are complete, or after cancellation, they are what was given last, and the handler is not called. -/
theorem run_quiet (moved : V → V) (n : Nat) (ops : List (Op V)) (ht : Typed n ops)
    (hq : ∀ pre op post, ops = pre ++ op :: post → (∃ i v, op = .set i v) → Cancelled pre ∨ ¬ Complete n (pre ++ [op])) :
    ((new V n).run moved ops).calls = [] ∧
    ∀ i, i < n → ((new V n).run moved ops).values[i]? = some (latest i ops) := by
  induction ops using snocInd with
  | h0 => exact ⟨rfl, fun i hi => by simp [Agg.run, new, latest, hi]⟩
  | h1 ops op ih =>
    have hlen : ((new V n).run moved ops).values.length = n := by rw [run_length]; simp [new]
    obtain ⟨h1, h2⟩ := ih (fun i v h => ht i v (List.mem_append_left _ h))
      (fun pre o post e => hq pre o (post ++ [op]) (by rw [e]; simp))
    rw [run_append]
    cases op with
    | cancel =>
      refine ⟨h1, ?_⟩
      intro i hi
      show ((new V n).run moved ops).values[i]? = _
      rw [h2 i hi, latest_append]; simp [latest]
    | set j v =>
      obtain ⟨s, hs⟩ : ∃ s, s = (new V n).run moved ops := ⟨_, rfl⟩
      rw [← hs] at h1 h2 hlen ⊢
      have hj : j < n := ht j v (by simp)
      have hv : ∀ i, i < n → (s.values.set j (some v))[i]? = some (latest i (ops ++ [.set j v])) := by
        intro i hi
        rw [latest_append]
        simp only [latest]
        by_cases e : j = i
        · subst e; simp [List.getElem?_set_self (show j < s.values.length by omega)]
        · rw [List.getElem?_set_ne e, h2 i hi]; simp [e]
      show (s.set moved j v).calls = [] ∧ ∀ i, i < n → (s.set moved j v).values[i]? = _
      have hnot : ({ s with values := s.values.set j (some v) } : Agg V).all = false ∨ s.cancelled = true := by
        rcases hq ops (.set j v) [] rfl ⟨j, v, rfl⟩ with h | h
        · right; rw [hs, run_cancelled]; exact .inr h
        · left
          cases ha : ({ s with values := s.values.set j (some v) } : Agg V).all with
          | false => rfl
          | true =>
            refine absurd ?_ h
            intro i hi hn
            refine (all_iff _).1 ha i ?_ ?_
            · show i < (s.values.set j (some v)).length
              rw [List.length_set]; omega
            · show (s.values.set j (some v))[i]? = _
              rw [hv i hi, hn]
      have : s.set moved j v = { s with values := s.values.set j (some v) } := by
        simp only [Agg.set]
        rcases hnot with h | h
        · simp [h]
        · simp [h]
      rw [this]
      exact ⟨h1, hv⟩

/-- C54: before all the values have been given, and after cancellation, the handler is not called; in particular, if
`cancel` comes before the last missing value, never. -/
theorem c54_not_called (moved : V → V) (n : Nat) (ops : List (Op V)) (ht : Typed n ops)
    (hq : ∀ pre op post, ops = pre ++ op :: post → (∃ i v, op = .set i v) → Cancelled pre ∨ ¬ Complete n (pre ++ [op])) :
    ((new V n).run moved ops).calls = [] := (run_quiet moved n ops ht hq).1

/-- C54: the last missing value makes the call, with the values given last, if it was not cancelled. -/
theorem c54_called (moved : V → V) (n : Nat) (pre : List (Op V)) (j : Nat) (v : V) (ht : Typed n (pre ++ [.set j v]))
    (hi : ∀ p, p <+: pre → ¬ Complete n p) (hc : Complete n (pre ++ [.set j v])) (hn : ¬ Cancelled pre) :
    ∃ args, ((new V n).run moved (pre ++ [.set j v])).calls = [args] ∧
      args.map some = (List.range n).map (fun i => latest i (pre ++ [.set j v])) := by
  have hq := run_quiet moved n pre (fun i w h => ht i w (List.mem_append_left _ h)) (by
    intro p o q e _
    right
    exact hi (p ++ [o]) ⟨q, by rw [e]; simp⟩)
  have hlen : ((new V n).run moved pre).values.length = n := by rw [run_length]; simp [new]
  have hnc : ((new V n).run moved pre).cancelled = false := by
    cases h : ((new V n).run moved pre).cancelled with
    | false => rfl
    | true => rcases (run_cancelled moved _ _).1 h with h | h
              · cases h
              · exact absurd h hn
  rw [run_append]
  obtain ⟨s, hs⟩ : ∃ s, s = (new V n).run moved pre := ⟨_, rfl⟩
  rw [← hs] at hq hlen hnc ⊢
  have hj : j < n := ht j v (by simp)
  have hv : ∀ i, i < n → (s.values.set j (some v))[i]? = some (latest i (pre ++ [.set j v])) := by
    intro i hi
    rw [latest_append]
    simp only [latest]
    by_cases e : j = i
    · subst e; simp [List.getElem?_set_self (show j < s.values.length by omega)]
    · rw [List.getElem?_set_ne e, hq.2 i hi]; simp [e]
  have ha : ({ s with values := s.values.set j (some v) } : Agg V).all = true := by
    rw [all_iff]
    intro i hi h'
    have hi : i < n := by
      have : i < (s.values.set j (some v)).length := hi
      rw [List.length_set] at this; omega
    have h' : (s.values.set j (some v))[i]? = some none := h'
    rw [hv i hi] at h'
    exact hc i hi (Option.some.inj h')
  refine ⟨(s.values.set j (some v)).filterMap id, ?_, ?_⟩
  · show (s.set moved j v).calls = _
    simp only [Agg.set]
    rw [if_pos (by rw [ha, hnc]; rfl)]
    show _ :: s.calls = _
    rw [hq.1]
  · rw [← call_complete _ ha]
    apply List.ext_getElem?
    intro i
    by_cases hi : i < n
    · show (s.values.set j (some v))[i]? = _
      rw [hv i hi]; simp [hi]
    · have : (s.values.set j (some v)).length = n := by rw [List.length_set]; omega
      show (s.values.set j (some v))[i]? = _
      rw [List.getElem?_eq_none (by omega)]
      simp [hi]

/-- C54, partial: if no value is given again after the last missing one, the handler is called exactly once in all.  What is
missing: values given again later, see below. -/
theorem c54_once_partial (moved : V → V) (n : Nat) (pre post : List (Op V)) (j : Nat) (v : V)
    (ht : Typed n (pre ++ [.set j v])) (hi : ∀ p, p <+: pre → ¬ Complete n p) (hc : Complete n (pre ++ [.set j v]))
    (hn : ¬ Cancelled pre) (hp : Silent post) :
    ∃ args, ((new V n).run moved (pre ++ .set j v :: post)).calls = [args] ∧
      args.map some = (List.range n).map (fun i => latest i (pre ++ [.set j v])) := by
  obtain ⟨args, h1, h2⟩ := c54_called moved n pre j v ht hi hc hn
  refine ⟨args, ?_, h2⟩
  rw [show pre ++ Op.set j v :: post = (pre ++ [.set j v]) ++ post by simp, run_append]
  obtain ⟨s, hs⟩ : ∃ s, s = (new V n).run moved (pre ++ [.set j v]) := ⟨_, rfl⟩
  rw [← hs] at h1 ⊢
  clear hs
  induction post generalizing s with
  | nil => exact h1
  | cons op post ih =>
    cases op with
    | set i w => exact absurd List.mem_cons_self (hp i w)
    | cancel => exact ih (fun i w h => hp i w (List.mem_cons_of_mem _ h)) s.cancel h1

/-- C54: after `cancel` the handler is not called any more, whatever values are given. -/
theorem c54_cancelled (moved : V → V) (s : Agg V) (h : s.cancelled = true) (ops : List (Op V)) :
    (s.run moved ops).calls = s.calls := by
  induction ops generalizing s with
  | nil => rfl
  | cons op ops ih =>
    show ((s.step moved op).run moved ops).calls = _
    cases op with
    | cancel => exact ih s.cancel rfl
    | set i v =>
      have : s.step moved (.set i v) = { s with values := s.values.set i (some v) } := by
        simp [Agg.step, Agg.set, h]
      rw [this]; exact ih _ h

/-- C54 is violated: every value given after the handler was called calls it again, and with values that were moved out
already. -/
theorem c54_again_violated (moved : V → V) (s : Agg V) (i : Nat) (v w : V) (_ : i < s.values.length)
    (hc : s.cancelled = false) (ha : (s.values.set i (some v)).any (·.isNone) = false) :
    ∃ a b, (s.run moved [.set i v, .set i w]).calls = b :: a :: s.calls ∧ b = (a.map moved).set i w := by
  have ha' : ({ s with values := s.values.set i (some v) } : Agg V).all = true := by simp [Agg.all, ha]
  have e := call_complete _ ha'
  refine ⟨(s.values.set i (some v)).filterMap id, (((s.values.set i (some v)).filterMap id).map moved).set i w, ?_, rfl⟩
  obtain ⟨l, hl⟩ : ∃ l, l = (s.values.set i (some v)).filterMap id := ⟨_, rfl⟩
  have e : s.values.set i (some v) = l.map some := by rw [hl]; exact e
  have h1 : s.set moved i v = ⟨(l.map moved).map some, false, l :: s.calls⟩ := by
    simp only [Agg.set]
    rw [if_pos (by rw [ha', hc]; rfl)]
    simp only [Agg.call, e, hc, filterMap_map_some]
    simp
  show ((s.set moved i v).set moved i w).calls = _
  rw [h1, ← hl]
  have h2 : ((l.map moved).map some).set i (some w) = ((l.map moved).set i w).map some := by
    rw [List.map_set]
  simp only [Agg.set, h2]
  rw [if_pos (by rw [all_map_some]; rfl)]
  show (((l.map moved).set i w).map some).filterMap id :: l :: s.calls = _
  rw [filterMap_map_some]

def sample : List (Op Nat) := [.set 1 10, .set 0 20, .set 1 11]

example : Typed 3 (sample ++ [.set 2 30]) ∧ Complete 3 (sample ++ [.set 2 30]) := by
  refine ⟨?_, ?_⟩
  · intro i v h
    simp only [sample, List.cons_append, List.nil_append, List.mem_cons, Op.set.injEq, List.not_mem_nil, or_false] at h
    omega
  · intro i hi
    have : i = 0 ∨ i = 1 ∨ i = 2 := by omega
    rcases this with rfl | rfl | rfl <;> simp [sample, latest]

example : ∀ p, p <+: sample → ¬ Complete 3 p := by
  intro p hp h
  refine h 2 (by omega) ?_
  have : latest 2 sample = none := rfl
  obtain ⟨q, hq⟩ := hp
  rw [← hq, latest_append] at this
  cases e : latest 2 q with
  | none => rw [e] at this; exact this
  | some x => rw [e] at this; cases this

example : ((new Nat 3).run id (sample ++ [.set 2 30])).calls = [[20, 11, 30]] := rfl

/-- The values are strings, say: moved out, they are empty (0). -/
example : ((new Nat 3).run (fun _ => 0) (sample ++ [.set 2 30, .set 0 21])).calls = [[21, 0, 0], [20, 11, 30]] := rfl

end Verif.Aggregator
