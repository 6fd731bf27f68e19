import Verif.JThread.Model

namespace Verif.JThread

/-- What holds in every reachable state. -/
structure Inv (s : State) : Prop where
  /-- the stop source of an object is that of its thread -/
  pair : ∀ j o t, s.objs j = some o → o.thread = some t → o.src = some t ∧ 1 ≤ t ∧ t ≤ s.n
  /-- a thread belongs to one object -/
  single : ∀ j j' o o' t, s.objs j = some o → s.objs j' = some o' → o.thread = some t → o'.thread = some t → j = j'
  /-- and is not joined or detached then -/
  free : ∀ j o t, s.objs j = some o → o.thread = some t → t ∉ s.joined ∧ t ∉ s.detached
  /-- the others are -/
  done : ∀ t, 1 ≤ t → t ≤ s.n → (∃ j o, s.objs j = some o ∧ o.thread = some t) ∨ t ∈ s.joined ∨ t ∈ s.detached
  range : ∀ t, t ∈ s.joined ∨ t ∈ s.detached → 1 ≤ t ∧ t ≤ s.n
  disj : ∀ t, t ∈ s.joined → t ∉ s.detached
  nodupJ : s.joined.Nodup
  nodupD : s.detached.Nodup
  ended : ∀ t, t ∈ s.joined → s.ended t = true
  endRange : ∀ t, s.ended t = true → 1 ≤ t ∧ t ≤ s.n
  /-- who waits, waits for another thread, whose stop was requested if it is the destructor or the assignment -/
  wait : ∀ a j k, s.pc a = some (j, k) → a ≤ s.n ∧ s.ended a = false ∧ ∃ o t, s.objs j = some o ∧ o.thread = some t ∧ t ≠ a ∧ (k ≠ .join → s.stops t = true)
  from_ : ∀ a j i, s.pc a = some (j, .assign i) → ∃ p, s.objs i = some p
  /-- an object is used by one of them -/
  excl : ∀ a b j, uses s a j → uses s b j → a = b

theorem busy_false {s : State} (hi : Inv s) {j : Nat} (h : busy s j = false) (a : Nat) : ¬ uses s a j := by
  intro hk
  unfold busy at h
  rw [List.any_eq_false] at h
  have key : ∀ x, s.pc a = some x → a ∈ List.range (s.n + 1) := by
    rintro ⟨i, k⟩ hx
    have := (hi.wait a i k hx).1
    simp; omega
  rcases hk with ⟨k, hk⟩ | ⟨i, hk⟩
  · have := h a (key _ hk)
    rw [hk] at this
    cases k <;> simp at this
  · have := h a (key _ hk)
    rw [hk] at this
    simp at this

theorem uses_upd {s : State} (a b j i : Nat) (k : Kont) (f : Nat → Option Obj) (l : List Nat) :
    (uses { s with objs := f, pc := upd s.pc a (some (i, k)), joined := l } b j ↔ if b = a then i = j ∨ k = .assign j else uses s b j) ∧
    (uses { s with objs := f, pc := upd s.pc a none, joined := l } b j → b ≠ a ∧ uses s b j) := by
  constructor
  · unfold uses upd
    by_cases h : b = a
    · simp [h]
    · simp [h]
  · unfold uses upd
    by_cases h : b = a
    · simp [h]
    · simp [h]

theorem inv_init : Inv init where
  pair := by simp [init]
  single := by simp [init]
  free := by simp [init]
  done := by simp [init]; omega
  range := by simp [init]
  disj := by simp [init]
  nodupJ := by simp [init]
  nodupD := by simp [init]
  ended := by simp [init]
  endRange := by simp [init]
  wait := by simp [init]
  from_ := by simp [init]
  excl := by simp [init, uses]


theorem inv_empty {s : State} (hi : Inv s) {j : Nat} (hj : s.objs j = none) : Inv { s with objs := upd s.objs j (some ⟨none, none⟩) } := by
  obtain ⟨h1, h2, h3, h4, h5, h6, h7, h8, h9, h10, h11, h12, h13⟩ := hi
  constructor
  case excl => exact h13
  case done =>
    intro t ht ht'
    rcases h4 t ht ht' with ⟨x, q, hx, hq⟩ | h
    · exact .inl ⟨x, q, by simp only [upd]; grind, hq⟩
    · exact .inr h
  all_goals simp only [upd, uses] at * <;> grind

theorem inv_start {s : State} (hi : Inv s) {j : Nat} (hj : s.objs j = none) :
    Inv { s with objs := upd s.objs j (some ⟨some (s.n + 1), some (s.n + 1)⟩), n := s.n + 1 } := by
  obtain ⟨h1, h2, h3, h4, h5, h6, h7, h8, h9, h10, h11, h12, h13⟩ := hi
  constructor
  case excl => exact h13
  case done =>
    intro t ht ht'
    by_cases hn : t = s.n + 1
    · exact .inl ⟨j, _, by simp [upd]; rfl, by simp [hn]⟩
    · rcases h4 t ht (by simp at ht'; omega) with ⟨x, q, hx, hq⟩ | h
      · exact .inl ⟨x, q, by simp only [upd]; grind, hq⟩
      · exact .inr h
  all_goals simp only [upd, uses] at * <;> grind

theorem inv_move {s : State} (hi : Inv s) {j i : Nat} {p : Obj} (hj : ∀ o, s.objs j = some o → o.thread = none) (hp : s.objs i = some p) (hne : j ≠ i)
    (hbj : ∀ a, ¬ uses s a j) (hb : ∀ a, ¬ uses s a i) : Inv { s with objs := upd (upd s.objs j (some p)) i (some ⟨none, none⟩) } := by
  obtain ⟨h1, h2, h3, h4, h5, h6, h7, h8, h9, h10, h11, h12, h13⟩ := hi
  constructor
  case excl => exact h13
  case done =>
    intro t ht ht'
    rcases h4 t ht ht' with ⟨x, q, hx, hq⟩ | h
    · by_cases hxi : x = i
      · exact .inl ⟨j, q, by simp only [upd]; grind, hq⟩
      · by_cases hxj : x = j
        · exact .inl ⟨i, q, by simp only [upd]; grind, hq⟩
        · exact .inl ⟨x, q, by simp only [upd]; grind, hq⟩
    · exact .inr h
  case wait =>
    intro a x k h
    obtain ⟨ha, he, q, t, hq, ht, hta, hs⟩ := h11 a x k h
    have hxj : x ≠ j := fun e => hbj a (.inl ⟨k, e ▸ h⟩)
    have hxi : x ≠ i := fun e => hb a (.inl ⟨k, e ▸ h⟩)
    exact ⟨ha, he, q, t, by simpa [upd, hxj, hxi] using hq, ht, hta, hs⟩
  case from_ =>
    intro a x y h
    obtain ⟨q, hq⟩ := h12 a x y h
    have hxj : y ≠ j := fun e => hbj a (.inr ⟨x, e ▸ h⟩)
    have hxi : y ≠ i := fun e => hb a (.inr ⟨x, e ▸ h⟩)
    exact ⟨q, by simpa [upd, hxj, hxi] using hq⟩
  all_goals simp only [upd, uses] at * <;> grind

theorem inv_swap {s : State} (hi : Inv s) {j i : Nat} {p o : Obj} (hj : s.objs j = some o) (hp : s.objs i = some p)
    (hbj : ∀ a, ¬ uses s a j) (hb : ∀ a, ¬ uses s a i) : Inv { s with objs := upd (upd s.objs j (some p)) i (some o) } := by
  obtain ⟨h1, h2, h3, h4, h5, h6, h7, h8, h9, h10, h11, h12, h13⟩ := hi
  constructor
  case excl => exact h13
  case done =>
    intro t ht ht'
    rcases h4 t ht ht' with ⟨x, q, hx, hq⟩ | h
    · by_cases hxi : x = i
      · exact .inl ⟨j, q, by simp only [upd]; grind, hq⟩
      · by_cases hxj : x = j
        · exact .inl ⟨i, q, by simp only [upd]; grind, hq⟩
        · exact .inl ⟨x, q, by simp only [upd]; grind, hq⟩
    · exact .inr h
  case wait =>
    intro a x k h
    obtain ⟨ha, he, q, t, hq, ht, hta, hs⟩ := h11 a x k h
    have hxj : x ≠ j := fun e => hbj a (.inl ⟨k, e ▸ h⟩)
    have hxi : x ≠ i := fun e => hb a (.inl ⟨k, e ▸ h⟩)
    exact ⟨ha, he, q, t, by simpa [upd, hxj, hxi] using hq, ht, hta, hs⟩
  case from_ =>
    intro a x y h
    obtain ⟨q, hq⟩ := h12 a x y h
    have hxj : y ≠ j := fun e => hbj a (.inr ⟨x, e ▸ h⟩)
    have hxi : y ≠ i := fun e => hb a (.inr ⟨x, e ▸ h⟩)
    exact ⟨q, by simpa [upd, hxj, hxi] using hq⟩
  all_goals simp only [upd, uses] at * <;> grind

theorem inv_stop {s : State} (hi : Inv s) (x : Option Nat) : Inv (requestStop s x) := by
  obtain ⟨h1, h2, h3, h4, h5, h6, h7, h8, h9, h10, h11, h12, h13⟩ := hi
  cases x with
  | none => constructor <;> assumption
  | some x =>
    constructor
    case excl => exact h13
    all_goals simp only [upd, uses, requestStop] at * <;> grind

theorem inv_enter {s : State} (hi : Inv s) {a j t : Nat} {o : Obj} {k : Kont} (ha : a ≤ s.n) (he : s.ended a = false) (ho : s.objs j = some o)
    (ht : o.thread = some t) (hne : t ≠ a) (hk : k ≠ .join → s.stops t = true) (hf : ∀ i, k = .assign i → ∃ p, s.objs i = some p)
    (hbj : ∀ b, ¬ uses s b j) (hb : ∀ i, k = .assign i → ∀ b, ¬ uses s b i) : Inv { s with pc := upd s.pc a (some (j, k)) } := by
  obtain ⟨h1, h2, h3, h4, h5, h6, h7, h8, h9, h10, h11, h12, h13⟩ := hi
  constructor
  case excl =>
    intro b c x hb' hc'
    rw [(uses_upd a b x j k s.objs s.joined).1] at hb'
    rw [(uses_upd a c x j k s.objs s.joined).1] at hc'
    grind
  case done => exact h4
  all_goals simp only [upd, uses] at * <;> grind

theorem inv_detach {s : State} (hi : Inv s) {j t : Nat} {o : Obj} (ho : s.objs j = some o)
    (ht : o.thread = some t) (hbj : ∀ b, ¬ uses s b j) :
    Inv { s with objs := upd s.objs j (some { o with thread := none }), detached := s.detached ++ [t] } := by
  obtain ⟨h1, h2, h3, h4, h5, h6, h7, h8, h9, h10, h11, h12, h13⟩ := hi
  constructor
  case excl => exact h13
  case done =>
    intro t' ht0 ht'
    rcases h4 t' ht0 ht' with ⟨x, q, hx, hq⟩ | h
    · by_cases hxi : x = j
      · exact .inr (by simp only [List.mem_append]; grind)
      · exact .inl ⟨x, q, by simp only [upd]; grind, hq⟩
    · exact .inr (by simp only [List.mem_append]; grind)
  all_goals simp only [upd, uses] at * <;> grind

theorem inv_destroy {s : State} (hi : Inv s) {j : Nat} {o : Obj} (ho : s.objs j = some o)
    (ht : o.thread = none) (hbj : ∀ b, ¬ uses s b j) : Inv { s with objs := upd s.objs j none } := by
  obtain ⟨h1, h2, h3, h4, h5, h6, h7, h8, h9, h10, h11, h12, h13⟩ := hi
  constructor
  case excl => exact h13
  case done =>
    intro t ht ht'
    rcases h4 t ht ht' with ⟨x, q, hx, hq⟩ | h
    · exact .inl ⟨x, q, by simp only [upd]; grind, hq⟩
    · exact .inr h
  all_goals simp only [upd, uses] at * <;> grind

theorem inv_finish {s : State} (hi : Inv s) {a : Nat} (h0 : a ≠ 0) (ha : a ≤ s.n) (hpc : s.pc a = none) : Inv { s with ended := upd s.ended a true } := by
  obtain ⟨h1, h2, h3, h4, h5, h6, h7, h8, h9, h10, h11, h12, h13⟩ := hi
  constructor
  case excl => exact h13
  case done => exact h4
  all_goals simp only [upd, uses] at * <;> grind

theorem inv_joined {s : State} (hi : Inv s) {a j t : Nat} {o : Obj} {k : Kont} (hpc : s.pc a = some (j, k)) (ho : s.objs j = some o)
    (ht : o.thread = some t) (he : s.ended t = true) :
    Inv { s with objs := upd s.objs j (some { o with thread := none }), pc := upd s.pc a none, joined := s.joined ++ [t] } := by
  obtain ⟨h1, h2, h3, h4, h5, h6, h7, h8, h9, h10, h11, h12, h13⟩ := hi
  constructor
  case excl =>
    intro b c x hb' hc'
    exact h13 b c x ((uses_upd a b x j k _ _).2 hb').2 ((uses_upd a c x j k _ _).2 hc').2
  case done =>
    intro t' ht0 ht'
    rcases h4 t' ht0 ht' with ⟨x, q, hx, hq⟩ | h
    · by_cases hxi : x = j
      · exact .inr (by simp only [List.mem_append]; grind)
      · exact .inl ⟨x, q, by simp only [upd]; grind, hq⟩
    · exact .inr (by simp only [List.mem_append]; grind)
  case wait =>
    intro b x k' h
    by_cases hba : b = a
    · simp [upd, hba] at h
    · simp only [upd, hba, if_false] at h
      obtain ⟨ha, he, q, t', hq, ht, hta, hs⟩ := h11 b x k' h
      have hxj : x ≠ j := fun e => hba (h13 b a j (.inl ⟨k', e ▸ h⟩) (.inl ⟨k, hpc⟩))
      exact ⟨ha, he, q, t', by simpa [upd, hxj] using hq, ht, hta, hs⟩
  all_goals simp only [upd, uses] at * <;> grind

/-- After the thread has been joined nobody uses the objects of the joining operation. -/
theorem quiet {s : State} (hi : Inv s) {a j t : Nat} {o : Obj} {k : Kont} (hpc : s.pc a = some (j, k)) (x : Nat) (hx : x = j ∨ k = .assign x) (b : Nat) :
    ¬ uses { s with objs := upd s.objs j (some { o with thread := none }), pc := upd s.pc a none, joined := s.joined ++ [t] } b x := by
  intro h
  obtain ⟨hba, hb⟩ := (uses_upd a b x j k _ _).2 h
  refine hba (hi.excl b a x hb ?_)
  rcases hx with rfl | rfl
  · exact .inl ⟨k, hpc⟩
  · exact .inr ⟨j, hpc⟩

/-- What a step does. -/
theorem step_inv {s s' : State} (hi : Inv s) {a : Nat} {x : Act} (hs : step s a x = .ok s') : Inv s' := by
  cases x with
  | wake =>
    simp only [step, if_true, wake] at hs
    split at hs <;> try simp at hs
    rename_i j k hpc
    split at hs <;> try simp at hs
    rename_i o ho
    split at hs <;> try simp at hs
    rename_i t ht
    split at hs <;> try (simp at hs; done)
    rename_i he
    have h1 := inv_joined hi hpc ho ht he
    have hq := quiet (t := t) (o := o) hi hpc
    cases k with
    | join => simp at hs; exact hs ▸ h1
    | dtor =>
      simp only [doDestroy, upd, if_true] at hs
      simp at hs
      exact hs ▸ inv_destroy h1 (o := { o with thread := none }) (by simp [upd]) rfl (hq j (.inl rfl))
    | assign i =>
      simp only [doAssign] at hs
      split at hs <;> try simp at hs
      rename_i o' p' h2 h3
      split at hs <;> try simp at hs
      split at hs <;> simp at hs
      · exact hs ▸ h1
      · rename_i hne
        exact hs ▸ inv_move h1 (by simp [upd]) h3 hne (hq j (.inl rfl)) (hq i (.inr rfl))
  | empty j =>
    simp only [step, call, reduceCtorEq, if_false] at hs
    split at hs <;> try simp at hs
    split at hs <;> try simp at hs
    rename_i h; exact hs ▸ inv_empty hi h
  | start j =>
    simp only [step, call, reduceCtorEq, if_false] at hs
    split at hs <;> try simp at hs
    split at hs <;> try simp at hs
    rename_i h; exact hs ▸ inv_start hi h
  | moveCtor j i =>
    simp only [step, call, reduceCtorEq, if_false] at hs
    split at hs <;> try simp at hs
    split at hs <;> try simp at hs
    rename_i hj hp
    split at hs <;> try (simp at hs; done)
    rename_i hb; simp at hb; try simp at hs
    have hne : j ≠ i := by rintro rfl; simp [hj] at hp
    refine hs ▸ inv_move hi (by simp [hj]) hp hne ?_ (busy_false hi hb)
    rintro b (⟨k, h⟩ | ⟨x, h⟩)
    · obtain ⟨_, _, o, t, ho, _⟩ := hi.wait b j k h; simp [hj] at ho
    · obtain ⟨o, ho⟩ := hi.from_ b x j h; simp [hj] at ho
  | swap j i =>
    simp only [step, call, reduceCtorEq, if_false] at hs
    split at hs <;> try simp at hs
    split at hs <;> try simp at hs
    rename_i hj hp
    split at hs <;> try (simp at hs; done)
    rename_i hb; simp at hb; obtain ⟨hb, hb'⟩ := hb; try simp at hs
    exact hs ▸ inv_swap hi hj hp (busy_false hi hb) (busy_false hi hb')
  | stop j =>
    simp only [step, call, reduceCtorEq, if_false] at hs
    split at hs <;> try simp at hs
    split at hs <;> try simp at hs
    split at hs <;> try (simp at hs; done)
    simp at hs; exact hs ▸ inv_stop hi _
  | join j =>
    simp only [step, call, reduceCtorEq, if_false] at hs
    split at hs <;> try simp at hs
    rename_i hr
    simp at hr
    split at hs <;> try simp at hs
    rename_i o ho
    split at hs <;> try (simp at hs; done)
    rename_i hb; simp at hb; try simp at hs
    split at hs <;> try simp at hs
    rename_i hth
    obtain ⟨t, ht⟩ := Option.isSome_iff_exists.mp hth
    unfold enterJoin at hs
    split at hs <;> simp at hs
    rename_i hne
    exact hs ▸ inv_enter hi (by omega) hr.2.1 ho ht (by rw [ht] at hne; simpa using hne) (by simp) (by simp) (busy_false hi hb) (by simp)
  | detach j =>
    simp only [step, call, reduceCtorEq, if_false] at hs
    split at hs <;> try simp at hs
    split at hs <;> try simp at hs
    rename_i o ho
    split at hs <;> try (simp at hs; done)
    rename_i hb; simp at hb; try simp at hs
    split at hs <;> try simp at hs
    rename_i t ht
    exact hs ▸ inv_detach hi ho ht (busy_false hi hb)
  | destroy j =>
    simp only [step, call, reduceCtorEq, if_false] at hs
    split at hs <;> try simp at hs
    rename_i hr
    simp at hr
    split at hs <;> try simp at hs
    rename_i o ho
    split at hs <;> try (simp at hs; done)
    rename_i hb; simp at hb; try simp at hs
    split at hs
    · rename_i hth
      obtain ⟨t, ht⟩ := Option.isSome_iff_exists.mp hth
      unfold enterJoin at hs
      split at hs <;> simp at hs
      rename_i hne
      have hsrc := (hi.pair j o t ho ht).1
      rw [hsrc] at hs
      refine hs ▸ inv_enter (inv_stop hi (some t)) (o := o) (t := t) ?_ hr.2.1 ho ht (by rw [ht] at hne; simpa using hne) ?_ (by simp) (busy_false hi hb) (by simp)
      · simp [requestStop]; omega
      · simp [requestStop, upd]
    · rename_i hth
      simp only [doDestroy, ho, hth] at hs
      simp at hs
      exact hs ▸ inv_destroy hi ho (by simpa using hth) (busy_false hi hb)
  | assign j i =>
    simp only [step, call, reduceCtorEq, if_false] at hs
    split at hs <;> try simp at hs
    rename_i hr
    simp at hr
    split at hs <;> try simp at hs
    rename_i o p ho hp
    split at hs <;> try (simp at hs; done)
    rename_i hb; simp at hb; obtain ⟨hb, hb'⟩ := hb; try simp at hs
    split at hs
    · rename_i hth
      obtain ⟨t, ht⟩ := Option.isSome_iff_exists.mp hth
      unfold enterJoin at hs
      split at hs <;> simp at hs
      rename_i hne
      have hsrc := (hi.pair j o t ho ht).1
      rw [hsrc] at hs
      refine hs ▸ inv_enter (inv_stop hi (some t)) (o := o) (t := t) ?_ hr.2.1 ho ht (by rw [ht] at hne; simpa using hne) ?_ ?_ (busy_false hi hb) ?_
      · simp [requestStop]; omega
      · simp [requestStop, upd]
      · intro x hx; cases hx; exact ⟨p, hp⟩
      · intro x hx; cases hx; exact busy_false hi hb'
    · rename_i hth
      simp only [doAssign, ho, hp, hth] at hs
      simp at hs
      split at hs <;> simp at hs
      · exact hs ▸ hi
      · rename_i hne
        exact hs ▸ inv_move hi (by simp [ho]; simpa using hth) hp hne (busy_false hi hb) (busy_false hi hb')
  | finish =>
    simp only [step, call, reduceCtorEq, if_false] at hs
    split at hs <;> try simp at hs
    rename_i hr
    simp at hr
    split at hs <;> try (simp at hs; done)
    rename_i h0; simp at hs; exact hs ▸ inv_finish hi h0 (by omega) hr.2.2

theorem run_inv : ∀ (l : List (Nat × Act)) (s s' : State), Inv s → runAll s l = .ok s' → Inv s'
  | [], s, s', hi, h => by simp [runAll] at h; exact h ▸ hi
  | (a, x) :: l, s, s', hi, h => by
    simp only [runAll] at h
    split at h
    · rename_i s1 h1; exact run_inv l s1 s' (step_inv hi h1) h
    · exact run_inv l s s' hi h
    · simp at h

theorem busy_of {s : State} {j : Nat} (h : ∀ a, ¬ uses s a j) : busy s j = false := by
  unfold busy
  rw [List.any_eq_false]
  intro a _
  have ha := h a
  simp only [uses, not_or, not_exists] at ha
  split
  · next i k e =>
    simp only [Bool.or_eq_true, beq_iff_eq, not_or]
    exact ⟨fun hij => ha.1 _ (by rw [e, hij]), fun hkj => ha.2 i (by rw [e, hkj])⟩
  · next i k _ e =>
    simp only [beq_iff_eq]
    exact fun hij => ha.1 _ (by rw [e, hij])
  · simp

/-- A stop flag is set only through an object with the stop source. -/
theorem step_stops {s s' : State} {a : Nat} {x : Act} {t : Nat} (h : step s a x = .ok s') : s'.stops t = s.stops t ∨
    ∃ j o, s.objs j = some o ∧ o.src = some t ∧ (x = .stop j ∨ x = .destroy j ∨ ∃ i, x = .assign j i) := by
  have hd : ∀ (s s' : State) j, doDestroy s j = .ok s' → s'.stops t = s.stops t := by
    intro s s' j h
    simp only [doDestroy] at h
    split at h <;> try (simp at h; done)
    split at h <;> simp at h
    subst h; rfl
  have hm : ∀ (s s' : State) j i, doAssign s j i = .ok s' → s'.stops t = s.stops t := by
    intro s s' j i h
    simp only [doAssign] at h
    split at h <;> try (simp at h; done)
    split at h <;> try (simp at h; done)
    split at h <;> simp at h <;> subst h <;> rfl
  have hr : ∀ (s : State) (o : Obj), (requestStop s o.src).stops t = s.stops t ∨ o.src = some t := by
    intro s o
    cases e : o.src with
    | none => left; rfl
    | some y =>
      by_cases hy : y = t
      · right; rw [hy]
      · left; simp only [requestStop, upd]; rw [if_neg (by omega)]
  cases x with
  | wake =>
    left
    simp only [step, if_true, wake] at h
    split at h <;> try (simp at h; done)
    split at h <;> try (simp at h; done)
    split at h <;> try (simp at h; done)
    split at h <;> try (simp at h; done)
    split at h
    · simp at h; subst h; rfl
    · have := hd _ _ _ h; exact this
    · have := hm _ _ _ _ h; exact this
  | stop j =>
    simp only [step, call, reduceCtorEq, if_false] at h
    split at h <;> try (simp at h; done)
    split at h <;> try (simp at h; done)
    next o ho =>
    split at h <;> simp at h
    subst h
    rcases hr s o with h | h
    · exact .inl h
    · exact .inr ⟨j, o, ho, h, .inl rfl⟩
  | destroy j =>
    simp only [step, call, reduceCtorEq, if_false] at h
    split at h <;> try (simp at h; done)
    split at h <;> try (simp at h; done)
    next o ho =>
    split at h <;> try (simp at h; done)
    split at h
    · simp only [enterJoin] at h
      split at h <;> simp at h
      subst h
      rcases hr s o with h | h
      · exact .inl h
      · exact .inr ⟨j, o, ho, h, .inr (.inl rfl)⟩
    · exact .inl (hd _ _ _ h)
  | assign j i =>
    simp only [step, call, reduceCtorEq, if_false] at h
    split at h <;> try (simp at h; done)
    split at h <;> try (simp at h; done)
    next o p ho hp =>
    split at h <;> try (simp at h; done)
    split at h
    · simp only [enterJoin] at h
      split at h <;> simp at h
      subst h
      rcases hr s o with h | h
      · exact .inl h
      · exact .inr ⟨j, o, ho, h, .inr (.inr ⟨i, rfl⟩)⟩
    · exact .inl (hm _ _ _ _ h)
  | _ =>
    left
    simp only [step, call, reduceCtorEq, if_false, enterJoin] at h
    repeat' split at h
    all_goals try (simp at h; done)
    all_goals simp at h; subst h; rfl

theorem stop_asked (t : Nat) : ∀ (l : List (Nat × Act)) (s₀ s : State), s₀.stops t = false → runAll s₀ l = .ok s → s.stops t = true →
    ∃ l₁ a x l₂ s₁ s₂ j o, l = l₁ ++ (a, x) :: l₂ ∧ runAll s₀ l₁ = .ok s₁ ∧ step s₁ a x = .ok s₂ ∧ s₁.objs j = some o ∧ o.src = some t ∧
      (x = .stop j ∨ x = .destroy j ∨ ∃ i, x = .assign j i)
  | [], s₀, s, h0, h, hs => by
    simp only [runAll, Res.ok.injEq] at h
    subst h
    rw [h0] at hs; cases hs
  | (a, x) :: l, s₀, s, h0, h, hs => by
    simp only [runAll] at h
    split at h
    · next s₁ e =>
      by_cases ht : s₁.stops t = true
      · rcases step_stops (t := t) e with h' | ⟨j, o, h1, h2, h3⟩
        · rw [h', h0] at ht; cases ht
        · exact ⟨[], a, x, l, s₀, s₁, j, o, rfl, rfl, e, h1, h2, h3⟩
      · obtain ⟨l₁, b, y, l₂, s₂, s₃, j, o, e1, e2, r⟩ := stop_asked t l s₁ s (by simpa using ht) h hs
        exact ⟨(a, x) :: l₁, b, y, l₂, s₂, s₃, j, o, by simp [e1], by simp only [runAll, e, e2], r⟩
    · next e' e =>
      obtain ⟨l₁, b, y, l₂, s₂, s₃, j, o, e1, e2, r⟩ := stop_asked t l s₀ s h0 h hs
      exact ⟨(a, x) :: l₁, b, y, l₂, s₂, s₃, j, o, by simp [e1], by simp only [runAll, e, e2], r⟩
    · cases h

end Verif.JThread
