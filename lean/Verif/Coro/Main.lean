import Verif.Coro.Steps

namespace Verif.Coro

/-- The outcome is not undefined, and the invariant holds if there is a next state. -/
def Safe (r : Res State) : Prop := r ≠ .ub ∧ ∀ s', r = .ok s' → Inv s' [] none

theorem safe_throw (e : Exn) : Safe (.throw e) := ⟨by simp, fun s' h => by cases h⟩

theorem safe_ok (s : State) (h : Inv s [] none) : Safe (.ok s) := ⟨by simp, fun s' h' => by cases h'; exact h⟩

theorem canOwn_spec (s : State) (o : Option Nat) (h : canOwn s o = true) (c : Nat) (hc : o = some c) :
    ∃ fr, s.frames c = some fr ∧ fr.phase = .running := by
  subst hc
  simp only [canOwn] at h
  cases hf : s.frames c with
  | none => rw [hf] at h; cases h
  | some fr => rw [hf] at h; exact ⟨fr, rfl, by simpa using h⟩

theorem held_cons_none (v : Var) (vs : List Var) : held (v :: vs) none = v.handle.toList ++ held vs none := by
  unfold held
  have h3 : (some v.name != none) = true := by simp
  rw [List.filter_cons, h3, if_pos rfl]
  cases hh : v.handle <;> simp [hh]

/-- The names stay distinct when one that is not there is added. -/
theorem names_cons (s : State) (x : Nat) (o h : Option Nat) (hx : lookup s x = none) (hn : (s.vars.map (·.name)).Nodup) :
    (((⟨x, o, h⟩ : Var) :: s.vars).map (·.name)).Nodup := by
  rw [List.map_cons, List.nodup_cons]
  refine ⟨?_, hn⟩
  intro hm
  obtain ⟨v, hv, hvx⟩ := List.mem_map.1 hm
  exact lookup_none s x hx v hv hvx

theorem safe_declare (s : State) (x : Nat) (o : Option Nat) (h : Inv s [] none) : Safe (step s (.declare x o)) := by
  simp only [step]
  split
  · exact safe_throw _
  · rename_i hc
    simp only [not_or, Bool.not_eq_true, Option.isSome_eq_false_iff, Option.isNone_iff_eq_none, Bool.not_eq_false] at hc
    refine safe_ok _ (inv_vars s _ h (names_cons s x o none hc.1 h.names) ?_ ?_ ?_ ?_)
    · rw [held_cons_none]; simpa using h.nodup
    · rw [held_cons_none]; simp
    · intro v hv c hvc
      rcases List.mem_cons.1 hv with rfl | hv
      · obtain ⟨fr, h1, h2⟩ := canOwn_spec s o hc.2 c hvc
        exact ⟨fr, h1, by rw [h2]; simp⟩
      · exact h.owners v hv c hvc
    · intro v hv _ _ _ _; exact List.mem_cons_of_mem _ hv

theorem safe_start (s : State) (k : Kind) (x : Nat) (o : Option Nat) (h : Inv s [] none) : Safe (step s (.start k x o)) := by
  simp only [step]
  split
  · exact safe_throw _
  · rename_i hc
    simp only [not_or, Bool.not_eq_true, Option.isSome_eq_false_iff, Option.isNone_iff_eq_none, Bool.not_eq_false] at hc
    refine safe_ok _ ?_
    obtain ⟨hbound, hnames, hnodup, halive, howned, howners, hawaited, hwaits, hresults, hprocess, hlog, hexempt⟩ := h
    simp only [List.nil_append] at hnodup halive
    have hlt : ∀ f fr, s.frames f = some fr → f ≠ s.next := fun f fr hf => Nat.ne_of_lt (hbound f fr hf)
    have hnone : s.frames s.next = none := by
      cases hf : s.frames s.next with
      | none => rfl
      | some fr => exact absurd rfl (hlt _ fr hf)
    have hnew : (setFrame s s.next (some ⟨k, .running, none, true, none⟩)).frames s.next = some ⟨k, .running, none, true, none⟩ := by
      simp [setFrame]
    have hold : ∀ f fr, s.frames f = some fr →
        (setFrame s s.next (some ⟨k, .running, none, true, none⟩)).frames f = some fr := by
      intro f fr hf
      simp only [setFrame]; rw [if_neg (hlt f fr hf)]; exact hf
    have hinv : ∀ f fr, (setFrame s s.next (some ⟨k, .running, none, true, none⟩)).frames f = some fr →
        (f = s.next ∧ fr = ⟨k, .running, none, true, none⟩) ∨ (f ≠ s.next ∧ s.frames f = some fr) := by
      intro f fr hf
      simp only [setFrame] at hf
      split at hf
      · rename_i e; cases hf; exact .inl ⟨e, rfl⟩
      · rename_i e; exact .inr ⟨e, hf⟩
    refine ⟨?_, names_cons s x o _ hc.1 hnames, ?_, ?_, ?_, ?_, ?_, ?_, ?_, ?_, ?_, fun y hy => by cases hy⟩
    · intro f fr hf
      rcases hinv f fr hf with ⟨rfl, _⟩ | ⟨_, h1⟩
      · exact Nat.lt_succ_self _
      · exact Nat.lt_succ_of_lt (hbound f fr h1)
    · show ([] ++ held (⟨x, o, some s.next⟩ :: s.vars) none).Nodup
      rw [held_cons_none, List.nil_append]
      show (s.next :: held s.vars none).Nodup
      rw [List.nodup_cons]
      refine ⟨?_, hnodup⟩
      intro hm
      obtain ⟨fr, hf⟩ := halive _ hm
      exact hlt _ fr hf rfl
    · intro f hf
      have hf' : f ∈ held (⟨x, o, some s.next⟩ :: s.vars) none := by simpa using hf
      rw [held_cons_none] at hf'
      rcases List.mem_append.1 hf' with h1 | h1
      · have : f = s.next := by simpa using h1
        subst this; exact ⟨_, hnew⟩
      · obtain ⟨fr, h2⟩ := halive f h1
        exact ⟨fr, hold f fr h2⟩
    · intro f fr hf hfr
      have hf' : f ∈ held (⟨x, o, some s.next⟩ :: s.vars) none := hf
      rw [held_cons_none] at hf'
      rcases hinv f fr hfr with ⟨rfl, rfl⟩ | ⟨h1, h2⟩
      · rfl
      · rcases List.mem_append.1 hf' with h3 | h3
        · have : f = s.next := by simpa using h3
          exact absurd this h1
        · exact howned f fr h3 h2
    · intro v hv c hvc
      rcases List.mem_cons.1 hv with rfl | hv
      · obtain ⟨fr, h1, h2⟩ := canOwn_spec s o hc.2 c hvc
        exact ⟨fr, hold c fr h1, by rw [h2]; simp⟩
      · obtain ⟨fr, h1, h2⟩ := howners v hv c hvc
        exact ⟨fr, hold c fr h1, h2⟩
    · intro t tr c ht hca hph
      rcases hinv t tr ht with ⟨rfl, rfl⟩ | ⟨h1, h2⟩
      · cases hca
      · rcases hawaited t tr c h2 hca hph with ⟨cr, h3, h4⟩ | h3
        · exact .inl ⟨cr, hold c cr h3, h4⟩
        · cases h3
    · intro c cr t hcf hph
      rcases hinv c cr hcf with ⟨rfl, rfl⟩ | ⟨h1, h2⟩
      · cases hph
      · obtain ⟨⟨tr, h3, h4, h5⟩, v, hv, h6, h7, h8⟩ := hwaits c cr t h2 hph
        exact ⟨⟨tr, hold t tr h3, h4, h5⟩, v, List.mem_cons_of_mem _ hv, h6, h7, h8⟩
    · intro f fr hf
      rcases hinv f fr hf with ⟨rfl, rfl⟩ | ⟨h1, h2⟩
      · intro hc; cases hc
      · exact hresults f fr h2
    · intro f fr hf
      rcases hinv f fr hf with ⟨rfl, rfl⟩ | ⟨h1, h2⟩
      · intro _; rfl
      · exact hprocess f fr h2
    · intro f
      show s.log.count (.destroyed f) = _
      rw [hlog f]
      by_cases e : f = s.next
      · subst e; simp [setFrame]
      · have : f < s.next + 1 ↔ f < s.next := by omega
        simp [setFrame, e, this]

/-- Emptying a variable and giving its handle to another one: the handles held stay distinct. -/
theorem nodup_of_inj (s : State) (vs : List Var) (hn : (vs.map (·.name)).Nodup) (g : Var → Option Var)
    (h : Inv s [] none)
    (hg : ∀ v ∈ vs, ∀ f, v.handle = some f → ∃ w ∈ s.vars, g v = some w ∧ w.handle = some f)
    (hinj : ∀ v ∈ vs, ∀ v' ∈ vs, ∀ w, g v = some w → g v' = some w → v.handle ≠ none → v'.handle ≠ none → v.name = v'.name) :
    (held vs none).Nodup ∧ ∀ f ∈ held vs none, f ∈ held s.vars none := by
  constructor
  · rw [held_nodup_iff _ _ hn]
    intro v hv w hw _ _ f hvf hwf
    obtain ⟨a, ha, h1, h2⟩ := hg v hv f hvf
    obtain ⟨b, hb, h3, h4⟩ := hg w hw f hwf
    have := unique s h a b ha hb f h2 h4
    subst this
    exact hinj v hv w hw a h1 h3 (by rw [hvf]; simp) (by rw [hwf]; simp)
  · intro f hf
    obtain ⟨v, hv, _, hvf⟩ := (mem_held _ _ _).1 hf
    obtain ⟨a, ha, _, h2⟩ := hg v hv f hvf
    exact (mem_held _ _ _).2 ⟨a, ha, by simp, h2⟩

/-- A variable of a waiting coroutine is not accessible. -/
theorem not_accessible (s : State) (x : Nat) (ha : Accessible s x) (v : Var) (hv : v ∈ s.vars) (c t : Nat)
    (ho : v.owner = some c) (hw : Waits s c t) : v.name ≠ x := by
  intro e
  obtain ⟨fr, h1, h2⟩ := hw
  rcases ha v hv e with h0 | ⟨c', fr', h3, h4, h5⟩
  · rw [ho] at h0; cases h0
  · rw [ho] at h3; cases h3
    rw [h1] at h4; cases h4
    rw [h2] at h5; cases h5

theorem safe_moveCtor (s : State) (x : Nat) (o : Option Nat) (y : Nat) (h : Inv s [] none) (ha : Accessible s y) :
    Safe (step s (.moveCtor x o y)) := by
  simp only [step]
  split
  · exact safe_throw _
  · rename_i hc
    simp only [not_or, Bool.not_eq_true, Option.isSome_eq_false_iff, Option.isNone_iff_eq_none, Bool.not_eq_false] at hc
    cases hy : lookup s y with
    | none => exact safe_throw _
    | some v =>
      obtain ⟨hv, hvy⟩ := lookup_mem s y v hy
      have hxy : x ≠ y := by
        rintro rfl; rw [hc.1] at hy; cases hy
      have hn : (((⟨x, o, v.handle⟩ : Var) :: (setHandle s y none).vars).map (·.name)).Nodup := by
        rw [List.map_cons, names_setHandle, List.nodup_cons]
        refine ⟨?_, h.names⟩
        intro hm
        obtain ⟨w, hw, hwx⟩ := List.mem_map.1 hm
        exact lookup_none s x hc.1 w hw hwx
      have key := nodup_of_inj s _ hn (fun w => if w.name = x then some v else if w.name = y then none else some w) h
        (by
          intro w hw f hf
          rcases List.mem_cons.1 hw with rfl | hw
          · exact ⟨v, hv, by simp, hf⟩
          · obtain ⟨a, ha', rfl⟩ := (mem_setHandle _ _ _ _).1 hw
            by_cases e : a.name = y
            · rw [if_pos e] at hf; cases hf
            · rw [if_neg e] at hf ⊢
              have : a.name ≠ x := lookup_none s x hc.1 a ha'
              exact ⟨a, ha', by simp [this, e], hf⟩)
        (by
          intro a ha' b hb w h1 h2 hna hnb
          rcases List.mem_cons.1 ha' with rfl | ha' <;> rcases List.mem_cons.1 hb with rfl | hb
          · rfl
          · simp only [if_true, Option.some.injEq] at h1
            subst h1
            obtain ⟨b', hb', rfl⟩ := (mem_setHandle _ _ _ _).1 hb
            by_cases e : b'.name = y
            · rw [if_pos e] at hnb; exact absurd rfl hnb
            · rw [if_neg e] at h2
              have h3 : b'.name ≠ x := lookup_none s x hc.1 b' hb'
              simp only [h3, e, if_false, Option.some.injEq] at h2
              rw [h2] at e; exact absurd hvy e
          · simp only [if_true, Option.some.injEq] at h2
            subst h2
            obtain ⟨b', hb', rfl⟩ := (mem_setHandle _ _ _ _).1 ha'
            by_cases e : b'.name = y
            · rw [if_pos e] at hna; exact absurd rfl hna
            · rw [if_neg e] at h1
              have h3 : b'.name ≠ x := lookup_none s x hc.1 b' hb'
              simp only [h3, e, if_false, Option.some.injEq] at h1
              rw [h1] at e; exact absurd hvy e
          · obtain ⟨a', ha1, rfl⟩ := (mem_setHandle _ _ _ _).1 ha'
            obtain ⟨b', hb', rfl⟩ := (mem_setHandle _ _ _ _).1 hb
            by_cases ea : a'.name = y
            · rw [if_pos ea] at hna; exact absurd rfl hna
            · by_cases eb : b'.name = y
              · rw [if_pos eb] at hnb; exact absurd rfl hnb
              · rw [if_neg ea] at h1 ⊢
                rw [if_neg eb] at h2 ⊢
                have h3 : a'.name ≠ x := lookup_none s x hc.1 a' ha1
                have h4 : b'.name ≠ x := lookup_none s x hc.1 b' hb'
                simp only [h3, ea, if_false, Option.some.injEq] at h1
                simp only [h4, eb, if_false, Option.some.injEq] at h2
                rw [h1, h2])
      refine safe_ok _ (inv_vars s _ h hn key.1 key.2 ?_ ?_)
      · intro w hw c hwc
        rcases List.mem_cons.1 hw with rfl | hw
        · obtain ⟨fr, h1, h2⟩ := canOwn_spec s o hc.2 c hwc
          exact ⟨fr, h1, by rw [h2]; simp⟩
        · obtain ⟨a, ha', rfl⟩ := (mem_setHandle _ _ _ _).1 hw
          refine h.owners a ha' c ?_
          by_cases e : a.name = y
          · rw [if_pos e] at hwc; exact hwc
          · rw [if_neg e] at hwc; exact hwc
      · intro w hw c t hwo hwt
        refine List.mem_cons_of_mem _ ?_
        rw [mem_setHandle]
        exact ⟨w, hw, by rw [if_neg (not_accessible s y ha w hw c t hwo hwt)]⟩

/-- After `free` the accessible variables are those before. -/
theorem accessible_free (s s' : State) (x y : Nat)
    (hrun : ∀ f fr, s.frames f = some fr → fr.phase = .running → s'.frames f = some fr)
    (hvars : ∀ v, v ∈ s'.vars ↔ ∃ w ∈ s.vars, (∀ c, w.owner = some c → s'.frames c ≠ none) ∧
        v = if w.name = x then { w with handle := none } else w) (ha : Accessible s y) : Accessible s' y := by
  intro v hv hvy
  obtain ⟨w, hw, _, rfl⟩ := (hvars v).1 hv
  have hwn : (if w.name = x then { w with handle := none } else w : Var).name = w.name := by split <;> rfl
  have hwo : (if w.name = x then { w with handle := none } else w : Var).owner = w.owner := by split <;> rfl
  rw [hwo]
  rcases ha w hw (hwn ▸ hvy) with h0 | ⟨c, fr, h1, h2, h3⟩
  · exact .inl h0
  · exact .inr ⟨c, fr, h1, hrun c fr h2 h3, h3⟩

theorem safe_moveAssign (s : State) (x y : Nat) (h : Inv s [] none) (hax : Accessible s x) (hay : Accessible s y) :
    Safe (step s (.moveAssign x y)) := by
  simp only [step]
  cases hy : lookup s y with
  | none => exact safe_throw _
  | some v0 =>
    obtain ⟨hv0, hv0y⟩ := lookup_mem s y v0 hy
    simp only []
    rcases free_inv s x h hax with h1 | h1 | ⟨s1, h1, hi, hnx, hempty, hsub, hrun, hvars, _⟩
    · rw [h1]; exact safe_throw _
    · rw [h1]; exact safe_throw _
    · rw [h1, Res.ok_bind]
      -- y is still there
      have hin : ∃ v, lookup s1 y = some v := by
        have hm : (if v0.name = x then { v0 with handle := none } else v0 : Var) ∈ s1.vars := by
          rw [hvars]
          refine ⟨v0, hv0, ?_, rfl⟩
          intro c hc
          rcases hay v0 hv0 hv0y with h0 | ⟨c', fr, h2, h3, h4⟩
          · rw [hc] at h0; cases h0
          · rw [hc] at h2; cases h2
            rw [hrun c fr h3 h4]; simp
        refine lookup_of_mem s1 y _ hm ?_
        split <;> exact hv0y
      obtain ⟨v, hv⟩ := hin
      simp only [hv]
      obtain ⟨hvm, hvy⟩ := lookup_mem s1 y v hv
      have hay1 := accessible_free s s1 x y hrun hvars hay
      have hax1 := accessible_free s s1 x x hrun hvars hax
      have hn : ((setHandle (setHandle s1 y none) x (if x = y then none else v.handle)).vars.map (·.name)).Nodup := by
        rw [names_setHandle, names_setHandle]; exact hi.names
      have hmem : ∀ w, w ∈ (setHandle (setHandle s1 y none) x (if x = y then none else v.handle)).vars ↔
          ∃ a ∈ s1.vars, w = if a.name = x then { a with handle := if x = y then none else v.handle }
            else if a.name = y then { a with handle := none } else a := by
        intro w
        rw [mem_setHandle]
        constructor
        · rintro ⟨b, hb, rfl⟩
          obtain ⟨a, ha, rfl⟩ := (mem_setHandle _ _ _ _).1 hb
          refine ⟨a, ha, ?_⟩
          by_cases e1 : a.name = y
          · rw [if_pos e1]
          · rw [if_neg e1]
        · rintro ⟨a, ha, rfl⟩
          refine ⟨if a.name = y then { a with handle := none } else a, (mem_setHandle _ _ _ _).2 ⟨a, ha, rfl⟩, ?_⟩
          by_cases e1 : a.name = y
          · rw [if_pos e1]
          · rw [if_neg e1]
      have key := nodup_of_inj s1 _ hn
        (fun w => if w.name = x then (if x = y then none else some v) else if w.name = y then none else some w) hi
        (by
          intro w hw f hf
          obtain ⟨a, ha, rfl⟩ := (hmem w).1 hw
          by_cases e1 : a.name = x
          · rw [if_pos e1] at hf ⊢
            by_cases e2 : x = y
            · rw [if_pos e2] at hf; cases hf
            · rw [if_neg e2] at hf
              exact ⟨v, hvm, by simp only [if_pos e1, if_neg e2], hf⟩
          · rw [if_neg e1] at hf ⊢
            by_cases e2 : a.name = y
            · rw [if_pos e2] at hf; cases hf
            · rw [if_neg e2] at hf ⊢
              exact ⟨a, ha, by simp only [if_neg e1, if_neg e2], hf⟩)
        (by
          have hname : ∀ a : Var, (if a.name = x then { a with handle := if x = y then none else v.handle }
            else if a.name = y then { a with handle := none } else a : Var).name = a.name := by
            intro a; split
            · rfl
            · split <;> rfl
          intro w1 hw1 w2 hw2 w h1 h2 hn1 hn2
          obtain ⟨a, ha, rfl⟩ := (hmem w1).1 hw1
          obtain ⟨b, hb, rfl⟩ := (hmem w2).1 hw2
          simp only [hname] at h1 h2 ⊢
          by_cases ea : a.name = x
          · by_cases eb : b.name = x
            · rw [ea, eb]
            · simp only [if_pos ea] at h1
              split at h1
              · cases h1
              · cases h1
                simp only [if_neg eb] at h2
                split at h2
                · cases h2
                · rename_i eb2
                  simp only [Option.some.injEq] at h2
                  rw [h2] at eb2; exact absurd hvy eb2
          · simp only [if_neg ea] at h1
            split at h1
            · cases h1
            · rename_i ea2
              simp only [Option.some.injEq] at h1
              by_cases eb : b.name = x
              · simp only [if_pos eb] at h2
                split at h2
                · cases h2
                · cases h2
                  rw [h1] at ea2; exact absurd hvy ea2
              · simp only [if_neg eb] at h2
                split at h2
                · cases h2
                · rename_i eb2
                  simp only [Option.some.injEq] at h2
                  rw [h1, h2])
      refine safe_ok _ (inv_vars s1 _ hi hn key.1 key.2 ?_ ?_)
      · intro w hw c hwc
        obtain ⟨a, ha, rfl⟩ := (hmem w).1 hw
        refine hi.owners a ha c ?_
        revert hwc
        split
        · exact id
        · split <;> exact id
      · intro w hw c t hwo hwt
        refine (hmem w).2 ⟨w, hw, ?_⟩
        rw [if_neg (not_accessible s1 x hax1 w hw c t hwo hwt), if_neg (not_accessible s1 y hay1 w hw c t hwo hwt)]

theorem safe_drop (s : State) (x : Nat) (h : Inv s [] none) (hax : Accessible s x) : Safe (step s (.drop x)) := by
  simp only [step]
  rcases free_inv s x h hax with h1 | h1 | ⟨s1, h1, hi, hnx, hempty, hsub, hrun, hvars, _⟩
  · rw [h1]; exact safe_throw _
  · rw [h1]; exact safe_throw _
  · rw [h1, Res.ok_bind]
    have hax1 := accessible_free s s1 x x hrun hvars hax
    have hn : ((s1.vars.filter (fun v => v.name != x)).map (·.name)).Nodup := hi.names.sublist ((List.filter_sublist).map _)
    have hsub' : ∀ f ∈ held (s1.vars.filter (fun v => v.name != x)) none, f ∈ held s1.vars none := by
      intro f hf
      obtain ⟨w, hw, h2, h3⟩ := (mem_held _ _ _).1 hf
      exact (mem_held _ _ _).2 ⟨w, (List.mem_filter.1 hw).1, h2, h3⟩
    refine safe_ok _ (inv_vars s1 _ hi hn ?_ hsub' ?_ ?_)
    · rw [held_nodup_iff _ _ hn]
      intro a ha b hb h2 h3 f h4 h5
      have := hi.nodup
      rw [List.nil_append, held_nodup_iff _ _ hi.names] at this
      exact this a (List.mem_filter.1 ha).1 b (List.mem_filter.1 hb).1 h2 h3 f h4 h5
    · intro w hw c hwc
      exact hi.owners w (List.mem_filter.1 hw).1 c hwc
    · intro w hw c t hwo hwt
      rw [List.mem_filter]
      refine ⟨hw, ?_⟩
      simpa using not_accessible s1 x hax1 w hw c t hwo hwt

theorem safe_release (s : State) (x : Nat) (h : Inv s [] none) (hax : Accessible s x) : Safe (step s (.release x)) := by
  simp only [step]
  cases hl : lookup s x with
  | none => exact safe_throw _
  | some v =>
    obtain ⟨hv, hvx⟩ := lookup_mem s x v hl
    simp only []
    cases hh : v.handle with
    | none => exact safe_ok _ h
    | some f =>
      simp only []
      obtain ⟨fr, hfr, _⟩ := held_none s h v hv f hh
      simp only [hfr]
      split
      · rename_i hk
        refine safe_ok _ ?_
        -- first the variable, then the frame
        have hn : ((setHandle s x none).vars.map (·.name)).Nodup := by rw [names_setHandle]; exact h.names
        have hmem : ∀ w, w ∈ (setHandle s x none).vars → ∀ g, w.handle = some g → w ∈ s.vars ∧ w.name ≠ x := by
          intro w hw g hg
          obtain ⟨a, ha, rfl⟩ := (mem_setHandle _ _ _ _).1 hw
          by_cases e : a.name = x
          · rw [if_pos e] at hg; cases hg
          · rw [if_neg e]; exact ⟨ha, e⟩
        have h1 : Inv (setHandle s x none) [] none := by
          refine inv_vars s (setHandle s x none).vars h hn ?_ ?_ ?_ ?_
          · rw [held_nodup_iff _ _ hn]
            intro a ha b hb _ _ g hag hbg
            have := h.nodup
            rw [List.nil_append, held_nodup_iff _ _ h.names] at this
            exact this a (hmem a ha g hag).1 b (hmem b hb g hbg).1 (by simp) (by simp) g hag hbg
          · intro g hg
            obtain ⟨a, ha, h2, h3⟩ := (mem_held _ _ _).1 hg
            exact (mem_held _ _ _).2 ⟨a, (hmem a ha g h3).1, h2, h3⟩
          · intro a ha c hc
            obtain ⟨b, hb, rfl⟩ := (mem_setHandle _ _ _ _).1 ha
            refine h.owners b hb c ?_
            by_cases e : b.name = x
            · rw [if_pos e] at hc; exact hc
            · rw [if_neg e] at hc; exact hc
          · intro w hw c t hwo hwt
            rw [mem_setHandle]
            exact ⟨w, hw, by rw [if_neg (not_accessible s x hax w hw c t hwo hwt)]⟩
        have hnf : f ∉ held (setHandle s x none).vars none := by
          intro hm
          obtain ⟨a, ha, _, h3⟩ := (mem_held _ _ _).1 hm
          obtain ⟨h4, h5⟩ := hmem a ha f h3
          have := unique s h a v h4 hv f h3 hh
          rw [this] at h5; exact h5 hvx
        obtain ⟨hbound, hnames, hnodup, halive, howned, howners, hawaited, hwaits, hresults, hprocess, hlog, hexempt⟩ := h1
        have hfr1 : (setHandle s x none).frames f = some fr := hfr
        -- frames change in one field only
        have hget : ∀ g fr', (setHandle (setFrame s f (some { fr with owned := false })) x none).frames g = some fr' →
            ∃ fr0, s.frames g = some fr0 ∧ fr'.phase = fr0.phase ∧ fr'.awaiting = fr0.awaiting ∧ fr'.kind = fr0.kind ∧
              fr'.result = fr0.result ∧ (g ≠ f → fr'.owned = fr0.owned) ∧ (g = f → fr'.owned = false) := by
          intro g fr' hg
          simp only [setHandle, setFrame] at hg
          by_cases e : g = f
          · subst e
            rw [if_pos rfl] at hg; cases hg
            exact ⟨fr, hfr, rfl, rfl, rfl, rfl, fun h => absurd rfl h, fun _ => rfl⟩
          · rw [if_neg e] at hg
            exact ⟨fr', hg, rfl, rfl, rfl, rfl, fun _ => rfl, fun h => absurd h e⟩
        have hput : ∀ g fr0, s.frames g = some fr0 → ∃ fr',
            (setHandle (setFrame s f (some { fr with owned := false })) x none).frames g = some fr' ∧
            fr'.phase = fr0.phase ∧ fr'.awaiting = fr0.awaiting := by
          intro g fr0 hg
          simp only [setHandle, setFrame]
          by_cases e : g = f
          · subst e
            rw [hfr] at hg; cases hg
            exact ⟨_, if_pos rfl, rfl, rfl⟩
          · exact ⟨fr0, by rw [if_neg e]; exact hg, rfl, rfl⟩
        refine ⟨?_, hnames, hnodup, ?_, ?_, ?_, ?_, ?_, ?_, ?_, ?_, fun y hy => by cases hy⟩
        · intro g fr' hg
          obtain ⟨fr0, h2, _⟩ := hget g fr' hg
          exact hbound g fr0 h2
        · intro g hg
          obtain ⟨fr0, h2⟩ := halive g hg
          obtain ⟨fr', h3, _⟩ := hput g fr0 h2
          exact ⟨fr', h3⟩
        · intro g fr' hg hgf
          obtain ⟨fr0, h2, _, _, _, _, h3, _⟩ := hget g fr' hgf
          have hne : g ≠ f := by rintro rfl; exact hnf hg
          rw [h3 hne]
          exact howned g fr0 hg h2
        · intro w hw c hc
          obtain ⟨fr0, h2, h3⟩ := howners w hw c hc
          obtain ⟨fr', h4, h5, _⟩ := hput c fr0 h2
          exact ⟨fr', h4, by rw [h5]; exact h3⟩
        · intro t tr c ht hc hph
          obtain ⟨fr0, h2, h3, h4, _⟩ := hget t tr ht
          rw [h4] at hc; rw [h3] at hph
          rcases hawaited t fr0 c h2 hc hph with ⟨cr, h5, h6⟩ | h5
          · obtain ⟨cr', h7, h8, _⟩ := hput c cr h5
            exact .inl ⟨cr', h7, by rw [h8]; exact h6⟩
          · cases h5
        · intro c cr t hc hph
          obtain ⟨fr0, h2, h3, _⟩ := hget c cr hc
          rw [h3] at hph
          obtain ⟨⟨tr, h5, h6, h7⟩, hv'⟩ := hwaits c fr0 t h2 hph
          obtain ⟨tr', h8, h9, h10⟩ := hput t tr h5
          exact ⟨⟨tr', h8, by rw [h10]; exact h6, by rw [h9]; exact h7⟩, hv'⟩
        · intro g fr' hg hph
          obtain ⟨fr0, h2, h3, _, _, h4, _⟩ := hget g fr' hg
          rw [h4]; rw [h3] at hph
          exact hresults g fr0 h2 hph
        · intro g fr' hg hkp
          obtain ⟨fr0, h2, _, _, h4, _, h5, _⟩ := hget g fr' hg
          by_cases e : g = f
          · subst e
            rw [hfr] at h2; cases h2
            rw [h4, hk] at hkp; cases hkp
          · rw [h5 e]; rw [h4] at hkp
            exact hprocess g fr0 h2 hkp
        · intro g
          have := hlog g
          simp only [setHandle] at this
          simp only [setHandle, setFrame]
          rw [this]
          by_cases e : g = f
          · subst e; simp [hfr]
          · simp [e]
      · exact safe_throw _

/-- Changing the phase of a coroutine that does not wait, or the result of a finished one. -/
theorem inv_phase (s : State) (c : Nat) (cr cr' : Frame) (h : Inv s [] none) (hc : s.frames c = some cr)
    (hk : cr'.kind = cr.kind) (ha : cr'.awaiting = cr.awaiting) (ho : cr'.owned = cr.owned)
    (hf : cr'.phase = .final ↔ cr.phase = .final) (hw : ∀ t, cr.phase ≠ .waiting t) (hw' : ∀ t, cr'.phase ≠ .waiting t)
    (hr : cr'.result = none → cr.result = none) (log : List Event)
    (hl : ∀ f, log.count (.destroyed f) = s.log.count (.destroyed f)) :
    Inv { setFrame s c (some cr') with log := log } [] none := by
  obtain ⟨hbound, hnames, hnodup, halive, howned, howners, hawaited, hwaits, hresults, hprocess, hlog, hexempt⟩ := h
  have hget : ∀ g fr', (setFrame s c (some cr')).frames g = some fr' →
      (g = c ∧ fr' = cr') ∨ (g ≠ c ∧ s.frames g = some fr') := by
    intro g fr' hg
    simp only [setFrame] at hg
    split at hg
    · rename_i e; cases hg; exact .inl ⟨e, rfl⟩
    · rename_i e; exact .inr ⟨e, hg⟩
  have hput : ∀ g fr', g ≠ c → s.frames g = some fr' → (setFrame s c (some cr')).frames g = some fr' := by
    intro g fr' e hg
    simp only [setFrame]; rw [if_neg e]; exact hg
  have hself : (setFrame s c (some cr')).frames c = some cr' := by simp [setFrame]
  refine ⟨?_, hnames, hnodup, ?_, ?_, ?_, ?_, ?_, ?_, ?_, ?_, fun y hy => by cases hy⟩
  · intro g fr' hg
    rcases hget g fr' hg with ⟨rfl, _⟩ | ⟨_, h2⟩
    · exact hbound g cr hc
    · exact hbound g fr' h2
  · intro g hg
    obtain ⟨fr, h2⟩ := halive g hg
    by_cases e : g = c
    · subst e; exact ⟨cr', hself⟩
    · exact ⟨fr, hput g fr e h2⟩
  · intro g fr' hg hgf
    rcases hget g fr' hgf with ⟨rfl, rfl⟩ | ⟨_, h2⟩
    · rw [ho]; exact howned g cr hg hc
    · exact howned g fr' hg h2
  · intro v hv d hd
    obtain ⟨fr, h2, h3⟩ := howners v hv d hd
    by_cases e : d = c
    · subst e
      rw [hc] at h2; cases h2
      exact ⟨cr', hself, fun hx => h3 (hf.1 hx)⟩
    · exact ⟨fr, hput d fr e h2, h3⟩
  · intro t tr d ht hd hph
    have : ∃ tr0, s.frames t = some tr0 ∧ tr0.awaiting = some d ∧ tr0.phase ≠ .final := by
      rcases hget t tr ht with ⟨rfl, rfl⟩ | ⟨_, h2⟩
      · exact ⟨cr, hc, ha ▸ hd, fun hx => hph (hf.2 hx)⟩
      · exact ⟨tr, h2, hd, hph⟩
    obtain ⟨tr0, h2, h3, h4⟩ := this
    rcases hawaited t tr0 d h2 h3 h4 with ⟨dr, h5, h6⟩ | h5
    · have e : d ≠ c := by
        rintro rfl
        rw [hc] at h5; cases h5
        exact hw t h6
      exact .inl ⟨dr, hput d dr e h5, h6⟩
    · cases h5
  · intro d dr t hd hph
    rcases hget d dr hd with ⟨rfl, rfl⟩ | ⟨_, h2⟩
    · exact absurd hph (hw' t)
    · obtain ⟨⟨tr, h3, h4, h5⟩, hv⟩ := hwaits d dr t h2 hph
      refine ⟨?_, hv⟩
      by_cases e : t = c
      · subst e
        rw [hc] at h3; cases h3
        exact ⟨cr', hself, ha ▸ h4, fun hx => h5 (hf.1 hx)⟩
      · exact ⟨tr, hput t tr e h3, h4, h5⟩
  · intro g fr' hg hph
    rcases hget g fr' hg with ⟨rfl, rfl⟩ | ⟨_, h2⟩
    · intro hx
      exact hresults g cr hc (hf.1 hph) (hr hx)
    · exact hresults g fr' h2 hph
  · intro g fr' hg hkp
    rcases hget g fr' hg with ⟨rfl, rfl⟩ | ⟨_, h2⟩
    · rw [ho]; exact hprocess g cr hc (hk ▸ hkp)
    · exact hprocess g fr' h2 hkp
  · intro g
    show log.count (.destroyed g) = _
    rw [hl, hlog g]
    simp only [setFrame]
    by_cases e : g = c
    · subst e; simp [hc]
    · simp [e]

/-- Events are added that are no destructions. -/
theorem inv_log (s : State) (h : Inv s [] none) (log : List Event)
    (hl : ∀ f, log.count (.destroyed f) = s.log.count (.destroyed f)) : Inv { s with log := log } [] none := by
  obtain ⟨hbound, hnames, hnodup, halive, howned, howners, hawaited, hwaits, hresults, hprocess, hlog, hexempt⟩ := h
  exact ⟨hbound, hnames, hnodup, halive, howned, howners, hawaited, hwaits, hresults, hprocess,
    fun f => by rw [show ({ s with log := log } : State).log = log from rfl, hl]; exact hlog f, hexempt⟩

theorem safe_suspend (s : State) (c : Nat) (h : Inv s [] none) : Safe (step s (.suspend c)) := by
  simp only [step]
  cases hc : s.frames c with
  | none => exact safe_throw _
  | some cr =>
    simp only []
    split
    · rename_i hp
      exact safe_ok _ (inv_phase s c cr { cr with phase := .suspended } h hc rfl rfl rfl (by simp [hp]) (by simp [hp]) (by simp) (fun h => h) s.log (fun _ => rfl))
    · exact safe_throw _

theorem safe_resume (s : State) (c : Nat) (h : Inv s [] none) : Safe (step s (.resume c)) := by
  simp only [step]
  cases hc : s.frames c with
  | none => exact safe_throw _
  | some cr =>
    simp only []
    split
    · rename_i hp
      exact safe_ok _ (inv_phase s c cr { cr with phase := .running } h hc rfl rfl rfl (by simp [hp]) (by simp [hp]) (by simp) (fun h => h) s.log (fun _ => rfl))
    · exact safe_throw _

/-- Reading the result of a finished task that is alive. -/
theorem safe_deliver (s : State) (c t : Nat) (tr : Frame) (h : Inv s [] none) (ht : s.frames t = some tr)
    (hp : tr.phase = .final) : Safe (deliver s c t tr.kind) := by
  unfold deliver
  cases hk : tr.kind with
  | update => exact safe_ok _ (inv_log s h _ (fun f => count_destroyed _ _ f (by simp)))
  | process =>
    simp only [ht]
    cases hr : tr.result with
    | none => exact absurd hr (h.results t tr ht hp)
    | some r =>
      cases r with
      | value v =>
        exact safe_ok _ (inv_phase s t tr { tr with result := some .moved } h ht rfl rfl rfl (by simp) (by simp [hp])
          (by simp [hp]) (by simp) _ (fun f => count_destroyed _ _ f (by simp)))
      | unit => exact safe_ok _ (inv_log s h _ (fun f => count_destroyed _ _ f (by simp)))
      | exc e => exact safe_ok _ (inv_log s h _ (fun f => count_destroyed _ _ f (by simp)))
      | moved => exact safe_ok _ (inv_log s h _ (fun f => count_destroyed _ _ f (by simp)))

theorem safe_await (s : State) (c x : Nat) (h : Inv s [] none) (hs : ∀ v ∈ s.vars, v.name = x → v.owner = some c) :
    Safe (step s (.await c x)) := by
  simp only [step]
  cases hc : s.frames c with
  | none => exact safe_throw _
  | some cr =>
    simp only []
    split
    · exact safe_throw _
    rename_i hrun
    have hrun : cr.phase = .running := Classical.byContradiction hrun
    cases hl : lookup s x with
    | none => exact safe_throw _
    | some v =>
      obtain ⟨hv, hvx⟩ := lookup_mem s x v hl
      simp only []
      cases hh : v.handle with
      | none => exact safe_throw _
      | some t =>
        simp only []
        obtain ⟨tr, ht, _⟩ := held_none s h v hv t hh
        simp only [ht]
        split
        · exact safe_throw _
        · rename_i haw
          split
          · rename_i hp
            exact safe_deliver s c t tr h ht hp
          · rename_i hp
            have haw' : tr.awaiting = none := by simpa using haw
            -- the coroutine may await itself
            have hcc : ∃ cr1, (setFrame s t (some { tr with awaiting := some c })).frames c = some cr1 ∧
                cr1.phase = .running ∧ cr1.kind = cr.kind ∧ cr1.owned = cr.owned ∧ cr1.result = cr.result ∧
                (c ≠ t → cr1.awaiting = cr.awaiting) ∧ (c = t → cr1.awaiting = some c) := by
              simp only [setFrame]
              by_cases e : c = t
              · subst e
                rw [hc] at ht; cases ht
                exact ⟨_, if_pos rfl, hrun, rfl, rfl, rfl, fun h => absurd rfl h, fun _ => rfl⟩
              · exact ⟨cr, by rw [if_neg e]; exact hc, hrun, rfl, rfl, rfl, fun _ => rfl, fun h => absurd h e⟩
            obtain ⟨cr1, hc1, hrun1, hk1, ho1, hr1, ha1, ha1'⟩ := hcc
            simp only [hc1]
            refine safe_ok _ ?_
            obtain ⟨hbound, hnames, hnodup, halive, howned, howners, hawaited, hwaits, hresults, hprocess, hlog, hexempt⟩ := h
            -- the new frames
            obtain ⟨S, hS⟩ : ∃ S, S = setFrame (setFrame s t (some { tr with awaiting := some c })) c
                (some { cr1 with phase := .waiting t }) := ⟨_, rfl⟩
            rw [← hS]
            have hget : ∀ g fr', S.frames g = some fr' → ∃ fr0, s.frames g = some fr0 ∧
                fr'.kind = fr0.kind ∧ fr'.owned = fr0.owned ∧ fr'.result = fr0.result ∧
                (g ≠ t → fr'.awaiting = fr0.awaiting) ∧ (g = t → fr'.awaiting = some c) ∧
                (g ≠ c → fr'.phase = fr0.phase) ∧ (g = c → fr'.phase = .waiting t) := by
              intro g fr' hg
              subst hS
              simp only [setFrame] at hg
              by_cases e1 : g = c
              · subst e1
                rw [if_pos rfl] at hg; cases hg
                exact ⟨cr, hc, hk1, ho1, hr1, fun e => ha1 e, fun e => ha1' e, fun e => absurd rfl e, fun _ => rfl⟩
              · rw [if_neg e1] at hg
                by_cases e2 : g = t
                · subst e2
                  rw [if_pos rfl] at hg; cases hg
                  exact ⟨tr, ht, rfl, rfl, rfl, fun e => absurd rfl e, fun _ => rfl, fun _ => rfl, fun e => absurd e e1⟩
                · rw [if_neg e2] at hg
                  exact ⟨fr', hg, rfl, rfl, rfl, fun _ => rfl, fun e => absurd e e2, fun _ => rfl, fun e => absurd e e1⟩
            have hput : ∀ g fr0, s.frames g = some fr0 → ∃ fr', S.frames g = some fr' := by
              intro g fr0 hg
              subst hS
              simp only [setFrame]
              by_cases e1 : g = c
              · exact ⟨_, if_pos e1⟩
              · rw [if_neg e1]
                by_cases e2 : g = t
                · exact ⟨_, if_pos e2⟩
                · rw [if_neg e2]; exact ⟨fr0, hg⟩
            have hnone : ∀ g, S.frames g = none ↔ s.frames g = none := by
              intro g
              constructor
              · intro hg
                cases hgs : s.frames g with
                | none => rfl
                | some fr0 => obtain ⟨fr', h2⟩ := hput g fr0 hgs; rw [hg] at h2; cases h2
              · intro hg
                cases hgs : S.frames g with
                | none => rfl
                | some fr' => obtain ⟨fr0, h2, _⟩ := hget g fr' hgs; rw [hg] at h2; cases h2
            have hvars : S.vars = s.vars := by rw [hS]; rfl
            have hnext : S.next = s.next := by rw [hS]; rfl
            have hlogS : S.log = s.log := by rw [hS]; rfl
            -- nobody else waits for t
            have hnw : ∀ d dr, s.frames d = some dr → dr.phase ≠ .waiting t := by
              intro d dr hd hph
              obtain ⟨⟨tr', h2, h3, _⟩, _⟩ := hwaits d dr t hd hph
              rw [ht] at h2; cases h2
              rw [haw'] at h3; cases h3
            refine ⟨?_, ?_, ?_, ?_, ?_, ?_, ?_, ?_, ?_, ?_, ?_, fun y hy => by cases hy⟩
            · intro g fr' hg
              obtain ⟨fr0, h2, _⟩ := hget g fr' hg
              rw [hnext]; exact hbound g fr0 h2
            · rw [hvars]; exact hnames
            · rw [hvars]; exact hnodup
            · intro g hg
              rw [hvars] at hg
              obtain ⟨fr0, h2⟩ := halive g hg
              exact hput g fr0 h2
            · intro g fr' hg hgf
              rw [hvars] at hg
              obtain ⟨fr0, h2, _, h3, _⟩ := hget g fr' hgf
              rw [h3]; exact howned g fr0 hg h2
            · intro w hw d hd
              rw [hvars] at hw
              obtain ⟨fr0, h2, h3⟩ := howners w hw d hd
              obtain ⟨fr', h4⟩ := hput d fr0 h2
              obtain ⟨fr1, h5, _, _, _, _, _, h6, h7⟩ := hget d fr' h4
              rw [h2] at h5; cases h5
              refine ⟨fr', h4, ?_⟩
              by_cases e : d = c
              · rw [h7 e]; simp
              · rw [h6 e]; exact h3
            · intro g fr' d hg hd hph
              obtain ⟨fr0, h2, _, _, _, h3, h4, h5, h6⟩ := hget g fr' hg
              left
              by_cases e : g = t
              · rw [h4 e] at hd; cases hd
                obtain ⟨fr1, h7⟩ := hput c cr hc
                obtain ⟨_, _, _, _, _, _, _, _, h8⟩ := hget c fr1 h7
                exact ⟨fr1, h7, by rw [h8 rfl, e]⟩
              · rw [h3 e] at hd
                have hph0 : fr0.phase ≠ .final := by
                  by_cases e2 : g = c
                  · subst e2; rw [hc] at h2; cases h2; rw [hrun]; simp
                  · rw [← h5 e2]; exact hph
                rcases hawaited g fr0 d h2 hd hph0 with ⟨dr, h7, h8⟩ | h7
                · have e3 : d ≠ c := by
                    rintro rfl
                    rw [hc] at h7; cases h7
                    rw [hrun] at h8; cases h8
                  obtain ⟨dr', h9⟩ := hput d dr h7
                  obtain ⟨dr0, h10, _, _, _, _, _, h11, _⟩ := hget d dr' h9
                  rw [h7] at h10; cases h10
                  exact ⟨dr', h9, by rw [h11 e3]; exact h8⟩
                · cases h7
            · intro d dr u hd hph
              obtain ⟨dr0, h2, _, _, _, _, _, h5, h6⟩ := hget d dr hd
              rw [hvars]
              by_cases e : d = c
              · rw [h6 e] at hph; cases hph
                subst e
                refine ⟨?_, v, hv, by simp, hs v hv hvx, hh⟩
                obtain ⟨tr1, h7⟩ := hput t tr ht
                obtain ⟨tr0, h8, _, _, _, _, h9, h10, h11⟩ := hget t tr1 h7
                rw [ht] at h8; cases h8
                refine ⟨tr1, h7, h9 rfl, ?_⟩
                by_cases e2 : t = d
                · rw [h11 e2]; simp
                · rw [h10 e2]; exact hp
              · rw [h5 e] at hph
                obtain ⟨⟨ur, h7, h8, h9⟩, hv'⟩ := hwaits d dr0 u h2 hph
                refine ⟨?_, hv'⟩
                have e2 : u ≠ t := by rintro rfl; exact hnw d dr0 h2 hph
                obtain ⟨ur1, h10⟩ := hput u ur h7
                obtain ⟨ur0, h11, _, _, _, h12, _, h13, h14⟩ := hget u ur1 h10
                rw [h7] at h11; cases h11
                refine ⟨ur1, h10, by rw [h12 e2]; exact h8, ?_⟩
                by_cases e3 : u = c
                · rw [h14 e3]; simp
                · rw [h13 e3]; exact h9
            · intro g fr' hg hph
              obtain ⟨fr0, h2, _, _, h3, _, _, h5, h6⟩ := hget g fr' hg
              rw [h3]
              by_cases e : g = c
              · rw [h6 e] at hph; cases hph
              · rw [h5 e] at hph; exact hresults g fr0 h2 hph
            · intro g fr' hg hkp
              obtain ⟨fr0, h2, h3, h4, _⟩ := hget g fr' hg
              rw [h4]; rw [h3] at hkp; exact hprocess g fr0 h2 hkp
            · intro g
              have hiso : (S.frames g).isNone = (s.frames g).isNone := by
                rw [Bool.eq_iff_iff, Option.isNone_iff_eq_none, Option.isNone_iff_eq_none]; exact hnone g
              rw [hlogS, hnext, hlog g, hiso]

/-- The state after a body has ended. -/
theorem finish_spec (s : State) (c : Nat) (cr : Frame) (r : Result) (h : Inv s [] none) (hc : s.frames c = some cr)
    (hp : cr.phase = .running) (hv : ∀ v ∈ s.vars, v.owner ≠ some c) (ha : accepts cr.kind r = .ok ()) :
    ∃ S, step s (.finish c r) = .ok S ∧ S.next = s.next ∧ S.vars = s.vars ∧
      (∀ g, g ≠ c → cr.awaiting ≠ some g → S.frames g = s.frames g) ∧
      (∀ a, cr.awaiting = some a → a ≠ c ∧ ∃ ar, s.frames a = some ar ∧ ar.phase = .waiting c ∧
        S.frames a = some { ar with phase := .running }) ∧
      (cr.owned = false → S.frames c = none) ∧
      (cr.owned = true → ∃ q, S.frames c = some { cr with phase := .final, result := some q } ∧ 
        (q = r ∧ (cr.awaiting = none ∨ ∀ v, r ≠ .value v) ∨ q = .moved ∧ cr.awaiting ≠ none ∧ ∃ v, r = .value v)) ∧
      S.log = (cr.awaiting.toList.map (fun a => .got a c r)) ++ ((if cr.owned = true then [] else [.destroyed c]) ++
        (.finished c r :: s.log)) := by
  have hany : s.vars.any (fun v => v.owner == some c) = false := by
    rw [List.any_eq_false]
    intro v hv'
    simp only [beq_iff_eq]
    exact hv v hv'
  have hfilter : s.vars.filter (fun v => v.owner != some c) = s.vars := by
    rw [List.filter_eq_self]
    intro v hv'
    simpa using hv v hv'
  have hloc : (s.vars.filter (fun v => v.owner == some c)) = [] := by
    rw [List.filter_eq_nil_iff]
    intro v hv'
    simpa using hv v hv'
  simp only [step, hc, hany]
  rw [if_neg (by simp [hp]), ha, Res.ok_bind]
  simp only [finalSuspend]
  -- after a possible destruction
  have hs2 : ∃ s2 : State, (if cr.owned = true then
        Res.ok ({ setFrame s c (some { cr with phase := .final, result := some r }) with log := .finished c r :: s.log } : State)
      else destroy (s.next + 1)
        { setFrame s c (some { cr with phase := .final, result := some r }) with log := .finished c r :: s.log } [c]) = .ok s2 ∧
      s2.next = s.next ∧ s2.vars = s.vars ∧ (∀ g, g ≠ c → s2.frames g = s.frames g) ∧
      (cr.owned = false → s2.frames c = none) ∧
      (cr.owned = true → s2.frames c = some { cr with phase := .final, result := some r }) ∧
      s2.log = (if cr.owned = true then [] else [.destroyed c]) ++ (.finished c r :: s.log) := by
    cases ho : cr.owned with
    | true =>
      refine ⟨_, if_pos rfl, rfl, rfl, ?_, by simp, ?_, by simp⟩
      · intro g hg; simp [setFrame, hg]
      · intro _; simp [setFrame]
    | false =>
      refine ⟨{ setFrame s c none with log := .destroyed c :: .finished c r :: s.log }, ?_, rfl, rfl, ?_, ?_, by simp, by simp⟩
      · rw [if_neg (by simp)]
        have hfc : (setFrame s c (some { cr with phase := .final, result := some r, owned := false })).frames c =
            some { cr with phase := .final, result := some r, owned := false } := by simp [setFrame]
        simp only [destroy, setFrame, if_true, locals, hloc, hfilter]
        simp
        have hd : ∀ n t, destroy n t [] = .ok t := by intro n t; cases n <;> rfl
        rw [hd]
        congr 1
        congr 1
        funext g
        by_cases e : g = c <;> simp [e]
      · intro g hg; simp [setFrame, hg]
      · intro _; simp [setFrame]
  obtain ⟨s2, h1, h2, h3, h4, h5, h6, h7⟩ := hs2
  have hbind : ∀ k : State → Res State, ((if cr.owned = true then
        Res.ok ({ setFrame s c (some { cr with phase := .final, result := some r }) with log := .finished c r :: s.log } : State)
      else destroy (s.next + 1)
        { setFrame s c (some { cr with phase := .final, result := some r }) with log := .finished c r :: s.log } [c]) >>= k) =
      k s2 := by
    intro k; rw [h1, Res.ok_bind]
  cases haw : cr.awaiting with
  | none =>
    refine ⟨s2, ?_, h2, h3, fun g hg _ => h4 g hg, (fun a ha' => by cases ha'), h5, (fun ho => ⟨r, by rw [h6 ho, haw], .inl ⟨rfl, .inl rfl⟩⟩),
      by simpa using h7⟩
    have := hbind (fun s => match cr.awaiting with
      | none => .ok s
      | some a => match s.frames a with
        | none => .ub
        | some ar => if ar.phase = .waiting c then deliver (setFrame s a (some { ar with phase := .running })) a c cr.kind else .ub)
    rw [haw] at this
    exact this
  | some a =>
    -- the awaiting coroutine waits
    rcases h.awaited c cr a hc haw (by rw [hp]; simp) with ⟨ar, har, hwa⟩ | hx
    · have hac : a ≠ c := by
        rintro rfl
        rw [hc] at har; cases har
        rw [hp] at hwa; cases hwa
      have har2 : s2.frames a = some ar := by rw [h4 a hac]; exact har
      have := hbind (fun s => match cr.awaiting with
        | none => .ok s
        | some a => match s.frames a with
          | none => .ub
          | some ar => if ar.phase = .waiting c then deliver (setFrame s a (some { ar with phase := .running })) a c cr.kind else .ub)
      rw [haw] at this
      simp only [har2, hwa, if_true] at this
      have hother : ∀ g, g ≠ c → some a ≠ some g → (setFrame s2 a (some { ar with phase := .running })).frames g = s.frames g := by
        intro g hg hga
        simp only [setFrame]
        rw [if_neg (fun e => hga (by rw [e])), h4 g hg]
      have hself : (setFrame s2 a (some { ar with phase := .running })).frames a = some { ar with phase := .running } := by
        simp [setFrame]
      have hcc : (setFrame s2 a (some { ar with phase := .running })).frames c = s2.frames c := by
        simp only [setFrame]; rw [if_neg (fun e => hac e.symm)]
      have hlog1 : ∀ l, (.got a c r :: (setFrame s2 a (some { ar with phase := .running })).log) = l →
          l = (some a).toList.map (fun a => Event.got a c r) ++ ((if cr.owned = true then [] else [.destroyed c]) ++
            (.finished c r :: s.log)) := by
        intro l hl
        rw [← hl]
        show Event.got a c r :: s2.log = _
        rw [h7]; rfl
      cases hk : cr.kind with
      | update =>
        have hr : r = .unit := by
          rw [hk] at ha
          cases r <;> simp [accepts] at ha ⊢
        rw [hk] at this
        simp only [deliver] at this
        refine ⟨_, this, h2, h3, hother, ?_, ?_, ?_, ?_⟩
        · intro a' ha'; cases ha'
          exact ⟨hac, ar, har, hwa, hself⟩
        · intro ho; exact hcc.trans (h5 ho)
        · intro ho; exact ⟨r, hcc.trans (by rw [h6 ho, haw, hk]), .inl ⟨rfl, .inr (fun v => by rw [hr]; simp)⟩⟩
        · rw [hr] at hlog1 ⊢
          exact hlog1 _ rfl
      | process =>
        have ho := h.process c cr hc hk
        rw [hk] at this
        simp only [deliver, hcc, h6 ho] at this
        cases hr : r with
        | value v =>
          rw [hr] at this
          simp only [] at this
          refine ⟨_, this, h2, h3, ?_, ?_, ?_, ?_, ?_⟩
          · intro g hg hga
            have := hother g hg hga
            simp only [setFrame] at this ⊢
            rw [if_neg hg]; exact this
          · intro a' ha'; cases ha'
            refine ⟨hac, ar, har, hwa, ?_⟩
            simp only [setFrame] at hself ⊢
            rw [if_neg hac]; exact hself
          · intro ho'; rw [ho] at ho'; cases ho'
          · intro _
            refine ⟨.moved, ?_, .inr ⟨rfl, by simp, v, rfl⟩⟩
            simp [setFrame, haw, hk]
          · rw [hr] at hlog1
            exact hlog1 _ rfl
        | unit =>
          rw [hr] at this h6
          simp only [] at this
          refine ⟨_, this, h2, h3, hother, ?_, ?_, ?_, ?_⟩
          · intro a' ha'; cases ha'
            exact ⟨hac, ar, har, hwa, hself⟩
          · intro ho'; exact hcc.trans (h5 ho')
          · intro ho'; exact ⟨.unit, hcc.trans (by rw [h6 ho', haw, hk]), .inl ⟨rfl, .inr (fun v => by simp)⟩⟩
          · rw [hr] at hlog1
            exact hlog1 _ rfl
        | exc e =>
          rw [hr] at this h6
          simp only [] at this
          refine ⟨_, this, h2, h3, hother, ?_, ?_, ?_, ?_⟩
          · intro a' ha'; cases ha'
            exact ⟨hac, ar, har, hwa, hself⟩
          · intro ho'; exact hcc.trans (h5 ho')
          · intro ho'; exact ⟨.exc e, hcc.trans (by rw [h6 ho', haw, hk]), .inl ⟨rfl, .inr (fun v => by simp)⟩⟩
          · rw [hr] at hlog1
            exact hlog1 _ rfl
        | moved => rw [hk, hr] at ha; simp [accepts] at ha
    · cases hx

theorem finish_cases (s : State) (c : Nat) (r : Result) :
    (∃ e, step s (.finish c r) = .throw e) ∨
    ∃ cr, s.frames c = some cr ∧ cr.phase = .running ∧ (∀ v ∈ s.vars, v.owner ≠ some c) ∧ accepts cr.kind r = .ok () := by
  simp only [step]
  cases hc : s.frames c with
  | none => exact .inl ⟨_, rfl⟩
  | some cr =>
    simp only []
    split
    · exact .inl ⟨_, rfl⟩
    · rename_i hp
      simp only [not_or, ne_eq, Classical.not_not, Bool.not_eq_true] at hp
      cases ha : accepts cr.kind r with
      | throw e => exact .inl ⟨e, rfl⟩
      | ub =>
        exfalso
        revert ha
        cases cr.kind <;> cases r <;> simp [accepts]
      | ok u =>
        refine .inr ⟨cr, rfl, hp.1, ?_, ha⟩
        intro v hv ho
        have := List.any_eq_false.1 hp.2 v hv
        simp [ho] at this

theorem safe_finish (s : State) (c : Nat) (r : Result) (h : Inv s [] none) : Safe (step s (.finish c r)) := by
  rcases finish_cases s c r with ⟨e, he⟩ | ⟨cr, hc, hp, hv, ha⟩
  · rw [he]; exact safe_throw e
  · obtain ⟨S, h1, h2, h3, h4, h5, h6, h7, h8⟩ := finish_spec s c cr r h hc hp hv ha
    rw [h1]
    refine safe_ok _ ?_
    obtain ⟨hbound, hnames, hnodup, halive, howned, howners, hawaited, hwaits, hresults, hprocess, hlog, hexempt⟩ := h
    -- the frames afterwards
    have hget : ∀ g fr', S.frames g = some fr' → ∃ fr0, s.frames g = some fr0 ∧ fr'.kind = fr0.kind ∧
        fr'.owned = fr0.owned ∧ fr'.awaiting = fr0.awaiting ∧
        ((g = c ∧ fr'.phase = .final ∧ fr'.result ≠ none) ∨
         (g ≠ c ∧ cr.awaiting = some g ∧ fr0.phase = .waiting c ∧ fr'.phase = .running) ∨
         (g ≠ c ∧ cr.awaiting ≠ some g ∧ fr' = fr0)) := by
      intro g fr' hg
      by_cases e : g = c
      · subst e
        cases ho : cr.owned with
        | false => rw [h6 ho] at hg; cases hg
        | true =>
          obtain ⟨q, hq, _⟩ := h7 ho
          rw [hq] at hg; cases hg
          exact ⟨cr, hc, rfl, rfl, rfl, .inl ⟨rfl, rfl, by simp⟩⟩
      · by_cases ea : cr.awaiting = some g
        · obtain ⟨_, ar, h9, h10, h11⟩ := h5 g ea
          rw [h11] at hg; cases hg
          exact ⟨ar, h9, rfl, rfl, rfl, .inr (.inl ⟨e, ea, h10, rfl⟩)⟩
        · rw [h4 g e ea] at hg
          exact ⟨fr', hg, rfl, rfl, rfl, .inr (.inr ⟨e, ea, rfl⟩)⟩
    have hput : ∀ g fr0, g ≠ c ∨ cr.owned = true → s.frames g = some fr0 → ∃ fr', S.frames g = some fr' := by
      intro g fr0 hgc hg
      by_cases e : g = c
      · rcases hgc with hgc | hgc
        · exact absurd e hgc
        · obtain ⟨q, hq, _⟩ := h7 hgc; rw [e]; exact ⟨_, hq⟩
      · by_cases ea : cr.awaiting = some g
        · obtain ⟨_, ar, _, _, h11⟩ := h5 g ea; exact ⟨_, h11⟩
        · rw [h4 g e ea]; exact ⟨fr0, hg⟩
    -- a frame that is held and finishes stays
    have hheld : ∀ g, g ∈ held s.vars none → g ≠ c ∨ cr.owned = true := by
      intro g hg
      by_cases e : g = c
      · subst e; exact .inr (howned g cr hg hc)
      · exact .inl e
    refine ⟨?_, ?_, ?_, ?_, ?_, ?_, ?_, ?_, ?_, ?_, ?_, fun y hy => by cases hy⟩
    · intro g fr' hg
      obtain ⟨fr0, h9, _⟩ := hget g fr' hg
      rw [h2]; exact hbound g fr0 h9
    · rw [h3]; exact hnames
    · rw [h3]; exact hnodup
    · intro g hg
      rw [h3] at hg
      obtain ⟨fr0, h9⟩ := halive g hg
      exact hput g fr0 (hheld g (by simpa using hg)) h9
    · intro g fr' hg hgf
      rw [h3] at hg
      obtain ⟨fr0, h9, _, h10, _⟩ := hget g fr' hgf
      rw [h10]; exact howned g fr0 hg h9
    · intro v hv' d hd
      rw [h3] at hv'
      obtain ⟨fr0, h9, h10⟩ := howners v hv' d hd
      have e : d ≠ c := by rintro rfl; exact hv v hv' hd
      obtain ⟨fr', h11⟩ := hput d fr0 (.inl e) h9
      obtain ⟨fr1, h12, _, _, _, h13⟩ := hget d fr' h11
      rw [h9] at h12; cases h12
      refine ⟨fr', h11, ?_⟩
      rcases h13 with ⟨h13, _⟩ | ⟨_, _, _, h13⟩ | ⟨_, _, h13⟩
      · exact absurd h13 e
      · rw [h13]; simp
      · rw [h13]; exact h10
    · intro t tr d ht hd hph
      obtain ⟨fr0, h9, _, _, h10, h11⟩ := hget t tr ht
      rw [h10] at hd
      left
      rcases h11 with ⟨_, h12, _⟩ | ⟨e, h12, h13, h14⟩ | ⟨e, h12, h13⟩
      · exact absurd h12 hph
      · -- t is the coroutine that was resumed
        rcases hawaited t fr0 d h9 hd (by rw [h13]; simp) with ⟨dr, h15, h16⟩ | h15
        · have e1 : d ≠ c := by rintro rfl; rw [hc] at h15; cases h15; rw [hp] at h16; cases h16
          have e2 : cr.awaiting ≠ some d := by
            intro ed
            obtain ⟨_, ar, h17, h18, _⟩ := h5 d ed
            rw [h15] at h17; cases h17
            rw [h16] at h18; cases h18
            exact e rfl
          exact ⟨dr, by rw [h4 d e1 e2]; exact h15, h16⟩
        · cases h15
      · subst h13
        rcases hawaited t tr d h9 hd hph with ⟨dr, h15, h16⟩ | h15
        · have e1 : d ≠ c := by rintro rfl; rw [hc] at h15; cases h15; rw [hp] at h16; cases h16
          have e2 : cr.awaiting ≠ some d := by
            intro ed
            obtain ⟨_, ar, h17, h18, _⟩ := h5 d ed
            rw [h15] at h17; cases h17
            rw [h16] at h18; cases h18
            exact e rfl
          exact ⟨dr, by rw [h4 d e1 e2]; exact h15, h16⟩
        · cases h15
    · intro d dr t hd hph
      obtain ⟨fr0, h9, _, _, _, h11⟩ := hget d dr hd
      rcases h11 with ⟨_, h12, _⟩ | ⟨_, _, _, h14⟩ | ⟨e, h12, h13⟩
      · rw [h12] at hph; cases hph
      · rw [h14] at hph; cases hph
      · subst h13
        obtain ⟨⟨tr, h15, h16, h17⟩, v, hv', h18, h19, h20⟩ := hwaits d dr t h9 hph
        rw [h3]
        refine ⟨?_, v, hv', h18, h19, h20⟩
        have e1 : t ≠ c := by
          rintro rfl
          rw [hc] at h15; cases h15
          exact h12 h16
        obtain ⟨tr', h21⟩ := hput t tr (.inl e1) h15
        obtain ⟨tr0, h22, _, _, h23, h24⟩ := hget t tr' h21
        rw [h15] at h22; cases h22
        refine ⟨tr', h21, by rw [h23]; exact h16, ?_⟩
        rcases h24 with ⟨h24, _⟩ | ⟨_, _, _, h24⟩ | ⟨_, _, h24⟩
        · exact absurd h24 e1
        · rw [h24]; simp
        · rw [h24]; exact h17
    · intro g fr' hg hph
      obtain ⟨fr0, h9, _, _, _, h11⟩ := hget g fr' hg
      rcases h11 with ⟨_, _, h12⟩ | ⟨_, _, _, h14⟩ | ⟨_, _, h13⟩
      · exact h12
      · rw [h14] at hph; cases hph
      · subst h13; exact hresults g fr' h9 hph
    · intro g fr' hg hkp
      obtain ⟨fr0, h9, h10, h11, _⟩ := hget g fr' hg
      rw [h11]; rw [h10] at hkp; exact hprocess g fr0 h9 hkp
    · intro g
      rw [h8, h2, List.count_append, List.count_append]
      have hz : ((cr.awaiting.toList.map (fun a => Event.got a c r)).count (.destroyed g)) = 0 := by
        rw [List.count_eq_zero]
        intro hm
        obtain ⟨a, _, h9⟩ := List.mem_map.1 hm
        cases h9
      rw [hz, count_destroyed _ _ g (by simp), hlog g, Nat.zero_add]
      by_cases e : g = c
      · subst e
        have hb := hbound g cr hc
        cases ho : cr.owned with
        | true =>
          obtain ⟨q, hq, _⟩ := h7 ho
          simp [hq, hc]
        | false => simp [h6 ho, hc, hb]
      · have hc0 : (if cr.owned = true then [] else [Event.destroyed c]).count (.destroyed g) = 0 := by
          rw [List.count_eq_zero]
          intro hm
          split at hm
          · cases hm
          · simp at hm; exact e hm
        rw [hc0, Nat.zero_add]
        have : (S.frames g).isNone = (s.frames g).isNone := by
          by_cases ea : cr.awaiting = some g
          · obtain ⟨_, ar, h9, _, h11⟩ := h5 g ea
            rw [h9, h11]; rfl
          · rw [h4 g e ea]
        rw [this]

theorem step_safe (s : State) (o : Op) (h : Inv s [] none) (hs : Structured s o) : Safe (step s o) := by
  cases o with
  | declare x o => exact safe_declare s x o h
  | start k x o => exact safe_start s k x o h
  | moveCtor x o y => exact safe_moveCtor s x o y h hs
  | moveAssign x y => exact safe_moveAssign s x y h hs.1 hs.2
  | release x => exact safe_release s x h hs
  | free x =>
    rcases free_inv s x h hs with h1 | h1 | ⟨s1, h1, hi, _⟩
    · exact (show step s (.free x) = _ from h1) ▸ safe_throw _
    · exact (show step s (.free x) = _ from h1) ▸ safe_throw _
    · exact (show step s (.free x) = _ from h1) ▸ safe_ok _ hi
  | drop x => exact safe_drop s x h hs
  | await c x => exact safe_await s c x h hs
  | suspend c => exact safe_suspend s c h
  | resume c => exact safe_resume s c h
  | finish c r => exact safe_finish s c r h

theorem inv_init : Inv init [] none :=
  ⟨fun f fr h => (by cases h), by simp [init], by simp [init, held], by simp [init, held], fun f fr h => (by cases h),
    fun v h => (by cases h), fun t tr c h => (by cases h), fun c cr t h => (by cases h), fun f fr h => (by cases h),
    fun f fr h => (by cases h), by simp [init], fun x h => (by cases h)⟩

theorem reach_inv (s : State) (h : Reach s) : Inv s [] none := by
  induction h with
  | init => exact inv_init
  | step s s' o _ hs ho ih => exact (step_safe s o ih hs).2 s' ho

end Verif.Coro
