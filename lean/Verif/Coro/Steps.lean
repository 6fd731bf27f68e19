import Verif.Coro.Inv

namespace Verif.Coro

theorem held_nodup_iff (vs : List Var) (ex : Option Nat) (hn : (vs.map (·.name)).Nodup) :
    (held vs ex).Nodup ↔ ∀ v ∈ vs, ∀ w ∈ vs, some v.name ≠ ex → some w.name ≠ ex → ∀ f, v.handle = some f →
      w.handle = some f → v.name = w.name := by
  induction vs with
  | nil => simp [held]
  | cons a vs ih =>
    rw [List.map_cons, List.nodup_cons] at hn
    have ih := ih hn.2
    have hcons : held (a :: vs) ex = (if some a.name = ex then [] else a.handle.toList) ++ held vs ex := by
      unfold held
      by_cases hx : some a.name = ex
      · simp [hx]
      · have h3 : (some a.name != ex) = true := by simpa using hx
        rw [List.filter_cons, h3, if_pos rfl, if_neg hx]
        cases hh : a.handle <;> simp [hh]
    rw [hcons]
    constructor
    · intro h v hv w hw hvx hwx f hvf hwf
      have h2 := List.nodup_append.1 h
      rcases List.mem_cons.1 hv with rfl | hv' <;> rcases List.mem_cons.1 hw with rfl | hw'
      · rfl
      · have := h2.2.2 f (by simp [hvx, hvf]) f ((mem_held _ _ _).2 ⟨w, hw', hwx, hwf⟩)
        exact absurd rfl this
      · have := h2.2.2 f (by simp [hwx, hwf]) f ((mem_held _ _ _).2 ⟨v, hv', hvx, hvf⟩)
        exact absurd rfl this
      · exact ih.1 h2.2.1 v hv' w hw' hvx hwx f hvf hwf
    · intro h
      rw [List.nodup_append]
      refine ⟨?_, ih.2 (fun v hv w hw => h v (List.mem_cons_of_mem _ hv) w (List.mem_cons_of_mem _ hw)), ?_⟩
      · split
        · simp
        · cases a.handle <;> simp
      · intro f hf g hg e
        subst e
        split at hf
        · cases hf
        · rename_i hx
          obtain ⟨w, hw, hwx, hwf⟩ := (mem_held _ _ _).1 hg
          have hf' : a.handle = some f := by simpa using hf
          have := h a List.mem_cons_self w (List.mem_cons_of_mem _ hw) hx hwx f hf' hwf
          exact hn.1 (List.mem_map.2 ⟨w, hw, this.symm⟩)

/-- Changing variables only. -/
theorem inv_vars (s : State) (vs : List Var) (h : Inv s [] none) (hn : (vs.map (·.name)).Nodup)
    (hnd : (held vs none).Nodup) (hsub : ∀ f ∈ held vs none, f ∈ held s.vars none)
    (hown : ∀ v ∈ vs, ∀ c, v.owner = some c → ∃ fr, s.frames c = some fr ∧ fr.phase ≠ .final)
    (hw : ∀ v ∈ s.vars, ∀ c t, v.owner = some c → Waits s c t → v ∈ vs) : Inv { s with vars := vs } [] none := by
  obtain ⟨hbound, hnames, hnodup, halive, howned, howners, hawaited, hwaits, hresults, hprocess, hlog, hexempt⟩ := h
  simp only [List.nil_append] at hnodup halive
  refine ⟨hbound, hn, by simpa using hnd, ?_, ?_, hown, hawaited, ?_, hresults, hprocess, hlog, fun x hx => by cases hx⟩
  · intro f hf; exact halive f (hsub f (by simpa using hf))
  · intro f fr hf hfr; exact howned f fr (hsub f hf) hfr
  · intro c cr t hc hph
    obtain ⟨h1, v, hv, h2, h3, h4⟩ := hwaits c cr t hc hph
    exact ⟨h1, v, hw v hv c t h3 ⟨cr, hc, hph⟩, h2, h3, h4⟩

theorem names_setHandle (s : State) (x : Nat) (h : Option Nat) :
    (setHandle s x h).vars.map (·.name) = s.vars.map (·.name) := by
  simp only [setHandle, List.map_map]
  apply List.map_congr_left
  intro v _
  simp only [Function.comp]
  split <;> rfl

theorem mem_setHandle (s : State) (x : Nat) (h : Option Nat) (v : Var) :
    v ∈ (setHandle s x h).vars ↔ ∃ w ∈ s.vars, v = if w.name = x then { w with handle := h } else w := by
  simp only [setHandle, List.mem_map]
  constructor
  · rintro ⟨w, h1, h2⟩; exact ⟨w, h1, h2.symm⟩
  · rintro ⟨w, h1, h2⟩; exact ⟨w, h1, h2.symm⟩

theorem held_none (s : State) (h : Inv s [] none) : ∀ v ∈ s.vars, ∀ f, v.handle = some f →
    ∃ fr, s.frames f = some fr ∧ fr.owned = true := by
  intro v hv f hf
  have hm : f ∈ held s.vars none := (mem_held _ _ _).2 ⟨v, hv, by simp, hf⟩
  obtain ⟨fr, hfr⟩ := h.alive f (by simpa using hm)
  exact ⟨fr, hfr, h.owned f fr hm hfr⟩

theorem unique (s : State) (h : Inv s [] none) (v w : Var) (hv : v ∈ s.vars) (hw : w ∈ s.vars) (f : Nat)
    (hvf : v.handle = some f) (hwf : w.handle = some f) : v = w := by
  have h1 := h.nodup
  rw [List.nil_append, held_nodup_iff _ _ h.names] at h1
  exact name_inj _ h.names v w hv hw (h1 v hv w hw (by simp) (by simp) f hvf hwf)

/-- What `free` does. -/
theorem free_inv (s : State) (x : Nat) (h : Inv s [] none) (ha : Accessible s x) :
    free s x = .throw .logic ∨ free s x = .throw (.user 1) ∨
    ∃ s', free s x = .ok s' ∧ Inv s' [] none ∧ s'.next = s.next ∧
      (∀ v ∈ s'.vars, v.name = x → v.handle = none) ∧
      (∀ f fr, s'.frames f = some fr → s.frames f = some fr) ∧
      (∀ f fr, s.frames f = some fr → fr.phase = .running → s'.frames f = some fr) ∧
      (∀ v, v ∈ s'.vars ↔ ∃ w ∈ s.vars, (∀ c, w.owner = some c → s'.frames c ≠ none) ∧
        v = if w.name = x then { w with handle := none } else w) ∧
      (∀ v ∈ s.vars, v.name = x → ∀ f, v.handle = some f → s'.frames f = none) := by
  unfold free
  cases hl : lookup s x with
  | none => exact .inl rfl
  | some v =>
    obtain ⟨hv, hvx⟩ := lookup_mem s x v hl
    simp only []
    cases hh : v.handle with
    | none =>
      refine .inr (.inr ⟨s, rfl, h, rfl, ?_, fun _ _ h => h, fun _ _ h _ => h, ?_, ?_⟩)
      · intro w hw hwx
        rw [name_inj _ h.names w v hw hv (hwx.trans hvx.symm)]; exact hh
      · intro w
        constructor
        · intro hw
          refine ⟨w, hw, ?_, ?_⟩
          · intro c hc
            obtain ⟨fr, h1, _⟩ := h.owners w hw c hc
            rw [h1]; simp
          · by_cases e : w.name = x
            · have := name_inj _ h.names w v hw hv (e.trans hvx.symm)
              subst this
              rw [if_pos e]
              cases w; simp_all
            · rw [if_neg e]
        · rintro ⟨w', hw', _, rfl⟩
          by_cases e : w'.name = x
          · have := name_inj _ h.names w' v hw' hv (e.trans hvx.symm)
            subst this
            rw [if_pos e]
            have : ({ w' with handle := none } : Var) = w' := by cases w'; simp_all
            rw [this]; exact hw'
          · rw [if_neg e]; exact hw'
      · intro w hw hwx f hf
        rw [name_inj _ h.names w v hw hv (hwx.trans hvx.symm), hh] at hf
        cases hf
    | some f =>
      simp only []
      obtain ⟨fr, hfr, _⟩ := held_none s h v hv f hh
      -- the invariant during the destruction
      have hI : Inv s [f] (some x) := by
        obtain ⟨hbound, hnames, hnodup, halive, howned, howners, hawaited, hwaits, hresults, hprocess, hlog, hexempt⟩ := h
        simp only [List.nil_append] at hnodup halive
        have hnf : f ∉ held s.vars (some x) := by
          intro hm
          obtain ⟨w, hw, hwx, hwf⟩ := (mem_held _ _ _).1 hm
          have := (held_nodup_iff _ _ hnames).1 hnodup v hv w hw (by simp) (by simp) f hh hwf
          exact hwx (by rw [← this, hvx])
        have hsub : ∀ g ∈ held s.vars (some x), g ∈ held s.vars none := by
          intro g hg
          obtain ⟨w, hw, _, hwf⟩ := (mem_held _ _ _).1 hg
          exact (mem_held _ _ _).2 ⟨w, hw, by simp, hwf⟩
        refine ⟨hbound, hnames, ?_, ?_, ?_, howners, ?_, ?_, hresults, hprocess, hlog, ?_⟩
        · rw [List.singleton_append, List.nodup_cons]
          refine ⟨hnf, (held_nodup_iff _ _ hnames).2 ?_⟩
          intro a ha' b hb _ _ g hag hbg
          exact (held_nodup_iff _ _ hnames).1 hnodup a ha' b hb (by simp) (by simp) g hag hbg
        · intro g hg
          rw [List.singleton_append, List.mem_cons] at hg
          rcases hg with rfl | hg
          · exact ⟨fr, hfr⟩
          · exact halive g (hsub g hg)
        · intro g fr' hg hgf; exact howned g fr' (hsub g hg) hgf
        · intro t tr c ht hc hph
          rcases hawaited t tr c ht hc hph with h1 | h1
          · exact .inl h1
          · cases h1
        · intro c cr t hc hph
          obtain ⟨h1, w, hw, _, h3, h4⟩ := hwaits c cr t hc hph
          refine ⟨h1, w, hw, ?_, h3, h4⟩
          intro e
          have e' : w.name = x := by simpa using e
          rcases ha w hw e' with h0 | ⟨c', fr', h5, h6, h7⟩
          · rw [h3] at h0; cases h0
          · rw [h3] at h5; cases h5
            rw [hc] at h6; cases h6
            rw [hph] at h7; cases h7
        · intro y hy
          cases hy
          exact ⟨v, hv, hvx, ha v hv hvx⟩
      have hA : ∃ A : List Nat, A.Nodup ∧ A.length ≤ s.next + 1 ∧ ∀ g fr', s.frames g = some fr' → g ∈ A :=
        ⟨List.range s.next, List.nodup_range, by simp, fun g fr' hg => List.mem_range.2 (h.bound g fr' hg)⟩
      rcases destroy_inv _ s [f] (some x) hI hA with ⟨s1, h1, hi, hnx, hsub, hrun, hvars, hwl⟩ | h1
      · have hvs : v ∈ s1.vars := by
          rw [hvars]
          refine ⟨hv, ?_⟩
          intro c hc
          rcases ha v hv hvx with h0 | ⟨c', fr', h5, h6, h7⟩
          · rw [hc] at h0; cases h0
          · rw [hc] at h5; cases h5
            rw [hrun c fr' h6 h7]; simp
        obtain ⟨w, hw⟩ := lookup_of_mem s1 x v hvs hvx
        refine .inr (.inr ⟨setHandle s1 x none, ?_, ?_, hnx, ?_, hsub, hrun, ?_, ?_⟩)
        · simp only [h1, Res.ok_bind, hw]
        · -- the variable is empty now
          obtain ⟨hbound, hnames, hnodup, halive, howned, howners, hawaited, hwaits, hresults, hprocess, hlog, hexempt⟩ := hi
          simp only [List.nil_append] at hnodup halive
          have hheld : ∀ g, g ∈ held (setHandle s1 x none).vars none → g ∈ held s1.vars (some x) := by
            intro g hg
            obtain ⟨a, ha1, _, ha2⟩ := (mem_held _ _ _).1 hg
            obtain ⟨b, hb, rfl⟩ := (mem_setHandle _ _ _ _).1 ha1
            by_cases e : b.name = x
            · rw [if_pos e] at ha2; cases ha2
            · rw [if_neg e] at ha2
              exact (mem_held _ _ _).2 ⟨b, hb, by simpa using e, ha2⟩
          have hnames' : ((setHandle s1 x none).vars.map (·.name)).Nodup := by rw [names_setHandle]; exact hnames
          refine ⟨hbound, hnames', ?_, ?_, ?_, ?_, hawaited, ?_, hresults, hprocess, hlog, fun y hy => by cases hy⟩
          · rw [List.nil_append, held_nodup_iff _ _ hnames']
            intro a ha1 b hb1 _ _ g hag hbg
            obtain ⟨a', ha', rfl⟩ := (mem_setHandle _ _ _ _).1 ha1
            obtain ⟨b', hb', rfl⟩ := (mem_setHandle _ _ _ _).1 hb1
            by_cases ea : a'.name = x
            · rw [if_pos ea] at hag; cases hag
            · by_cases eb : b'.name = x
              · rw [if_pos eb] at hbg; cases hbg
              · rw [if_neg ea] at hag ⊢
                rw [if_neg eb] at hbg ⊢
                exact (held_nodup_iff _ _ hnames).1 hnodup a' ha' b' hb' (by simpa using ea) (by simpa using eb) g hag hbg
          · intro g hg; exact halive g (hheld g (by simpa using hg))
          · intro g fr' hg hgf; exact howned g fr' (hheld g hg) hgf
          · intro a ha1 c hc
            obtain ⟨a', ha', rfl⟩ := (mem_setHandle _ _ _ _).1 ha1
            refine howners a' ha' c ?_
            by_cases ea : a'.name = x
            · rw [if_pos ea] at hc; exact hc
            · rw [if_neg ea] at hc; exact hc
          · intro c cr t hc hph
            obtain ⟨h2, b, hb, hbx, h3, h4⟩ := hwaits c cr t hc hph
            refine ⟨h2, b, ?_, by simp, h3, h4⟩
            rw [mem_setHandle]
            exact ⟨b, hb, by rw [if_neg (by simpa using hbx)]⟩
        · intro a ha1 hax
          obtain ⟨a', ha', rfl⟩ := (mem_setHandle _ _ _ _).1 ha1
          by_cases ea : a'.name = x
          · rw [if_pos ea]
          · rw [if_neg ea] at hax; exact absurd hax ea
        · intro a
          rw [mem_setHandle]
          constructor
          · rintro ⟨b, hb, rfl⟩
            obtain ⟨h2, h3⟩ := (hvars b).1 hb
            exact ⟨b, h2, h3, rfl⟩
          · rintro ⟨b, hb, h3, rfl⟩
            exact ⟨b, (hvars b).2 ⟨hb, h3⟩, rfl⟩
        · intro w' hw' hwx g hg
          rw [name_inj _ h.names w' v hw' hv (hwx.trans hvx.symm), hh] at hg
          cases hg
          exact hwl f (by simp)
      · refine .inr (.inl ?_)
        simp only [h1]; rfl

end Verif.Coro
