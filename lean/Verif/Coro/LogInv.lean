import Verif.Coro.Evo

namespace Verif.Coro

theorem fins_destroyed (t : Nat) (ds : List Nat) (l : List Event) : fins t (ds.map Event.destroyed ++ l) = fins t l := by
  induction ds with
  | nil => rfl
  | cons d ds ih => simp [fins]

theorem gots_destroyed (ds : List Nat) (l : List Event) : gots (ds.map Event.destroyed ++ l) = gots l := by
  induction ds with
  | nil => rfl
  | cons d ds ih => simp [gots]

theorem fins_got (t c u : Nat) (r : Result) (l : List Event) : fins t (.got c u r :: l) = fins t l := rfl

theorem fins_finished (t u : Nat) (r : Result) (l : List Event) :
    fins t (.finished u r :: l) = if u = t then r :: fins t l else fins t l := by
  simp only [fins, List.filterMap_cons]
  by_cases e : u = t
  · simp [e]
  · simp [e]

theorem gots_got (c u : Nat) (r : Result) (l : List Event) : gots (.got c u r :: l) = (c, u, r) :: gots l := rfl

theorem gots_finished (u : Nat) (r : Result) (l : List Event) : gots (.finished u r :: l) = gots l := rfl

theorem reads_eq (t : Nat) (l l' : List Event) (h : gots l = gots l') : reads t l = reads t l' := by
  simp only [reads, h]

theorem reads_got (t c u : Nat) (r : Result) (l : List Event) :
    reads t (.got c u r :: l) = if u = t then (match r with | .value v => v :: reads t l | _ => reads t l) else reads t l := by
  simp only [reads, gots_got, List.filterMap_cons]
  by_cases e : u = t
  · subst e; cases r <;> simp [readOf]
  · cases r <;> simp [readOf, e]

theorem mem_fins (t : Nat) (r : Result) (l : List Event) : r ∈ fins t l ↔ Event.finished t r ∈ l := by
  simp only [fins, List.mem_filterMap]
  constructor
  · rintro ⟨e, he, h⟩
    cases e with
    | finished u q =>
      simp only [] at h
      split at h
      · rename_i hu; cases h; subst hu; exact he
      · cases h
    | got c u q => cases h
    | destroyed u => cases h
  · intro h; exact ⟨_, h, by simp⟩

theorem mem_gots (c t : Nat) (r : Result) (l : List Event) : (c, t, r) ∈ gots l ↔ Event.got c t r ∈ l := by
  simp only [gots, List.mem_filterMap]
  constructor
  · rintro ⟨e, he, h⟩
    cases e with
    | finished u q => cases h
    | got c' u q => cases h; exact he
    | destroyed u => cases h
  · intro h; exact ⟨_, h, rfl⟩

/-- What the log says about the frames. -/
structure LInv (s : State) : Prop where
  /-- a task finished at most once, and is at its end or destroyed since -/
  once : ∀ t, fins t s.log = [] ∨ t < s.next ∧ (∃ r, fins t s.log = [r] ∧ r ≠ .moved) ∧
    ∀ fr, s.frames t = some fr → fr.phase = .final
  fin : ∀ t fr, s.frames t = some fr → fr.phase = .final → ∃ r, fins t s.log = [r] ∧
    (fr.kind = .update → r = .unit) ∧
    (fr.result = some r ∧ reads t s.log = [] ∨ ∃ v, r = .value v ∧ fr.result = some .moved ∧ reads t s.log = [v])
  unread : ∀ t fr, s.frames t = some fr → fr.phase ≠ .final → reads t s.log = []
  fresh : ∀ t, s.next ≤ t → reads t s.log = []
  got : ∀ c t r, (c, t, r) ∈ gots s.log → ∃ q, fins t s.log = [q] ∧ (r = q ∨ r = .moved ∧ ∃ v, q = .value v)
  reads : ∀ t, (reads t s.log).length ≤ 1

theorem linv_init : LInv init :=
  ⟨fun t => .inl rfl, fun t fr h => (by cases h), fun t fr h => (by cases h), fun t _ => rfl, fun c t r h => (by cases h),
    fun t => (by simp [Verif.Coro.reads, gots, init])⟩

/-- Frames keep kind, end and result, or are destroyed. -/
theorem linv_same (s s' : State) (h : LInv s) (hn : s'.next = s.next)
    (hf : ∀ g fr', s'.frames g = some fr' → ∃ fr, s.frames g = some fr ∧ fr'.kind = fr.kind ∧ fr'.result = fr.result ∧
      (fr'.phase = .final ↔ fr.phase = .final))
    (h1 : ∀ t, fins t s'.log = fins t s.log) (h2 : gots s'.log = gots s.log) : LInv s' := by
  have h3 : ∀ t, reads t s'.log = reads t s.log := fun t => reads_eq t _ _ h2
  refine ⟨?_, ?_, ?_, ?_, ?_, ?_⟩
  · intro t
    rcases h.once t with h4 | ⟨h4, h5, h6⟩
    · exact .inl (by rw [h1]; exact h4)
    · refine .inr ⟨by omega, by rw [h1]; exact h5, ?_⟩
      intro fr' hfr
      obtain ⟨fr, h7, _, _, h8⟩ := hf t fr' hfr
      exact h8.2 (h6 fr h7)
  · intro t fr' hfr hp
    obtain ⟨fr, h4, h5, h6, h7⟩ := hf t fr' hfr
    rw [h1, h3, h5, h6]
    exact h.fin t fr h4 (h7.1 hp)
  · intro t fr' hfr hp
    obtain ⟨fr, h4, h5, h6, h7⟩ := hf t fr' hfr
    rw [h3]
    exact h.unread t fr h4 (fun e => hp (h7.2 e))
  · intro t ht; rw [h3]; exact h.fresh t (by omega)
  · intro c t r hg
    rw [h2] at hg
    obtain ⟨q, h4, h5⟩ := h.got c t r hg
    exact ⟨q, by rw [h1]; exact h4, h5⟩
  · intro t; rw [h3]; exact h.reads t

theorem linv_evo (s s' : State) (h : LInv s) (he : Evo s s') : LInv s' := by
  obtain ⟨ds, hd⟩ := he.log
  refine linv_same s s' h he.next ?_ (fun t => by rw [hd, fins_destroyed]) (by rw [hd, gots_destroyed])
  intro g fr' hg
  rcases he.frames g with h1 | ⟨h1, _⟩
  · rw [h1] at hg; exact ⟨fr', hg, rfl, rfl, Iff.rfl⟩
  · rw [h1] at hg; cases hg

/-- A finished task is read. -/
theorem linv_read (s s' : State) (c t : Nat) (tr : Frame) (h : LInv s) (ht : s.frames t = some tr) (hp : tr.phase = .final)
    (hd : deliver s c t tr.kind = .ok s') : LInv s' := by
  obtain ⟨h1, h2, h3⟩ := deliver_spec s c t tr.kind s' hd
  obtain ⟨r, h4, h5, h6⟩ := h.fin t tr ht hp
  rcases h3 with ⟨hk, hf, hl⟩ | ⟨hk, fr, q, hfr, hq, hl, hne, hcase⟩
  · have hr : r = .unit := h5 hk
    subst hr
    have hrd : ∀ u, Verif.Coro.reads u s'.log = Verif.Coro.reads u s.log := by
      intro u; rw [hl, reads_got]; split <;> rfl
    have hfs : ∀ u, fins u s'.log = fins u s.log := by intro u; rw [hl, fins_got]
    refine ⟨?_, ?_, ?_, ?_, ?_, ?_⟩
    · intro u; rw [hfs, h1, hf]; exact h.once u
    · intro u; rw [hfs, hrd, hf]; exact h.fin u
    · intro u; rw [hrd, hf]; exact h.unread u
    · intro u; rw [hrd, h1]; exact h.fresh u
    · intro c' u q hg
      rw [hfs]
      rw [hl, gots_got] at hg
      rcases List.mem_cons.1 hg with e | hg
      · cases e; exact ⟨.unit, h4, .inl rfl⟩
      · exact h.got c' u q hg
    · intro u; rw [hrd]; exact h.reads u
  · rw [ht] at hfr; cases hfr
    have hfs : ∀ u, fins u s'.log = fins u s.log := by intro u; rw [hl, fins_got]
    have hgot : ∀ c' u q', (c', u, q') ∈ gots s'.log → ∃ p, fins u s'.log = [p] ∧ (q' = p ∨ q' = .moved ∧ ∃ v, p = .value v) := by
      intro c' u q' hg
      rw [hfs]
      rw [hl, gots_got] at hg
      rcases List.mem_cons.1 hg with e | hg
      · cases e
        rcases h6 with ⟨h7, _⟩ | ⟨v, h7, h8, _⟩
        · rw [h7] at hq; cases hq; exact ⟨_, h4, .inl rfl⟩
        · rw [h8] at hq; cases hq; exact ⟨r, h4, .inr ⟨rfl, v, h7⟩⟩
      · exact h.got c' u q' hg
    rcases hcase with ⟨⟨v, hv⟩, hft⟩ | ⟨hv, hft⟩
    · subst hv
      have hr : r = .value v ∧ Verif.Coro.reads t s.log = [] := by
        rcases h6 with ⟨h7, h8⟩ | ⟨w, _, h8, _⟩
        · rw [h7] at hq; cases hq; exact ⟨rfl, h8⟩
        · rw [h8] at hq; cases hq
      obtain ⟨hr, hr0⟩ := hr
      subst hr
      have hrd : ∀ u, u ≠ t → Verif.Coro.reads u s'.log = Verif.Coro.reads u s.log := by
        intro u hu; rw [hl, reads_got, if_neg (fun e => hu e.symm)]
      have hrt : Verif.Coro.reads t s'.log = [v] := by rw [hl, reads_got, if_pos rfl]; simp [hr0]
      refine ⟨?_, ?_, ?_, ?_, hgot, ?_⟩
      · intro u
        rw [hfs, h1]
        by_cases e : u = t
        · subst e
          rcases h.once u with h7 | ⟨h7, h8, h9⟩
          · rw [h7] at h4; cases h4
          · exact .inr ⟨h7, h8, fun fr hfr => by rw [hft] at hfr; cases hfr; exact hp⟩
        · rw [hne u e]; exact h.once u
      · intro u fr hfr hph
        rw [hfs]
        by_cases e : u = t
        · subst e
          rw [hft] at hfr; cases hfr
          exact ⟨_, h4, h5, .inr ⟨v, rfl, rfl, hrt⟩⟩
        · rw [hne u e] at hfr; rw [hrd u e]; exact h.fin u fr hfr hph
      · intro u fr hfr hph
        by_cases e : u = t
        · subst e
          rw [hft] at hfr; cases hfr
          exact absurd hp hph
        · rw [hne u e] at hfr; rw [hrd u e]; exact h.unread u fr hfr hph
      · intro u hu
        have e : u ≠ t := by
          rintro rfl
          rcases h.once u with h7 | ⟨h7, _⟩
          · rw [h7] at h4; cases h4
          · omega
        rw [hrd u e]; exact h.fresh u (by omega)
      · intro u
        by_cases e : u = t
        · subst e; rw [hrt]; simp
        · rw [hrd u e]; exact h.reads u
    · have hrd : ∀ u, Verif.Coro.reads u s'.log = Verif.Coro.reads u s.log := by
        intro u; rw [hl, reads_got]
        split
        · cases q with
          | value v => exact absurd rfl (hv v)
          | unit => rfl
          | exc e => rfl
          | moved => rfl
        · rfl
      have hff : s'.frames = s.frames := by
        funext g
        by_cases e : g = t
        · rw [e, hft, ht]
        · exact hne g e
      refine ⟨?_, ?_, ?_, ?_, hgot, ?_⟩
      · intro u; rw [hfs, h1, hff]; exact h.once u
      · intro u; rw [hfs, hrd, hff]; exact h.fin u
      · intro u; rw [hrd, hff]; exact h.unread u
      · intro u; rw [hrd, h1]; exact h.fresh u
      · intro u; rw [hrd]; exact h.reads u

def firstRead : Option Nat → Result → List Nat
  | some _, .value v => [v]
  | _, _ => []

theorem linv_finish (s s' : State) (c : Nat) (r : Result) (hi : Inv s [] none) (h : LInv s)
    (hs : step s (.finish c r) = .ok s') : LInv s' := by
  rcases finish_cases s c r with ⟨e, he⟩ | ⟨cr, hc, hp, hv, ha⟩
  · rw [he] at hs; cases hs
  obtain ⟨S, h1, h2, h3, h4, h5, h6, h7, h8⟩ := finish_spec s c cr r hi hc hp hv ha
  rw [h1] at hs; cases hs
  have hnf : cr.phase ≠ .final := by rw [hp]; simp
  have hr0 : fins c s.log = [] := by
    rcases h.once c with h9 | ⟨_, _, h9⟩
    · exact h9
    · exact absurd (h9 cr hc) hnf
  have hm : r ≠ .moved := by rintro rfl; cases hk : cr.kind <;> rw [hk] at ha <;> simp [accepts] at ha
  have hlt := hi.bound c cr hc
  -- the logs
  have hfs : ∀ u, fins u s'.log = if c = u then r :: fins u s.log else fins u s.log := by
    intro u
    rw [h8]
    have e1 : ∀ l, fins u ((cr.awaiting.toList.map (fun a => Event.got a c r)) ++ l) = fins u l := by
      intro l; cases cr.awaiting <;> rfl
    have e2 : ∀ l, fins u ((if cr.owned = true then [] else [Event.destroyed c]) ++ l) = fins u l := by
      intro l; split <;> rfl
    rw [e1, e2, fins_finished]
  have hgs : gots s'.log = cr.awaiting.toList.map (fun a => (a, c, r)) ++ gots s.log := by
    rw [h8]
    have e2 : ∀ l, gots ((if cr.owned = true then [] else [Event.destroyed c]) ++ l) = gots l := by
      intro l; split <;> rfl
    cases cr.awaiting with
    | none => exact e2 _
    | some a =>
      show (a, c, r) :: gots ((if cr.owned = true then [] else [Event.destroyed c]) ++ _) = _
      rw [e2, gots_finished]; rfl
  have hrs : ∀ u, u ≠ c → Verif.Coro.reads u s'.log = Verif.Coro.reads u s.log := by
    intro u hu
    simp only [Verif.Coro.reads, hgs, List.filterMap_append]
    have : (cr.awaiting.toList.map (fun a => (a, c, r))).filterMap
        (readOf u) = [] := by
      cases cr.awaiting with
      | none => rfl
      | some a => cases r <;> simp [readOf, Ne.symm hu]
    rw [this, List.nil_append]
  have hrc0 : Verif.Coro.reads c s.log = [] := h.unread c cr hc hnf
  have hrc : Verif.Coro.reads c s'.log = firstRead cr.awaiting r := by
    have : Verif.Coro.reads c s'.log = ((cr.awaiting.toList.map (fun a => (a, c, r))).filterMap
        (readOf c)) ++ Verif.Coro.reads c s.log := by
      simp only [Verif.Coro.reads, hgs, List.filterMap_append]
    rw [this, hrc0, List.append_nil]
    cases cr.awaiting with
    | none => cases r <;> rfl
    | some a => cases r <;> simp [readOf, firstRead]
  have hget : ∀ g fr', s'.frames g = some fr' → g ≠ c → ∃ fr, s.frames g = some fr ∧ fr'.kind = fr.kind ∧
      fr'.result = fr.result ∧ (fr'.phase = .final ↔ fr.phase = .final) := by
    intro g fr' hg e
    by_cases ea : cr.awaiting = some g
    · obtain ⟨_, ar, h9, h10, h11⟩ := h5 g ea
      rw [h11] at hg; cases hg
      exact ⟨ar, h9, rfl, rfl, by rw [h10]; simp⟩
    · rw [h4 g e ea] at hg
      exact ⟨fr', hg, rfl, rfl, Iff.rfl⟩
  refine ⟨?_, ?_, ?_, ?_, ?_, ?_⟩
  · intro u
    rw [hfs, h2]
    by_cases e : u = c
    · subst e
      rw [if_pos rfl, hr0]
      refine .inr ⟨hlt, ⟨r, rfl, hm⟩, ?_⟩
      intro fr hfr
      cases ho : cr.owned with
      | false => rw [h6 ho] at hfr; cases hfr
      | true =>
        obtain ⟨q, hq, _⟩ := h7 ho
        rw [hq] at hfr; cases hfr; rfl
    · rw [if_neg (fun e' => e e'.symm)]
      rcases h.once u with h9 | ⟨h9, h10, h11⟩
      · exact .inl h9
      · refine .inr ⟨h9, h10, ?_⟩
        intro fr' hfr
        obtain ⟨fr, h12, _, _, h13⟩ := hget u fr' hfr e
        exact h13.2 (h11 fr h12)
  · intro u fr' hfr hph
    rw [hfs]
    by_cases e : u = c
    · subst e
      rw [if_pos rfl, hr0]
      cases ho : cr.owned with
      | false => rw [h6 ho] at hfr; cases hfr
      | true =>
        obtain ⟨q, hq, h9⟩ := h7 ho
        rw [hq] at hfr; cases hfr
        refine ⟨r, rfl, ?_, ?_⟩
        · intro hk
          have hk : cr.kind = .update := hk
          rw [hk] at ha
          cases r <;> simp [accepts] at ha ⊢
        · rcases h9 with ⟨rfl, h9⟩ | ⟨rfl, h9, v, rfl⟩
          · refine .inl ⟨rfl, ?_⟩
            rw [hrc]
            rcases h9 with h9 | h9
            · rw [h9]; cases q <;> rfl
            · cases q with
              | value v => exact absurd rfl (h9 v)
              | unit => cases cr.awaiting <;> rfl
              | exc e => cases cr.awaiting <;> rfl
              | moved => cases cr.awaiting <;> rfl
          · refine .inr ⟨v, rfl, rfl, ?_⟩
            rw [hrc]
            cases haw : cr.awaiting with
            | none => exact absurd haw h9
            | some a => rfl
    · rw [if_neg (fun e' => e e'.symm), hrs u e]
      obtain ⟨fr, h9, h10, h11, h12⟩ := hget u fr' hfr e
      rw [h10, h11]
      exact h.fin u fr h9 (h12.1 hph)
  · intro u fr' hfr hph
    by_cases e : u = c
    · subst e
      cases ho : cr.owned with
      | false => rw [h6 ho] at hfr; cases hfr
      | true =>
        obtain ⟨q, hq, h9⟩ := h7 ho
        rw [hq] at hfr; cases hfr
        exact absurd rfl hph
    · rw [hrs u e]
      obtain ⟨fr, h9, h10, h11, h12⟩ := hget u fr' hfr e
      exact h.unread u fr h9 (fun h' => hph (h12.2 h'))
  · intro u hu
    rw [hrs u (by omega)]; exact h.fresh u (by omega)
  · intro c' u q hg
    rw [hgs] at hg
    rw [hfs]
    rcases List.mem_append.1 hg with hg | hg
    · obtain ⟨a, _, e⟩ := List.mem_map.1 hg
      cases e
      exact ⟨r, by rw [if_pos rfl, hr0], .inl rfl⟩
    · obtain ⟨p, h9, h10⟩ := h.got c' u q hg
      have e : c ≠ u := by rintro rfl; rw [hr0] at h9; cases h9
      exact ⟨p, by rw [if_neg e]; exact h9, h10⟩
  · intro u
    by_cases e : u = c
    · subst e
      rw [hrc]
      cases cr.awaiting with
      | none => cases r <;> simp [firstRead]
      | some a => cases r <;> simp [firstRead]
    · rw [hrs u e]; exact h.reads u

theorem linv_step (s s' : State) (o : Op) (hi : Inv s [] none) (h : LInv s) (hs : step s o = .ok s') : LInv s' := by
  cases o with
  | declare x o => exact linv_evo s s' h (plain_evo s _ s' (by trivial) hs)
  | moveCtor x o y => exact linv_evo s s' h (plain_evo s _ s' (by trivial) hs)
  | moveAssign x y => exact linv_evo s s' h (plain_evo s _ s' (by trivial) hs)
  | free x => exact linv_evo s s' h (plain_evo s _ s' (by trivial) hs)
  | drop x => exact linv_evo s s' h (plain_evo s _ s' (by trivial) hs)
  | start k x o =>
    obtain ⟨h1, h2, h3, h4, _⟩ := start_spec s k x o s' hs
    have hn : fins s.next s.log = [] := by
      rcases h.once s.next with h5 | ⟨h5, _⟩
      · exact h5
      · omega
    refine ⟨?_, ?_, ?_, ?_, ?_, ?_⟩
    · intro t
      rw [h4, h1]
      by_cases e : t = s.next
      · exact .inl (e ▸ hn)
      · rw [h2 t e]
        rcases h.once t with h5 | ⟨h5, h6⟩
        · exact .inl h5
        · exact .inr ⟨by omega, h6⟩
    · intro t fr hfr hp
      rw [h4]
      by_cases e : t = s.next
      · rw [e, h3] at hfr; cases hfr; cases hp
      · rw [h2 t e] at hfr; exact h.fin t fr hfr hp
    · intro t fr hfr hp
      rw [h4]
      by_cases e : t = s.next
      · rw [e]; exact h.fresh s.next (Nat.le_refl _)
      · rw [h2 t e] at hfr; exact h.unread t fr hfr hp
    · intro t ht; rw [h4]; exact h.fresh t (by omega)
    · rw [h4]; exact h.got
    · rw [h4]; exact h.reads
  | release x =>
    obtain ⟨h1, h2, h3⟩ := release_spec s x s' hs
    rcases h3 with rfl | ⟨v, _, _, f, fr, _, hfr, _, h4, h5, _⟩
    · exact h
    · refine linv_same s s' h h1 ?_ (fun t => by rw [h2]) (by rw [h2])
      intro g fr' hg
      by_cases e : g = f
      · rw [e, h4] at hg; cases hg
        exact ⟨fr, by rw [e]; exact hfr, rfl, rfl, Iff.rfl⟩
      · rw [h5 g e] at hg; exact ⟨fr', hg, rfl, rfl, Iff.rfl⟩
  | suspend c =>
    obtain ⟨fr, h1, h2, rfl⟩ := suspend_spec s c s' hs
    refine linv_same s _ h rfl ?_ (fun t => rfl) rfl
    intro g fr' hg
    by_cases e : g = c
    · rw [e] at hg ⊢
      simp only [setFrame, if_true] at hg; cases hg
      exact ⟨fr, h1, rfl, rfl, by simp [h2]⟩
    · simp only [setFrame, if_neg e] at hg; exact ⟨fr', hg, rfl, rfl, Iff.rfl⟩
  | resume c =>
    obtain ⟨fr, h1, h2, rfl⟩ := resume_spec s c s' hs
    refine linv_same s _ h rfl ?_ (fun t => rfl) rfl
    intro g fr' hg
    by_cases e : g = c
    · rw [e] at hg ⊢
      simp only [setFrame, if_true] at hg; cases hg
      exact ⟨fr, h1, rfl, rfl, by simp [h2]⟩
    · simp only [setFrame, if_neg e] at hg; exact ⟨fr', hg, rfl, rfl, Iff.rfl⟩
  | await c x =>
    obtain ⟨cr, v, t, tr, hc, hp, hv, hvx, hvt, ht, haw, h1⟩ := await_spec s c x s' hs
    rcases h1 with ⟨h1, h2⟩ | ⟨h1, h2, h3, h4, h5, h6, h7⟩
    · exact linv_read s s' c t tr h ht h1 h2
    · refine linv_same s s' h h2 ?_ (fun t => by rw [h4]) (by rw [h4])
      intro g fr' hg
      by_cases e1 : g = c
      · rw [e1] at hg ⊢
        by_cases e : c = t
        · rw [h7 e] at hg; cases hg
          exact ⟨cr, hc, rfl, rfl, by simp [hp]⟩
        · rw [(h6 e).2] at hg; cases hg
          exact ⟨cr, hc, rfl, rfl, by simp [hp]⟩
      · by_cases e2 : g = t
        · have e : c ≠ t := fun e => e1 (e2.trans e.symm)
          rw [e2, (h6 e).1] at hg; cases hg
          rw [e2]
          exact ⟨tr, ht, rfl, rfl, Iff.rfl⟩
        · rw [h5 g e1 e2] at hg; exact ⟨fr', hg, rfl, rfl, Iff.rfl⟩
  | finish c r => exact linv_finish s s' c r hi h hs

theorem reach_linv (s : State) (h : Reach s) : LInv s := by
  induction h with
  | init => exact linv_init
  | step s s' o hr _ ho ih => exact linv_step s s' o (reach_inv s hr) ih ho

end Verif.Coro
