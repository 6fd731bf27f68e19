import Verif.StorageMove.Spec

/-! # Descriptors belong to one handle each -/

namespace Verif.StorageMove

/-- Every open descriptor belongs to exactly one handle, and handles have open descriptors. -/
structure Inv (s : St) : Prop where
  own : ∀ {x w d}, s.handle x w = some d → ∃ f, s.fds[d]? = some (some f)
  inj : ∀ {x w x' w' d}, s.handle x w = some d → s.handle x' w' = some d → x = x' ∧ w = w'
  all : ∀ {d f}, s.fds[d]? = some (some f) → ∃ x w, s.handle x w = some d

/-- The process, described by the files of the variables and by their loggers. -/
structure Desc (s : St) (D : Nat → Option Bytes) (F : Var → Which → Option Nat) (L : Var → Option Nat) : Prop where
  inv : Inv s
  disk : s.disk = D
  files : ∀ x w, s.fileOf x w = F x w
  loggers : ∀ x, (s.vars x).map (·.logger) = L x

def updF (F : Var → Which → Option Nat) (x : Var) (w : Which) (v : Option Nat) : Var → Which → Option Nat :=
  fun y w' => if y = x ∧ w' = w then v else F y w'

theorem upd_same {α β : Type} [DecidableEq α] (f : α → β) (i : α) (v : β) : upd f i v i = v := by simp [upd]

theorem upd_ne {α β : Type} [DecidableEq α] (f : α → β) {i j : α} (v : β) (h : j ≠ i) : upd f i v j = f j := by simp [upd, h]

theorem handle_set (s : St) (x : Var) (w : Which) (h : Option Nat) (y : Var) (w' : Which) :
    (s.setHandle x w h).handle y w' = if y = x ∧ w' = w ∧ (s.vars x).isSome then h else s.handle y w' := by
  unfold St.setHandle St.handle
  cases hx : s.vars x with
  | none => simp
  | some o =>
    by_cases hy : y = x
    · subst hy
      by_cases hw : w' = w
      · subst hw; simp [upd]
      · simp [upd, hw, hx]
    · simp [upd, hy]

theorem fds_set (s : St) (x : Var) (w : Which) (h : Option Nat) : (s.setHandle x w h).fds = s.fds := by unfold St.setHandle; split <;> rfl

theorem disk_set (s : St) (x : Var) (w : Which) (h : Option Nat) : (s.setHandle x w h).disk = s.disk := by unfold St.setHandle; split <;> rfl

theorem logger_set (s : St) (x : Var) (w : Which) (h : Option Nat) (y : Var) :
    ((s.setHandle x w h).vars y).map (·.logger) = (s.vars y).map (·.logger) := by
  unfold St.setHandle
  cases hx : s.vars x with
  | none => rfl
  | some o =>
    by_cases hy : y = x
    · subst hy; simp [upd, hx]
    · simp [upd, hy]

theorem isSome_set (s : St) (x : Var) (w : Which) (h : Option Nat) (y : Var) : ((s.setHandle x w h).vars y).isSome = (s.vars y).isSome := by
  have := congrArg Option.isSome (logger_set s x w h y)
  simpa using this

theorem exists_of_handle {s : St} {x : Var} {w : Which} {d : Nat} (h : s.handle x w = some d) : (s.vars x).isSome := by
  unfold St.handle at h
  cases hx : s.vars x with
  | none => rw [hx] at h; simp at h
  | some o => rfl

theorem fileOf_some {s : St} (hi : Inv s) {x : Var} {w : Which} : (s.fileOf x w).isSome = (s.handle x w).isSome := by
  unfold St.fileOf
  cases hh : s.handle x w with
  | none => rfl
  | some d => obtain ⟨f, hf⟩ := hi.own hh; simp [hf]

theorem alloc_spec (fds : List (Option Nat)) (f : Nat) :
    (alloc fds f).1[(alloc fds f).2]? = some (some f) ∧ (∀ g, fds[(alloc fds f).2]? ≠ some (some g)) ∧
    ∀ d g, d ≠ (alloc fds f).2 → ((alloc fds f).1[d]? = some (some g) ↔ fds[d]? = some (some g)) := by
  induction fds with
  | nil =>
    refine ⟨rfl, fun g => by simp, fun d g hd => ?_⟩
    cases d with
    | zero => exact (hd rfl).elim
    | succ d => simp [alloc]
  | cons a l ih =>
    cases a with
    | none =>
      refine ⟨rfl, fun g => by simp [alloc], fun d g hd => ?_⟩
      cases d with
      | zero => exact (hd rfl).elim
      | succ d => simp [alloc]
    | some b =>
      obtain ⟨h1, h2, h3⟩ := ih
      refine ⟨by simpa [alloc] using h1, fun g => by simpa [alloc] using h2 g, fun d g hd => ?_⟩
      cases d with
      | zero => simp [alloc]
      | succ d =>
        simp only [alloc, List.getElem?_cons_succ]
        exact h3 d g (fun hc => hd (by simp [alloc, hc]))

theorem fileOf_eq (s : St) (x : Var) (w : Which) : s.fileOf x w = (s.handle x w).bind fun d => (s.fds[d]?).join := by
  unfold St.fileOf; cases s.handle x w <;> rfl

theorem close_desc {s : St} {D F L} (h : Desc s D F L) (x : Var) (w : Which) :
    ∃ s', closeHandle s x w = .ok s' ∧ Desc s' D (updF F x w none) L ∧ s'.handle x w = none := by
  unfold closeHandle
  cases hh : s.handle x w with
  | none =>
    refine ⟨s, rfl, ⟨h.inv, h.disk, fun y w' => ?_, h.loggers⟩, hh⟩
    unfold updF
    split
    · rename_i hc; obtain ⟨rfl, rfl⟩ := hc; simp [St.fileOf, hh]
    · exact h.files y w'
  | some d =>
    obtain ⟨f, hf⟩ := h.inv.own hh
    have hx := exists_of_handle hh
    simp only [hf]
    have hd : d < s.fds.length := by
      rcases Nat.lt_or_ge d s.fds.length with hl | hl
      · exact hl
      · rw [List.getElem?_eq_none hl] at hf; simp at hf
    have hset : ∀ y w', (St.setHandle { s with fds := s.fds.set d none } x w none).handle y w' = if y = x ∧ w' = w then none else s.handle y w' := by
      intro y w'
      rw [handle_set]
      simp only [hx]
      simp only [and_true]
      rfl
    have hfds : (St.setHandle { s with fds := s.fds.set d none } x w none).fds = s.fds.set d none := fds_set _ _ _ _
    have hother : ∀ {y w' e}, ¬ (y = x ∧ w' = w) → s.handle y w' = some e → e ≠ d := by
      intro y w' e hne he hc
      subst hc
      exact hne (h.inv.inj he hh)
    refine ⟨_, rfl, ⟨⟨?_, ?_, ?_⟩, ?_, ?_, ?_⟩, ?_⟩
    · intro y w' e he
      rw [hset] at he
      split at he
      · simp at he
      · rename_i hne
        rw [hfds, List.getElem?_set_ne (Ne.symm (hother hne he))]
        exact h.inv.own he
    · intro y w' y' w'' e he he'
      rw [hset] at he he'
      split at he
      · simp at he
      · split at he'
        · simp at he'
        · exact h.inv.inj he he'
    · intro e g he
      rw [hfds] at he
      by_cases hed : d = e
      · subst hed; rw [List.getElem?_set_self hd] at he; simp at he
      · rw [List.getElem?_set_ne hed] at he
        obtain ⟨y, w', hy⟩ := h.inv.all he
        refine ⟨y, w', ?_⟩
        rw [hset, if_neg]
        · exact hy
        · rintro ⟨rfl, rfl⟩; rw [hh] at hy; exact hed (Option.some.inj hy)
    · rw [disk_set]; exact h.disk
    · intro y w'
      rw [fileOf_eq, hset, hfds]
      unfold updF
      split
      · rfl
      · rename_i hne
        rw [← h.files, fileOf_eq]
        cases he : s.handle y w' with
        | none => rfl
        | some e => simp only [Option.bind_some]; rw [List.getElem?_set_ne (Ne.symm (hother hne he))]
    · intro y; rw [logger_set]; exact h.loggers y
    · rw [hset]; simp

theorem exists_iff {s : St} {D F L} (h : Desc s D F L) (x : Var) : (s.vars x).isSome = (L x).isSome := by
  rw [← h.loggers]; simp

theorem handle_none {s : St} {D F L} (h : Desc s D F L) {x : Var} (hx : (L x).isSome = false) (w : Which) : s.handle x w = none := by
  cases hh : s.handle x w with
  | none => rfl
  | some d => have := exists_of_handle hh; rw [exists_iff h, hx] at this; simp at this

theorem files_none {s : St} {D F L} (h : Desc s D F L) {x : Var} (hx : (L x).isSome = false) (w : Which) : F x w = none := by
  rw [← h.files, fileOf_eq, handle_none h hx]; rfl

/-- A handle changes its place. -/
theorem shift_desc {s s' : St} {D F L} (h : Desc s D F L) {x y : Var} (w : Which) (hxy : x ≠ y)
    (hfree : s.handle x w = none) (hfds : s'.fds = s.fds) (hdisk : s'.disk = s.disk) (hlog : ∀ z, (s'.vars z).map (·.logger) = (s.vars z).map (·.logger))
    (hh : ∀ z w', s'.handle z w' = if z = y ∧ w' = w then none else if z = x ∧ w' = w then s.handle y w else s.handle z w') :
    Desc s' D (updF (updF F x w (F y w)) y w none) L := by
  refine ⟨⟨?_, ?_, ?_⟩, by rw [hdisk]; exact h.disk, ?_, fun z => by rw [hlog]; exact h.loggers z⟩
  · intro z w' d hd
    rw [hh] at hd
    rw [hfds]
    split at hd
    · simp at hd
    · split at hd
      · exact h.inv.own hd
      · exact h.inv.own hd
  · intro z w' z' w'' d hd hd'
    rw [hh] at hd hd'
    split at hd
    · simp at hd
    · rename_i h1
      split at hd'
      · simp at hd'
      · rename_i h2
        split at hd
        · rename_i h3
          split at hd'
          · rename_i h4
            exact ⟨h3.1.trans h4.1.symm, h3.2.trans h4.2.symm⟩
          · have := h.inv.inj hd hd'
            exact (h2 ⟨this.1.symm, this.2.symm⟩).elim
        · split at hd'
          · have := h.inv.inj hd hd'
            exact (h1 this).elim
          · exact h.inv.inj hd hd'
  · intro d f hd
    rw [hfds] at hd
    obtain ⟨z, w', hz⟩ := h.inv.all hd
    by_cases hc : z = y ∧ w' = w
    · obtain ⟨rfl, rfl⟩ := hc
      refine ⟨x, w', ?_⟩
      rw [hh, if_neg (fun hc => hxy hc.1), if_pos ⟨rfl, rfl⟩]
      exact hz
    · refine ⟨z, w', ?_⟩
      rw [hh, if_neg hc, if_neg]
      · exact hz
      · rintro ⟨rfl, rfl⟩; rw [hfree] at hz; simp at hz
  · intro z w'
    rw [fileOf_eq, hh, hfds]
    unfold updF
    by_cases h1 : z = y ∧ w' = w
    · rw [if_pos h1, if_pos h1]; rfl
    · rw [if_neg h1, if_neg h1]
      by_cases h2 : z = x ∧ w' = w
      · rw [if_pos h2, if_pos h2, ← h.files, fileOf_eq]
      · rw [if_neg h2, if_neg h2, ← h.files, fileOf_eq]

theorem moveHandle_desc {s : St} {D F L} (h : Desc s D F L) {x y : Var} (w : Which) (hxy : x ≠ y) (hx : (L x).isSome) :
    ∃ s', moveHandle s x y w = .ok s' ∧ Desc s' D (updF (updF F x w (F y w)) y w none) L := by
  obtain ⟨s1, h1, h2, h3⟩ := close_desc h x w
  unfold moveHandle
  rw [h1]
  have hs := shift_desc (s' := (s1.setHandle x w (s1.handle y w)).setHandle y w none) h2 (x := x) (y := y) w hxy h3
    (by rw [fds_set, fds_set]) (by rw [disk_set, disk_set]) (fun z => by rw [logger_set, logger_set]) (by
      intro z w'
      have e1 : (s1.vars x).isSome := by rw [exists_iff h2]; exact hx
      rw [handle_set, handle_set, isSome_set, e1]
      by_cases hz : z = y ∧ w' = w
      · obtain ⟨rfl, rfl⟩ := hz
        by_cases hy : (s1.vars z).isSome
        · rw [if_pos ⟨rfl, rfl, hy⟩, if_pos ⟨rfl, rfl⟩]
        · rw [if_neg (fun hc => hy hc.2.2), if_neg (fun hc => hxy hc.1.symm), if_pos ⟨rfl, rfl⟩]
          cases hh : s1.handle z w' with
          | none => rfl
          | some d => exact (hy (exists_of_handle hh)).elim
      · rw [if_neg hz, if_neg (fun hc => hz ⟨hc.1, hc.2.1⟩)]
        simp)
  refine ⟨_, rfl, ?_⟩
  have : updF (updF (updF F x w none) x w (updF F x w none y w)) y w none = updF (updF F x w (F y w)) y w none := by
    funext z w'
    unfold updF
    by_cases h1 : z = y ∧ w' = w
    · simp [h1]
    · by_cases h2 : z = x ∧ w' = w
      · simp [h2, hxy, Ne.symm hxy]
      · simp [h1, h2]
  rw [← this]
  exact hs

theorem openFile_desc {s : St} {D F L} (h : Desc s D F L) {x : Var} (w : Which) (f : Nat) (hx : (L x).isSome) :
    ∃ s', openFile s x w f true = .ok (s', some (D f).isSome) ∧ Desc s' (upd D f (some ((D f).getD []))) (updF F x w (some f)) L := by
  obtain ⟨a1, a2, a3⟩ := alloc_spec s.fds f
  unfold openFile
  rw [if_pos rfl]
  have ex : (s.vars x).isSome := by rw [exists_iff h]; exact hx
  have hnew : ∀ {y w' d}, s.handle y w' = some d → d ≠ (alloc s.fds f).2 := by
    intro y w' d hd hc
    obtain ⟨g, hg⟩ := h.inv.own hd
    exact a2 g (hc ▸ hg)
  -- the old handle is closed
  have hclose : ∃ s1, closeHandle { s with fds := (alloc s.fds f).1, disk := upd s.disk f (some ((s.disk f).getD [])) } x w = .ok s1 ∧
      s1.disk = upd s.disk f (some ((s.disk f).getD [])) ∧ (∀ y w', s1.handle y w' = if y = x ∧ w' = w then none else s.handle y w') ∧
      (∀ d g, s.handle x w ≠ some d → (s1.fds[d]? = some (some g) ↔ (alloc s.fds f).1[d]? = some (some g))) ∧
      (∀ d g, s.handle x w = some d → s1.fds[d]? ≠ some (some g)) ∧
      (∀ z, (s1.vars z).map (·.logger) = (s.vars z).map (·.logger)) := by
    unfold closeHandle
    have hh' : St.handle { s with fds := (alloc s.fds f).1, disk := upd s.disk f (some ((s.disk f).getD [])) } x w = s.handle x w := rfl
    rw [hh']
    cases hh : s.handle x w with
    | none =>
      refine ⟨_, rfl, rfl, fun y w' => ?_, fun d g _ => Iff.rfl, fun d g hd => by simp at hd, fun z => rfl⟩
      split
      · rename_i hc; obtain ⟨rfl, rfl⟩ := hc; exact hh
      · rfl
    | some d =>
      obtain ⟨g, hg⟩ := h.inv.own hh
      have hg' := (a3 d g (hnew hh)).2 hg
      simp only [hg']
      have hl : d < (alloc s.fds f).1.length := by
        rcases Nat.lt_or_ge d (alloc s.fds f).1.length with hl | hl
        · exact hl
        · rw [List.getElem?_eq_none hl] at hg'; simp at hg'
      refine ⟨_, rfl, by rw [disk_set], fun y w' => ?_, fun e g' he => ?_, fun e g' he => ?_, fun z => by rw [logger_set]⟩
      · rw [handle_set]
        simp only [ex]
        simp only [and_true]
        rfl
      · rw [fds_set]
        have hde : d ≠ e := fun hc => he (by rw [hc])
        simp only
        rw [List.getElem?_set_ne hde]
      · rw [fds_set]
        cases he
        simp only
        rw [List.getElem?_set_self hl]
        simp
  obtain ⟨s1, e1, e2, e3, e4, e5, e6⟩ := hclose
  have hs : ∀ y w', (s1.setHandle x w (some (alloc s.fds f).2)).handle y w' = if y = x ∧ w' = w then some (alloc s.fds f).2 else s.handle y w' := by
    intro y w'
    have : (s1.vars x).isSome := by have := congrArg Option.isSome (e6 x); simp only [Option.isSome_map] at this; rw [this]; exact ex
    rw [handle_set, this, e3]
    by_cases hc : y = x ∧ w' = w
    · rw [if_pos ⟨hc.1, hc.2, rfl⟩, if_pos hc]
    · rw [if_neg (fun hd => hc ⟨hd.1, hd.2.1⟩), if_neg hc, if_neg hc]
  have hnx : s.handle x w ≠ some (alloc s.fds f).2 := fun hc => hnew hc rfl
  refine ⟨s1.setHandle x w (some (alloc s.fds f).2), ?_, ⟨⟨?_, ?_, ?_⟩, ?_, ?_, ?_⟩⟩
  · show (closeHandle { s with fds := (alloc s.fds f).1, disk := upd s.disk f (some ((s.disk f).getD [])) } x w >>=
      fun s1 => Res.ok (s1.setHandle x w (some (alloc s.fds f).2), some (s.disk f).isSome)) = _
    rw [e1, h.disk]
    rfl
  · intro y w' d hd
    rw [hs] at hd
    rw [fds_set]
    split at hd
    · cases hd
      exact ⟨f, (e4 _ _ hnx).2 a1⟩
    · rename_i hne
      obtain ⟨g, hg⟩ := h.inv.own hd
      refine ⟨g, (e4 _ _ ?_).2 ((a3 _ _ (hnew hd)).2 hg)⟩
      intro hc
      have := h.inv.inj hc hd
      exact hne ⟨this.1.symm, this.2.symm⟩
  · intro y w' y' w'' d hd hd'
    rw [hs] at hd hd'
    split at hd
    · rename_i h1
      split at hd'
      · rename_i h2
        exact ⟨h1.1.trans h2.1.symm, h1.2.trans h2.2.symm⟩
      · exact (hnew hd' (Option.some.inj hd).symm).elim
    · split at hd'
      · exact (hnew hd (Option.some.inj hd').symm).elim
      · exact h.inv.inj hd hd'
  · intro d g hd
    rw [fds_set] at hd
    by_cases hdd : d = (alloc s.fds f).2
    · exact ⟨x, w, by rw [hs, if_pos ⟨rfl, rfl⟩, hdd]⟩
    · have hne : s.handle x w ≠ some d := fun hc => e5 _ _ hc hd
      obtain ⟨y, w', hy⟩ := h.inv.all ((a3 _ _ hdd).1 ((e4 _ _ hne).1 hd))
      refine ⟨y, w', ?_⟩
      rw [hs, if_neg]
      · exact hy
      · rintro ⟨rfl, rfl⟩; exact hne hy
  · rw [disk_set, e2, h.disk]
  · intro y w'
    rw [fileOf_eq, hs, fds_set]
    unfold updF
    split
    · simp only [Option.bind_some]
      rw [(e4 _ _ hnx).2 a1]; rfl
    · rename_i hne
      rw [← h.files, fileOf_eq]
      cases hd : s.handle y w' with
      | none => rfl
      | some d =>
        obtain ⟨g, hg⟩ := h.inv.own hd
        simp only [Option.bind_some]
        rw [hg, (e4 d g ?_).2 ((a3 _ _ (hnew hd)).2 hg)]
        intro hc
        have := h.inv.inj hc hd
        exact hne ⟨this.1.symm, this.2.symm⟩
  · intro y; rw [logger_set, e6]; exact h.loggers y

/-- `Close` -/
theorem closeBoth_desc {s : St} {D F L} (h : Desc s D F L) (x : Var) :
    ∃ s', close s x = .ok s' ∧ Desc s' D (fun y w => if y = x then none else F y w) L := by
  obtain ⟨s1, h1, h2, _⟩ := close_desc h x .master
  obtain ⟨s2, h3, h4, _⟩ := close_desc h2 x .backup
  refine ⟨s2, by simp only [close, h1, Res.ok_bind, h3], ?_⟩
  have : updF (updF F x .master none) x .backup none = fun y w => if y = x then none else F y w := by
    funext y w
    unfold updF
    by_cases hy : y = x <;> cases w <;> simp [hy]
  rw [← this]; exact h4

theorem destroy_desc {s : St} {D F L} (h : Desc s D F L) (x : Var) :
    ∃ s', destroy s x = .ok s' ∧ Desc s' D (fun y w => if y = x then none else F y w) (upd L x none) := by
  obtain ⟨s1, h1, h2, h2'⟩ := close_desc h x .backup
  obtain ⟨s2, h3, h4, h4'⟩ := close_desc h2 x .master
  have hb : s2.handle x .backup = none := by
    have := h4.files x .backup
    have e : (s2.handle x .backup).isSome = false := by rw [← fileOf_some h4.inv, this]; simp [updF]
    simpa using e
  have hh : ∀ w, s2.handle x w = none := by intro w; cases w <;> assumption
  have hd : ∀ y w, St.handle { s2 with vars := upd s2.vars x none } y w = s2.handle y w := by
    intro y w
    by_cases hy : y = x
    · subst hy; rw [hh]; simp [St.handle, upd]
    · simp [St.handle, upd, hy]
  have hF : updF (updF F x .backup none) x .master none = fun y w => if y = x then none else F y w := by
    funext y w
    unfold updF
    by_cases hy : y = x <;> cases w <;> simp [hy]
  refine ⟨{ s2 with vars := upd s2.vars x none }, by simp only [destroy, h1, Res.ok_bind, h3], ⟨⟨?_, ?_, ?_⟩, h4.disk, ?_, ?_⟩⟩
  · intro y w d hy; rw [hd] at hy; exact h4.inv.own hy
  · intro y w y' w' d hy hy'; rw [hd] at hy hy'; exact h4.inv.inj hy hy'
  · intro d f hf
    obtain ⟨y, w, hy⟩ := h4.inv.all hf
    exact ⟨y, w, by rw [hd]; exact hy⟩
  · intro y w
    have := h4.files y w
    rw [hF, fileOf_eq] at this
    rw [fileOf_eq, hd]
    exact this
  · intro y
    by_cases hy : y = x
    · subst hy; simp [upd]
    · rw [upd_ne _ _ hy, ← h4.loggers]; simp [upd, hy]

theorem assign_desc {s : St} {D F L} (h : Desc s D F L) {x y : Var} (hxy : x ≠ y) (hx : (L x).isSome) :
    ∃ s', assign s x y = .ok s' ∧ Desc s' D (fun z w => if z = y then none else if z = x then F y w else F z w) L := by
  obtain ⟨s1, h1, h2⟩ := moveHandle_desc h .master hxy hx
  obtain ⟨s2, h3, h4⟩ := moveHandle_desc h2 .backup hxy hx
  refine ⟨s2, by simp only [assign, h1, Res.ok_bind, h3], ?_⟩
  have : (fun z w => if z = y then none else if z = x then F y w else F z w) =
      updF (updF (updF (updF F x .master (F y .master)) y .master none) x .backup (updF (updF F x .master (F y .master)) y .master none y .backup)) y .backup none := by
    funext z w
    unfold updF
    by_cases hy : z = y <;> by_cases hx : z = x <;> cases w <;> simp [hy, hx, Ne.symm hxy]
  rw [this]; exact h4

theorem moveNew_desc {s : St} {D F L} (h : Desc s D F L) {x y : Var} {l : Nat} (hxy : x ≠ y) (hx : L x = none) (hy : L y = some l) :
    ∃ s', moveNew s x y = .ok s' ∧ Desc s' D (fun z w => if z = y then none else if z = x then F y w else F z w) (upd L x (some l)) := by
  have hyv := h.loggers y
  rw [hy] at hyv
  unfold moveNew
  cases ho : s.vars y with
  | none => rw [ho] at hyv; simp at hyv
  | some o =>
    rw [ho] at hyv
    simp only
    refine ⟨_, rfl, ?_⟩
    have hxh : ∀ w, s.handle x w = none := handle_none h (by rw [hx]; rfl)
    have hF : ∀ w, F x w = none := files_none h (by rw [hx]; rfl)
    have hh : ∀ z w, ((St.setHandle { s with vars := upd s.vars x (some o) } y .master none).setHandle y .backup none).handle z w =
        if z = y then none else if z = x then s.handle y w else s.handle z w := by
      intro z w
      rw [handle_set, handle_set, isSome_set]
      have e : ((upd s.vars x (some o)) y).isSome := by rw [upd_ne _ _ (Ne.symm hxy), ho]; rfl
      simp only [e]
      by_cases hz : z = y
      · subst hz; cases w <;> simp
      · simp only [hz, false_and, if_false]
        by_cases hzx : z = x
        · subst hzx; simp [St.handle, upd, ho]
        · simp [St.handle, upd, hzx]
    have hfds : ((St.setHandle { s with vars := upd s.vars x (some o) } y .master none).setHandle y .backup none).fds = s.fds := by rw [fds_set, fds_set]
    refine ⟨⟨?_, ?_, ?_⟩, ?_, ?_, ?_⟩
    · intro z w d hd
      rw [hh] at hd
      rw [hfds]
      split at hd
      · simp at hd
      · split at hd <;> exact h.inv.own hd
    · intro z w z' w' d hd hd'
      rw [hh] at hd hd'
      split at hd
      · simp at hd
      · rename_i n1
        split at hd'
        · simp at hd'
        · rename_i n2
          split at hd
          · rename_i p1
            split at hd'
            · rename_i p2
              exact ⟨p1.trans p2.symm, (h.inv.inj hd hd').2⟩
            · exact (n2 (h.inv.inj hd hd').1.symm).elim
          · split at hd'
            · exact (n1 (h.inv.inj hd hd').1).elim
            · exact h.inv.inj hd hd'
    · intro d f hd
      rw [hfds] at hd
      obtain ⟨z, w, hz⟩ := h.inv.all hd
      by_cases hzy : z = y
      · subst hzy
        exact ⟨x, w, by rw [hh, if_neg hxy, if_pos rfl]; exact hz⟩
      · refine ⟨z, w, ?_⟩
        rw [hh, if_neg hzy, if_neg]
        · exact hz
        · rintro rfl; rw [hxh] at hz; simp at hz
    · rw [disk_set, disk_set]; exact h.disk
    · intro z w
      rw [fileOf_eq, hh, hfds]
      split
      · rfl
      · split
        · rw [← h.files, fileOf_eq]
        · rw [← h.files, fileOf_eq]
    · intro z
      rw [logger_set, logger_set]
      by_cases hzx : z = x
      · subst hzx; rw [upd_same]; simp only [upd_same]; exact hyv
      · rw [upd_ne _ _ hzx]; simp only [upd_ne _ _ hzx]; exact h.loggers z

theorem put_desc {s : St} {D F L} (h : Desc s D F L) {x : Var} {w : Which} {f : Nat} (hf : F x w = some f) (c : Bytes) :
    ∃ s', s.put x w c = some s' ∧ Desc s' (upd D f (some c)) F L := by
  refine ⟨{ s with disk := upd s.disk f (some c) }, by simp only [St.put, h.files, hf, Option.map_some], ⟨⟨h.inv.own, h.inv.inj, h.inv.all⟩, by rw [← h.disk], h.files, h.loggers⟩⟩

theorem put_none {s : St} {D F L} (h : Desc s D F L) {x : Var} {w : Which} (hf : F x w = none) (c : Bytes) : s.put x w c = none := by
  simp only [St.put, h.files, hf, Option.map_none]

theorem content_desc {s : St} {D F L} (h : Desc s D F L) (x : Var) (w : Which) : s.content x w = (F x w).map fun f => (D f).getD [] := by
  simp only [St.content, h.files, h.disk]

/-! ## The simulation -/

/-- The name of one of the two files. -/
def pick (w : Which) (p : Nat × Nat) : Nat := match w with
  | .master => p.1
  | .backup => p.2

def Spec.F (σ : Spec) : Var → Which → Option Nat
  | none, _ => none
  | some v, w => ((σ.vars v).bind (·.files)).map (pick w)

def Spec.L (σ : Spec) : Var → Option Nat
  | none => none
  | some v => (σ.vars v).map (·.logger)

def Rel (s : St) (σ : Spec) : Prop := Desc s σ.disk σ.F σ.L

theorem Rel.of {s : St} {D F L} {σ : Spec} (h : Desc s D F L) (hd : σ.disk = D) (hF : ∀ x w, σ.F x w = F x w) (hL : ∀ x, σ.L x = L x) : Rel s σ :=
  ⟨h.inv, h.disk.trans hd.symm, fun x w => (h.files x w).trans (hF x w).symm, fun x => (h.loggers x).trans (hL x).symm⟩

theorem Rel.isSome {s : St} {σ : Spec} (h : Rel s σ) (v : Nat) : (s.vars (some v)).isSome = (σ.vars v).isSome := by
  rw [exists_iff h]; simp [Spec.L]

theorem Rel.absent {s : St} {σ : Spec} (h : Rel s σ) {v : Nat} (hv : σ.vars v = none) : s.vars (some v) = none := by
  have := h.isSome v; rw [hv] at this; simpa using this

theorem Rel.present {s : St} {σ : Spec} (h : Rel s σ) {v : Nat} {a : Abs} (hv : σ.vars v = some a) : ∃ o, s.vars (some v) = some o ∧ o.logger = a.logger := by
  have := h.loggers (some v)
  simp only [Spec.L, hv, Option.map_some] at this
  cases ho : s.vars (some v) with
  | none => rw [ho] at this; simp at this
  | some o => rw [ho] at this; exact ⟨o, rfl, by simpa using this⟩

theorem Rel.handle {s : St} {σ : Spec} (h : Rel s σ) (v : Nat) (w : Which) : (s.handle (Option.some v) w).isSome = ((σ.vars v).bind (·.files)).isSome := by
  rw [← fileOf_some h.inv, h.files]; simp only [Spec.F, Option.isSome_map]

theorem Spec.F_set (σ : Spec) (v : Nat) (a : Option Abs) (x : Var) (w : Which) :
    (σ.set v a).F x w = if x = some v then (a.bind (·.files)).map (pick w) else σ.F x w := by
  cases x with
  | none => simp [Spec.F]
  | some u => by_cases hu : u = v <;> simp [Spec.F, Spec.set, upd, hu]

theorem Spec.L_set (σ : Spec) (v : Nat) (a : Option Abs) (x : Var) : (σ.set v a).L x = if x = some v then a.map (·.logger) else σ.L x := by
  cases x with
  | none => simp [Spec.L]
  | some u => by_cases hu : u = v <;> simp [Spec.L, Spec.set, upd, hu]

def Sim : Res (St × Seen) → Res (Spec × Seen) → Prop
  | r, .ok (σ, o) => ∃ s, r = .ok (s, o) ∧ Rel s σ
  | r, .ub => r = .ub
  | _, .throw _ => False

theorem sim_swap {s : St} {σ : Spec} (h : Rel s σ) {v u : Nat} {a b : Abs} (hv : σ.vars v = some a) (hu : σ.vars u = some b) :
    ∃ s', swap s (some v) (some u) = .ok s' ∧ Rel s' ((σ.set v (some ⟨a.logger, b.files⟩)).set u (some ⟨b.logger, a.files⟩)) := by
  have lv : σ.L (some v) = some a.logger := by simp [Spec.L, hv]
  have lu : σ.L (some u) = some b.logger := by simp [Spec.L, hu]
  obtain ⟨s1, h1, d1⟩ := moveNew_desc (x := none) (y := some v) (l := a.logger) h (by simp) rfl lv
  by_cases hvu : v = u
  · subst hvu
    have hab : a = b := by rw [hv] at hu; exact Option.some.inj hu
    subst hab
    -- the handles are empty
    have e0 : ∀ w, s1.handle (some v) w = none := by
      intro w
      have := fileOf_some d1.inv (x := some v) (w := w)
      rw [d1.files] at this
      simpa using this.symm
    have hset : ∀ w, (s1.setHandle (some v) w none).setHandle (some v) w none = (s1.setHandle (some v) w none).setHandle (some v) w none := fun _ => rfl
    have hsame : ∀ (t : St) (w : Which), t.handle (some v) w = none → t.setHandle (some v) w none = t := by
      intro t w ht
      unfold St.setHandle
      cases ho : t.vars (some v) with
      | none => rfl
      | some o =>
        have hw : o.h w = none := by simpa [St.handle, ho] using ht
        have : upd o.h w none = o.h := by
          funext w'
          by_cases hc : w' = w
          · subst hc; rw [upd_same, hw]
          · rw [upd_ne _ _ hc]
        simp only [this]
        have : upd t.vars (some v) (some o) = t.vars := by
          funext z
          by_cases hc : z = some v
          · subst hc; rw [upd_same, ho]
          · rw [upd_ne _ _ hc]
        rw [this]
    have hm : ∀ w, moveHandle s1 (some v) (some v) w = .ok s1 := by
      intro w
      simp only [moveHandle, closeHandle, e0, Res.ok_bind, hsame s1 w (e0 w)]
    have h2 : assign s1 (some v) (some v) = .ok s1 := by simp only [assign, hm, Res.ok_bind]
    obtain ⟨s3, h3, d3⟩ := assign_desc d1 (x := some v) (y := none) (by simp) (by simp [upd, lv])
    obtain ⟨s4, h4, d4⟩ := destroy_desc d3 none
    refine ⟨s4, by simp only [swap, h1, h2, h3, h4, Res.ok_bind], Rel.of d4 rfl ?_ ?_⟩
    · intro x w
      rw [Spec.F_set, Spec.F_set]
      by_cases hx : x = some v
      · subst hx; simp [Spec.F, hv]
      · by_cases hn : x = none
        · subst hn; simp [Spec.F]
        · simp [hx, hn]
    · intro x
      rw [Spec.L_set, Spec.L_set]
      by_cases hx : x = some v
      · subst hx; simp [upd, lv]
      · by_cases hn : x = none
        · subst hn; simp [Spec.L, upd]
        · simp [hx, hn, upd]
  · obtain ⟨s2, h2, d2⟩ := assign_desc d1 (x := some v) (y := some u) (by simpa using hvu) (by simp [upd, lv])
    obtain ⟨s3, h3, d3⟩ := assign_desc d2 (x := some u) (y := none) (by simp) (by simp [upd, lu])
    obtain ⟨s4, h4, d4⟩ := destroy_desc d3 none
    refine ⟨s4, by simp only [swap, h1, h2, h3, h4, Res.ok_bind], Rel.of d4 rfl ?_ ?_⟩
    · intro x w
      rw [Spec.F_set, Spec.F_set]
      by_cases hx : x = some v
      · subst hx; simp [Spec.F, hu, hvu, Ne.symm hvu]
      · by_cases hy : x = some u
        · subst hy; simp [Spec.F, hv]
        · by_cases hn : x = none
          · subst hn; simp [Spec.F]
          · simp [hx, hy, hn]
    · intro x
      rw [Spec.L_set, Spec.L_set]
      by_cases hx : x = some u
      · subst hx; simp [upd, lu]
      · by_cases hy : x = some v
        · subst hy; simp [upd, hvu, lv]
        · by_cases hn : x = none
          · subst hn; simp [Spec.L, upd]
          · simp [hx, hy, hn, upd]

theorem sim_open {s : St} {σ : Spec} (h : Rel s σ) {v : Nat} {a : Abs} (hv : σ.vars v = some a) (f b : Nat) (can : Which → Bool) :
    (can .master = true → can .backup = true → ∃ s', openBoth s (some v) f b can = .ok (s', some ((σ.disk f).isSome || ((σ.touch f).disk b).isSome)) ∧
      Rel s' (((σ.touch f).touch b).set v (some ⟨a.logger, some (f, b)⟩))) ∧
    (can .master = true → can .backup = false → ∃ s', openBoth s (some v) f b can = .ok (s', none) ∧ Rel s' ((σ.touch f).set v (some ⟨a.logger, none⟩))) ∧
    (can .master = false → ∃ s', openBoth s (some v) f b can = .ok (s', none) ∧ Rel s' (σ.set v (some ⟨a.logger, none⟩))) := by
  have lv : σ.L (some v) = some a.logger := by simp [Spec.L, hv]
  refine ⟨fun h1 h2 => ?_, fun h1 h2 => ?_, fun h1 => ?_⟩
  · obtain ⟨s1, e1, d1⟩ := openFile_desc h (x := some v) .master f (by rw [lv]; rfl)
    obtain ⟨s2, e2, d2⟩ := openFile_desc d1 (x := some v) .backup b (by rw [lv]; rfl)
    refine ⟨s2, by simp only [openBoth, h1, h2, e1, e2, Res.ok_bind]; rfl, Rel.of d2 rfl ?_ ?_⟩
    · intro x w
      rw [Spec.F_set]
      by_cases hx : x = some v
      · subst hx; cases w <;> simp [updF, pick]
      · simp only [updF, hx, false_and, if_false]; rfl
    · intro x
      rw [Spec.L_set]
      by_cases hx : x = some v
      · subst hx; simp [lv]
      · simp only [hx, if_false]; rfl
  · obtain ⟨s1, e1, d1⟩ := openFile_desc h (x := some v) .master f (by rw [lv]; rfl)
    obtain ⟨s2, e2, d2⟩ := closeBoth_desc d1 (some v)
    have e3 : openFile s1 (some v) .backup b false = .ok (s1, none) := rfl
    refine ⟨s2, by simp only [openBoth, h1, h2, e1, e2, e3, Res.ok_bind], Rel.of d2 rfl ?_ ?_⟩
    · intro x w
      rw [Spec.F_set]
      by_cases hx : x = some v
      · subst hx; simp
      · simp only [updF, hx, false_and, if_false]; rfl
    · intro x
      rw [Spec.L_set]
      by_cases hx : x = some v
      · subst hx; simp [lv]
      · simp only [hx, if_false]; rfl
  · obtain ⟨s2, e2, d2⟩ := closeBoth_desc h (some v)
    have e3 : openFile s (some v) .master f false = .ok (s, none) := rfl
    refine ⟨s2, by simp only [openBoth, h1, e2, e3, Res.ok_bind], Rel.of d2 rfl ?_ ?_⟩
    · intro x w
      rw [Spec.F_set]
      by_cases hx : x = some v
      · subst hx; simp
      · simp only [hx, if_false]
    · intro x
      rw [Spec.L_set]
      by_cases hx : x = some v
      · subst hx; simp [lv]
      · simp only [hx, if_false]

theorem sim_exec (good : Bytes → Bool) (opt : Bool) {s : St} {σ : Spec} (h : Rel s σ) (p : Stmt) (hp : ∀ v, p ≠ .assign v v) :
    Sim (exec good opt s p) (σ.exec good opt p) := by
  cases p with
  | make v l =>
    simp only [exec, Spec.exec, h.isSome]
    cases hv : σ.vars v with
    | some a => rfl
    | none =>
      refine ⟨_, rfl, ?_⟩
      have hs := h.absent hv
      have hh : ∀ x w, St.handle { s with vars := upd s.vars (some v) (some ⟨l, fun _ => none⟩) } x w = s.handle x w := by
        intro x w
        by_cases hx : x = some v
        · subst hx; simp [St.handle, upd, hs]
        · simp [St.handle, upd, hx]
      refine ⟨⟨?_, ?_, ?_⟩, h.disk, ?_, ?_⟩
      · intro x w d hd; rw [hh] at hd; exact h.inv.own hd
      · intro x w x' w' d hd hd'; rw [hh] at hd hd'; exact h.inv.inj hd hd'
      · intro d f hd
        obtain ⟨x, w, hx⟩ := h.inv.all hd
        exact ⟨x, w, by rw [hh]; exact hx⟩
      · intro x w
        rw [fileOf_eq, hh, Spec.F_set]
        have := h.files x w
        rw [fileOf_eq] at this
        rw [this]
        by_cases hx : x = some v
        · subst hx; simp [Spec.F, hv]
        · simp [hx]
      · intro x
        rw [Spec.L_set]
        by_cases hx : x = some v
        · subst hx; simp [upd]
        · rw [if_neg hx, ← h.loggers]; simp [upd, hx]
  | moveNew v u =>
    simp only [exec, Spec.exec, h.isSome]
    cases hv : σ.vars v with
    | some a => rfl
    | none =>
      cases hu : σ.vars u with
      | none => simp [Sim, moveNew, h.absent hu]
      | some a =>
        have hne : v ≠ u := by rintro rfl; rw [hv] at hu; simp at hu
        obtain ⟨s', h1, h2⟩ := moveNew_desc h (x := some v) (y := some u) (l := a.logger) (by simpa using hne) (by simp [Spec.L, hv]) (by simp [Spec.L, hu])
        refine ⟨s', by simp [h1], Rel.of h2 rfl ?_ ?_⟩
        · intro x w
          rw [Spec.F_set, Spec.F_set]
          by_cases hx : x = some v
          · subst hx; simp [Spec.F, hu, hne]
          · simp [hx]
        · intro x
          rw [Spec.L_set, Spec.L_set]
          by_cases hx : x = some v
          · subst hx; simp [upd, hne]
          · by_cases hy : x = some u
            · subst hy; simp [upd, Ne.symm hne, Spec.L, hu]
            · simp [upd, hx, hy]
  | assign v u =>
    have hne : v ≠ u := fun hc => hp v (by rw [hc])
    have e1 := h.isSome v
    have e2 := h.isSome u
    simp only [exec, Spec.exec]
    cases hv : σ.vars v with
    | none => simp [Sim, h.absent hv]
    | some a =>
      cases hu : σ.vars u with
      | none => simp [Sim, h.absent hu]
      | some b =>
        rw [hv] at e1; rw [hu] at e2
        obtain ⟨s', h1, h2⟩ := assign_desc h (x := some v) (y := some u) (by simpa using hne) (by simp [Spec.L, hv])
        have hc : ¬ ((s.vars (some v)).isNone = true ∨ (s.vars (some u)).isNone = true) := by
          rw [← Option.not_isSome, ← Option.not_isSome, e1, e2]; simp
        simp only [if_neg hc, if_neg hne]
        refine ⟨s', by simp [h1], Rel.of h2 rfl ?_ ?_⟩
        · intro x w
          rw [Spec.F_set, Spec.F_set]
          by_cases hx : x = some v
          · subst hx; simp [Spec.F, hu, hne]
          · simp [hx]
        · intro x
          rw [Spec.L_set, Spec.L_set]
          by_cases hy : x = some u
          · subst hy; simp [Spec.L, hu]
          · by_cases hx : x = some v
            · subst hx; simp [hne, Spec.L, hv]
            · simp [hx, hy]
  | swap v u =>
    have e1 := h.isSome v
    have e2 := h.isSome u
    simp only [exec, Spec.exec]
    cases hv : σ.vars v with
    | none => simp [Sim, h.absent hv]
    | some a =>
      cases hu : σ.vars u with
      | none => simp [Sim, h.absent hu]
      | some b =>
        rw [hv] at e1; rw [hu] at e2
        have hc : ¬ ((s.vars (some v)).isNone = true ∨ (s.vars (some u)).isNone = true) := by
          rw [← Option.not_isSome, ← Option.not_isSome, e1, e2]; simp
        obtain ⟨s', h1, h2⟩ := sim_swap h hv hu
        simp only [if_neg hc]
        exact ⟨s', by simp [h1], h2⟩
  | open_ v f b can =>
    simp only [exec, Spec.exec]
    cases hv : σ.vars v with
    | none => simp [Sim, h.absent hv]
    | some a =>
      obtain ⟨o, ho, hl⟩ := h.present hv
      obtain ⟨g1, g2, g3⟩ := sim_open h hv f b can
      simp only [ho]
      cases c1 : can .master with
      | true =>
        cases c2 : can .backup with
        | true =>
          obtain ⟨s', q1, q2⟩ := g1 c1 c2
          exact ⟨s', by simp [q1], q2⟩
        | false =>
          obtain ⟨s', q1, q2⟩ := g2 c1 c2
          refine ⟨s', ?_, q2⟩
          cases opt <;> simp [q1, hl]
      | false =>
        obtain ⟨s', q1, q2⟩ := g3 c1
        refine ⟨s', ?_, q2⟩
        cases opt <;> simp [q1, hl]
  | close v =>
    simp only [exec, Spec.exec]
    cases hv : σ.vars v with
    | none => simp [Sim, h.absent hv]
    | some a =>
      obtain ⟨o, ho, hl⟩ := h.present hv
      obtain ⟨s', h1, h2⟩ := closeBoth_desc h (some v)
      refine ⟨s', by simp [ho, h1], Rel.of h2 rfl ?_ ?_⟩
      · intro x w
        rw [Spec.F_set]
        by_cases hx : x = some v <;> simp [hx]
      · intro x
        rw [Spec.L_set]
        by_cases hx : x = some v
        · subst hx; simp [Spec.L, hv]
        · simp [hx]
  | destroy v =>
    simp only [exec, Spec.exec]
    cases hv : σ.vars v with
    | none => simp [Sim, h.absent hv]
    | some a =>
      obtain ⟨o, ho, hl⟩ := h.present hv
      obtain ⟨s', h1, h2⟩ := destroy_desc h (some v)
      refine ⟨s', by simp [ho, h1], Rel.of h2 rfl ?_ ?_⟩
      · intro x w
        rw [Spec.F_set]
        by_cases hx : x = some v <;> simp [hx]
      · intro x
        rw [Spec.L_set]
        by_cases hx : x = some v
        · subst hx; simp [upd]
        · simp [hx, upd]
  | save v c =>
    simp only [exec, Spec.exec]
    cases hv : σ.vars v with
    | none => simp [Sim, h.absent hv]
    | some a =>
      obtain ⟨o, ho, hl⟩ := h.present hv
      have hm := h.handle v .master
      rw [hv] at hm
      obtain ⟨l, files⟩ := a
      cases files with
      | none =>
        have hn : s.handle (some v) .master = none := by simpa using hm
        have hp : s.put (some v) .backup c = none := put_none h (by simp [Spec.F, hv]) c
        refine ⟨s, ?_, h⟩
        simp only [ho, hn]
        cases opt <;> simp [save, hp]
      | some fb =>
        obtain ⟨f, b⟩ := fb
        have hn : s.handle (some v) .master ≠ none := by intro hc; rw [hc] at hm; simp at hm
        have fm : σ.F (some v) .master = some f := by simp [Spec.F, hv, pick]
        have fb : σ.F (some v) .backup = some b := by simp [Spec.F, hv, pick]
        obtain ⟨s1, p1, d1⟩ := put_desc h fb c
        obtain ⟨s2, p2, d2⟩ := put_desc d1 fm c
        obtain ⟨s3, p3, d3⟩ := put_desc d2 fb []
        refine ⟨s3, ?_, Rel.of d3 rfl (fun _ _ => rfl) (fun _ => rfl)⟩
        simp only [ho]
        have : save s (some v) c = (s3, true) := by simp only [save, p1, p2, p3]
        simp [this, hn]
  | load v =>
    simp only [exec, Spec.exec]
    cases hv : σ.vars v with
    | none => simp [Sim, h.absent hv]
    | some a =>
      obtain ⟨o, ho, hl⟩ := h.present hv
      obtain ⟨l, files⟩ := a
      simp only at hl
      subst hl
      cases files with
      | none =>
        have hc := content_desc h (some v) .backup
        have hp : s.put (some v) .backup [] = none := put_none h (by simp [Spec.F, hv]) []
        refine ⟨s, ?_, h⟩
        simp only [ho, load, hc]
        simp [Spec.F, hv, hp]
      | some fb =>
        obtain ⟨f, b⟩ := fb
        have fm : σ.F (some v) .master = some f := by simp [Spec.F, hv, pick]
        have fb : σ.F (some v) .backup = some b := by simp [Spec.F, hv, pick]
        have hc := content_desc h (some v) .backup
        rw [fb, Option.map_some] at hc
        simp only [ho]
        by_cases hg : good (σ.read b) = true
        · obtain ⟨s1, p1, d1⟩ := put_desc h fm (σ.read b)
          obtain ⟨s2, p2, d2⟩ := put_desc d1 fb []
          have hf : (s.content (some v) .backup).filter good = some (σ.read b) := by rw [hc]; exact Option.filter_some_pos hg
          rw [if_pos hg]
          refine ⟨s2, ?_, Rel.of d2 rfl (fun _ _ => rfl) (fun _ => rfl)⟩
          simp only [load, hf, p1, p2]
        · have hf : (s.content (some v) .backup).filter good = none := by rw [hc]; exact Option.filter_some_neg (Bool.not_eq_true _ ▸ hg)
          obtain ⟨s1, p1, d1⟩ := put_desc h fb []
          have hc' := content_desc d1 (some v) .master
          rw [fm, Option.map_some] at hc'
          rw [if_neg hg]
          by_cases hg' : good ((σ.write b []).read f) = true
          · have hf' : (s1.content (some v) .master).filter good = some ((σ.write b []).read f) := by rw [hc']; exact Option.filter_some_pos hg'
            rw [if_pos hg']
            refine ⟨s1, ?_, Rel.of d1 rfl (fun _ _ => rfl) (fun _ => rfl)⟩
            simp only [load, hf, p1, hf']
          · have hf' : (s1.content (some v) .master).filter good = none := by rw [hc']; exact Option.filter_some_neg (Bool.not_eq_true _ ▸ hg')
            rw [if_neg hg']
            refine ⟨s1, ?_, Rel.of d1 rfl (fun _ _ => rfl) (fun _ => rfl)⟩
            simp only [load, hf, p1, hf']
  | isOpened v =>
    simp only [exec, Spec.exec]
    cases hv : σ.vars v with
    | none => simp [Sim, h.absent hv]
    | some a =>
      obtain ⟨o, ho, hl⟩ := h.present hv
      have hm := h.handle v .master
      rw [hv] at hm
      exact ⟨s, by simp [ho, hm], h⟩
  | isEmpty v =>
    simp only [exec, Spec.exec]
    cases hv : σ.vars v with
    | none => simp [Sim, h.absent hv]
    | some a =>
      obtain ⟨o, ho, hl⟩ := h.present hv
      have c1 := content_desc h (some v) .master
      have c2 := content_desc h (some v) .backup
      obtain ⟨l, files⟩ := a
      cases files with
      | none =>
        refine ⟨s, ?_, h⟩
        simp only [isEmpty, c1]
        simp [Spec.F, hv, ho]
      | some fb =>
        obtain ⟨f, b⟩ := fb
        refine ⟨s, ?_, h⟩
        simp only [isEmpty, c1, c2]
        simp only [Spec.F, hv, ho, Option.bind_some, Option.map_some, pick, Spec.read]
        by_cases hz : ((σ.disk f).getD []).length = 0
        · simp [List.length_eq_zero_iff.1 hz]
          cases hb : (σ.disk b).getD [] <;> simp
        · cases hb : (σ.disk f).getD [] with
          | nil => rw [hb] at hz; simp at hz
          | cons _ _ => simp

theorem sim_run (good : Bytes → Bool) (opt : Bool) (p : List Stmt) (hp : ∀ v, Stmt.assign v v ∉ p) : ∀ {s : St} {σ : Spec}, Rel s σ →
    match σ.run good opt p with
    | .ok (σ', os) => ∃ s', run good opt s p = .ok (s', os) ∧ Rel s' σ'
    | .ub => run good opt s p = .ub
    | .throw _ => False := by
  induction p with
  | nil => intro s σ h; exact ⟨s, rfl, h⟩
  | cons x xs ih =>
    intro s σ h
    have h1 := sim_exec good opt h x (fun v hc => hp v (by rw [hc]; exact List.mem_cons_self))
    simp only [run, Spec.run]
    rcases hx : σ.exec good opt x with ⟨σ1, o⟩ | e | _
    · rw [hx] at h1
      obtain ⟨s1, e1, r1⟩ := h1
      have h2 := ih (fun v hc => hp v (List.mem_cons_of_mem _ hc)) r1
      rcases hr : σ1.run good opt xs with ⟨σ2, os⟩ | e | _
      · rw [hr] at h2
        obtain ⟨s2, e2, r2⟩ := h2
        simp only [Res.ok_bind, hr, e1, e2]
        exact ⟨s2, rfl, r2⟩
      · rw [hr] at h2; exact h2.elim
      · rw [hr] at h2
        simp only [Res.ok_bind, hr, e1]
        simp only at h2
        rw [h2]; rfl
    · rw [hx] at h1; exact h1.elim
    · rw [hx] at h1
      simp only [Sim] at h1
      rw [h1]
      rfl

end Verif.StorageMove
