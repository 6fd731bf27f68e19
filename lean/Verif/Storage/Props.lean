import Verif.Storage.Lemmas

/-! # Crash-safe storage (C43, C44, C45, C86) -/

namespace Verif.Storage

variable {V : Type}

/-! ## Examples of formats -/

/-- A toy format used in the examples: a byte and its complement. -/
def pairFmt : Format UInt8 where
  enc v := [v, ~~~v]
  read
    | a :: b :: _ => if b = ~~~a then .ok (a, 2) else .throw .corruption
    | _ => .throw .endOfFile

theorem pairFmt_good : pairFmt.Good (fun _ => True) where
  empty := ⟨.endOfFile, rfl, rfl⟩
  roundTrip v _ := by simp [pairFmt, Holds]
  truncated v _ k hk := by
    refine ⟨.endOfFile, rfl, ?_⟩
    have : k = 0 ∨ k = 1 := by simp [pairFmt] at hk; omega
    rcases this with rfl | rfl <;> simp [pairFmt]

theorem inOrder_detects (fmt : Format V) : Detects fmt inOrder :=
  fun _ c hc => .inr ⟨c, hc, rfl, rfl⟩

theorem zeroed_detects : Detects pairFmt zeroed := by
  rintro h c (hc | ⟨_, x, _, rfl⟩)
  · exact .inr ⟨c, hc, rfl, rfl⟩
  · left
    match hx : x.length with
    | 0 => exact ⟨.endOfFile, rfl, rfl⟩
    | 1 => exact ⟨.endOfFile, rfl, rfl⟩
    | n + 2 => exact ⟨.corruption, rfl, rfl⟩

/-! ## C45, retries (C43 is the case of one attempt) -/

/-- What holds of the files while `Save` of one and the same value is attempted again and again. -/
structure Attempt (fmt : Format V) (w : V) (m : Bytes) (d : Files) : Prop where
  mcur : d.master.cur ∈ d.master.hist
  bcur : d.backup.cur ∈ d.backup.hist
  bpre : ∀ x ∈ d.backup.hist, x <+: fmt.enc w
  safe : (d.master.hist = [m] ∧ d.master.cur = m) ∨ (d.master.hist = [fmt.enc w] ∧ d.master.cur = fmt.enc w) ∨
    ∀ x ∈ d.backup.hist, x = fmt.enc w

theorem attempt_step {fmt : Format V} {w : V} {m : Bytes} {d : Files} (h : Attempt fmt w m d) (k : Nat) :
    Attempt fmt w m (exec ((save fmt w).take k) d) := by
  rcases exec_save_take fmt w d k with ⟨j, hj⟩ | ⟨j, hj⟩ | ⟨j, hj⟩ <;> rw [hj]
  · have hw := frun_write_take (fmt.enc w) d.backup h.bcur j
    dsimp only at hw
    refine ⟨h.mcur, hw.1, fun x hx => ?_, ?_⟩
    · rcases hw.2 x hx with hx | rfl | ⟨i, _, rfl⟩
      · exact h.bpre x hx
      · exact List.prefix_rfl
      · exact over_prefix (h.bpre _ h.bcur) i
    · rcases h.safe with hs | hs | hs
      · exact .inl hs
      · exact .inr (.inl hs)
      · refine .inr (.inr fun x hx => ?_)
        rcases hw.2 x hx with hx | rfl | ⟨i, _, rfl⟩
        · exact hs x hx
        · rfl
        · rw [hs _ h.bcur, over_self]
  · have hw := frun_write_take (fmt.enc w) d.master h.mcur j
    exact ⟨hw.1, by simp, fun x hx => by simp at hx; exact hx ▸ List.prefix_rfl,
      .inr (.inr fun x hx => by simpa using hx)⟩
  · have hw := frun_clear_take ⟨fmt.enc w, (fmt.enc w).length, [fmt.enc w]⟩ (by simp) j
    dsimp only at hw
    refine ⟨by simp, hw.1, fun x hx => ?_, .inr (.inl ⟨rfl, rfl⟩)⟩
    rcases hw.2 x hx with hx | rfl
    · simp at hx; exact hx ▸ List.prefix_rfl
    · exact List.nil_prefix

theorem attempt_clean {fmt : Format V} {d : Files} {m : Bytes} (hc : Clean d m) (w : V) : Attempt fmt w m d := by
  obtain ⟨h1, h2, h3, h4⟩ := hc
  exact ⟨by simp [h1, h2], by simp [h3, h4], fun x hx => by simp [h4] at hx; rw [hx]; exact List.nil_prefix,
    .inl ⟨h2, h1⟩⟩

theorem conclude {fmt : Format V} {P : V → Prop} (hg : fmt.Good P) {w : V} (hw : P w) {m cm cb : Bytes} (old : V)
    (hcb : Rejected fmt cb ∨ Holds fmt cb w) (hm : Rejected fmt cb → cm = m ∨ cm = fmt.enc w) :
    answer fmt old cm cb = answer fmt old m [] ∨ answer fmt old cm cb = (w, .ok true) := by
  rcases hcb with hr | hh
  · rcases hm hr with rfl | rfl
    · left
      rw [answer_master hr, answer_master hg.empty]
    · right
      rw [answer_master hr, loadFromFile_holds (hg.roundTrip w hw)]
  · exact .inr (answer_backup hh old cm)

theorem holds_not_rejected {fmt : Format V} {c : Bytes} {v : V} (h : Holds fmt c v) : ¬ Rejected fmt c := by
  rintro ⟨e, _, h2⟩
  unfold Holds at h
  rw [h] at h2; cases h2

/-! ## C43 -/

theorem save_crashed {fmt : Format V} {P : V → Prop} (hg : fmt.Good P) {K : Crash} (hK : Detects fmt K) {d : Files} {m : Bytes}
    (hc : Clean d m) {v : V} (hv : P v) (k : Nat) {cm cb : Bytes} (h : Crashed K (save fmt v) k d cm cb) :
    (Rejected fmt cb ∨ Holds fmt cb v) ∧ (Rejected fmt cb → cm = m ∨ cm = fmt.enc v) := by
  obtain ⟨hm, hb⟩ := h
  have ha := attempt_step (attempt_clean (fmt := fmt) hc v) k
  refine ⟨detected hK hb (fun x hx => prefix_cases hg hv (ha.bpre x hx)), fun hr => ?_⟩
  rcases exec_save_take fmt v d k with ⟨j, hj⟩ | ⟨j, hj⟩ | ⟨j, hj⟩ <;> rw [hj] at hm hb
  · left
    rw [hc.2.1] at hm
    exact K.synced hm
  · exact absurd hr (holds_not_rejected (by rw [K.synced hb]; exact hg.roundTrip v hv))
  · exact .inr (K.synced hm)

/-- C43: the process stops anywhere in `Save`; a later `Load` gives what it would have given before (`answer fmt old m []`)
or the value being saved. -/
theorem c43_save_atomic (fmt : Format V) (P : V → Prop) (hg : fmt.Good P) (K : Crash) (hK : Detects fmt K) (d : Files) (m : Bytes)
    (hc : Clean d m) (v : V) (hv : P v) (k : Nat) (cm cb : Bytes) (h : Crashed K (save fmt v) k d cm cb) (old : V) :
    answer fmt old cm cb = answer fmt old m [] ∨ answer fmt old cm cb = (v, .ok true) := by
  obtain ⟨h1, h2⟩ := save_crashed hg hK hc hv k h
  exact conclude hg hv old h1 h2

/-- C43: after a completed `Save` of `u` (from whatever state) and a crash in `Save` of `v`, `Load` gives `u` or `v`. -/
theorem c43_old_or_new (fmt : Format V) (P : V → Prop) (hg : fmt.Good P) (K : Crash) (hK : Detects fmt K) (d : Files) (u v : V)
    (hu : P u) (hv : P v) (k : Nat)
    (cm cb : Bytes) (h : Crashed K (save fmt v) k (exec (save fmt u) d) cm cb) (old : V) :
    answer fmt old cm cb = (u, .ok true) ∨ answer fmt old cm cb = (v, .ok true) := by
  have := c43_save_atomic fmt P hg K hK (exec (save fmt u) d) (fmt.enc u) (by rw [exec_save]; exact ⟨rfl, rfl, rfl, rfl⟩)
    v hv k cm cb h old
  rwa [answer_master hg.empty, loadFromFile_holds (hg.roundTrip u hu)] at this

/-- C43: when `Save` returned, the value is durable. -/
theorem c43_durable (fmt : Format V) (P : V → Prop) (hg : fmt.Good P) (K : Crash) (d : Files) (v : V)
    (hv : P v) (k : Nat)
    (hk : (save fmt v).length ≤ k) (cm cb : Bytes) (h : Crashed K (save fmt v) k d cm cb) (old : V) :
    cm = fmt.enc v ∧ cb = [] ∧ answer fmt old cm cb = (v, .ok true) := by
  obtain ⟨hm, hb⟩ := h
  rw [List.take_of_length_le hk, exec_save] at hm hb
  rw [K.synced hm, K.synced hb]
  exact ⟨rfl, rfl, by rw [answer_master hg.empty, loadFromFile_holds (hg.roundTrip v hv)]⟩

-- A crash while the master is being written: the master is damaged, the backup is used.
example : Crashed inOrder (save pairFmt 7) 7 (.opened [5, ~~~5] []) [7, ~~~5] [7, ~~~7] ∧
    answer pairFmt 0 [7, ~~~5] [7, ~~~7] = (7, .ok true) ∧ answer pairFmt 0 [7, ~~~5] [] = (0, .ok false) ∧
    Clean (.opened [5, ~~~5] []) [5, ~~~5] := by
  refine ⟨⟨?_, ?_⟩, ?_, ?_, ?_⟩
  · show _ ∈ _; decide
  · show _ ∈ _; decide
  · decide
  · decide
  · exact ⟨rfl, rfl, rfl, rfl⟩

-- A crash while the backup is being written: the old value.
example : Crashed inOrder (save pairFmt 7) 2 (.opened [5, ~~~5] []) [5, ~~~5] [7] ∧
    answer pairFmt 0 [5, ~~~5] [7] = (5, .ok true) := by
  refine ⟨⟨?_, ?_⟩, ?_⟩
  · show _ ∈ _; decide
  · show _ ∈ _; decide
  · decide

-- The backup was not flushed and is full of zeros.
example : Crashed zeroed (save pairFmt 7) 3 (.opened [5, ~~~5] []) [5, ~~~5] [0, 0] ∧
    answer pairFmt 0 [5, ~~~5] [0, 0] = (5, .ok true) := by
  refine ⟨⟨.inl ?_, .inr ⟨?_, [7, ~~~7], ?_, rfl⟩⟩, ?_⟩
  · decide
  · decide
  · decide
  · decide

/-! ## C44 -/

/-- The same answer: the same outcome, and if it is success the same value. -/
def SameAnswer (a b : V × Res Bool) : Prop := a.2 = b.2 ∧ (a.2 = .ok true → a.1 = b.1)

theorem SameAnswer.refl (a : V × Res Bool) : SameAnswer a a := ⟨rfl, fun _ => rfl⟩

theorem SameAnswer.trans {a b c : V × Res Bool} (h : SameAnswer a b) (h' : SameAnswer b c) : SameAnswer a c :=
  ⟨h.1.trans h'.1, fun e => (h.2 e).trans (h'.2 (h.1 ▸ e))⟩

theorem loadFromFile_old (fmt : Format V) (c : Bytes) (o o' : V) :
    SameAnswer (loadFromFile fmt o c) (loadFromFile fmt o' c) := by
  unfold loadFromFile
  rcases fmt.read c with ⟨v, p⟩ | e | _
  · exact .refl _
  · by_cases he : isIo e <;> simp [SameAnswer, he]
  · simp [SameAnswer]

theorem loadFromFile_congr {fmt : Format V} {c x : Bytes} (h : fmt.read c = fmt.read x) (hl : c.length = x.length)
    (o : V) : loadFromFile fmt o c = loadFromFile fmt o x := by
  unfold loadFromFile
  rw [h, hl]

theorem answer_of_not_success {fmt : Format V} {b : Bytes} {o v : V} (h : loadFromFile fmt o b = (v, .ok false))
    (m : Bytes) : answer fmt o m b = loadFromFile fmt v m := by
  simp [answer, load, Files.opened, File.opened, h]

/-- Clearing a file damages it at most to something that is rejected. -/
theorem cleared_holds {fmt : Format V} {P : V → Prop} (hg : fmt.Good P) {K : Crash} (hK : Detects fmt K) {h : List Bytes}
    {b b' : Bytes} (hh : ∀ x ∈ h, x = b ∨ x = []) (hb : K.Torn h b') {v : V} (hv : Holds fmt b' v) : Holds fmt b v := by
  rcases hK h b' hb with hr | ⟨x, hx, h1, h2⟩
  · exact absurd hr (holds_not_rejected hv)
  · have hx' : Holds fmt x v := by
      unfold Holds at hv ⊢
      rw [← h1, hv, h2]
    rcases hh x hx with rfl | rfl
    · exact hx'
    · exact absurd hg.empty (holds_not_rejected hx')

theorem interrupted_backup {fmt : Format V} {P : V → Prop} (hg : fmt.Good P) {K : Crash} (hK : Detects fmt K)
    {m b : Bytes} (o : V) (k : Nat) {m' b' : Bytes}
    (h : Crashed K (load fmt o (.opened m b)).1 k (.opened m b) m' b') {v : V} (hv : Holds fmt b' v) :
    Holds fmt b v := by
  have hcl : ∀ j, K.Torn (frun (clearOps.take j) (File.opened b)).hist b' → Holds fmt b v := fun j hj =>
    cleared_holds hg hK (fun x hx => by
      have := (frun_clear_take (File.opened b) (by simp [File.opened]) j).2 x hx
      simpa [File.opened] using this) hj hv
  have hsame : K.Torn (File.opened b).hist b' → Holds fmt b v := fun h => by
    rwa [K.synced h] at hv
  obtain ⟨_, hb⟩ := h
  unfold load at hb
  rcases hl : loadFromFile fmt o (Files.opened m b).backup.cur with ⟨w, r⟩
  rw [hl] at hb
  rcases r with r | e | _
  · cases r
    · dsimp only at hb
      rw [exec_clear_take] at hb
      exact hcl k hb
    · dsimp only at hb
      rcases exec_recover_take (fmt.enc w) (.opened m b) k with ⟨j, hj⟩ | ⟨j, hj⟩ <;> rw [hj] at hb
      · exact hsame hb
      · exact hcl j hb
  · rw [List.take_nil] at hb
    exact hsame hb
  · rw [List.take_nil] at hb
    exact hsame hb

theorem interrupted_once {fmt : Format V} {P : V → Prop} (hg : fmt.Good P) {K : Crash} (hK : Detects fmt K) {m b : Bytes}
    (hP : ∀ v, Holds fmt b v → P v) (o : V) (k : Nat)
    {m' b' : Bytes} (h : Crashed K (load fmt o (.opened m b)).1 k (.opened m b) m' b') (old : V) :
    SameAnswer (answer fmt old m b) (answer fmt old m' b') := by
  obtain ⟨hm, hb⟩ := h
  rcases hr : fmt.read b with ⟨v, p⟩ | e | _
  · by_cases hp : p = b.length
    · -- the backup is good
      have hh : Holds fmt b v := by rw [Holds, hr, hp]
      have hv := hP v hh
      have hl : (load fmt o (.opened m b)).1 = writeToStream .master (fmt.enc v) ++ clearBackup := by
        simp [load, Files.opened, File.opened, loadFromFile_holds hh]
      rw [hl] at hm hb
      rw [answer_backup hh]
      rcases exec_recover_take (fmt.enc v) (.opened m b) k with ⟨j, hj⟩ | ⟨j, hj⟩ <;> rw [hj] at hm hb
      · rw [K.synced hb, answer_backup hh]; exact .refl _
      · have hbh := (frun_clear_take (File.opened b) (by simp [File.opened]) j).2
        have hcb := detected hK hb (v := v) (fun x hx => by
          rcases hbh x hx with hx | rfl
          · simp [File.opened] at hx
            rw [hx]; exact .inr hh
          · exact .inl hg.empty)
        rw [K.synced hm]
        rcases hcb with hr | hh'
        · rw [answer_master hr, loadFromFile_holds (hg.roundTrip v hv)]; exact .refl _
        · rw [answer_backup hh']; exact .refl _
    · -- something behind the value
      have hlf : ∀ o, loadFromFile fmt o b = (v, .ok false) := fun o => by simp [loadFromFile, hr, hp]
      have hl : (load fmt o (.opened m b)).1 = clearBackup := by
        simp [load, Files.opened, File.opened, hlf]
      rw [hl, exec_clear_take] at hm hb
      rw [K.synced hm, answer_of_not_success (hlf old)]
      have hbh := (frun_clear_take (File.opened b) (by simp [File.opened]) k).2
      rcases hK _ _ hb with hrej | ⟨x, hx, h1, h2⟩
      · rw [answer_master hrej]; exact loadFromFile_old _ _ _ _
      · rcases hbh x hx with hx | rfl
        · simp [File.opened] at hx
          subst hx
          rw [answer_of_not_success ((loadFromFile_congr h1 h2 old).trans (hlf old))]
          exact .refl _
        · obtain ⟨e, he, hn⟩ := hg.empty
          rw [answer_master ⟨e, he, by rw [h1, hn]⟩]
          exact loadFromFile_old _ _ _ _
  · by_cases he : isIo e
    · have hrej : Rejected fmt b := ⟨e, he, hr⟩
      have hl : (load fmt o (.opened m b)).1 = clearBackup := by
        simp [load, Files.opened, File.opened, loadFromFile_rejected hrej]
      rw [hl, exec_clear_take] at hm hb
      rw [K.synced hm, answer_master hrej]
      have hbh := (frun_clear_take (File.opened b) (by simp [File.opened]) k).2
      have : Rejected fmt b' := by
        rcases hK _ _ hb with hrej | ⟨x, hx, h1, h2⟩
        · exact hrej
        · rcases hbh x hx with hx | rfl
          · simp [File.opened] at hx
            exact ⟨e, he, by rw [h1, hx, hr]⟩
          · obtain ⟨e, he, hn⟩ := hg.empty
            exact ⟨e, he, by rw [h1, hn]⟩
      rw [answer_master this]
      exact .refl _
    · have hl : (load fmt o (.opened m b)).1 = [] := by
        simp [load, Files.opened, File.opened, loadFromFile, hr, he]
      rw [hl, List.take_nil] at hm hb
      rw [K.synced hm, K.synced hb]; exact .refl _
  · have hl : (load fmt o (.opened m b)).1 = [] := by
      simp [load, Files.opened, File.opened, loadFromFile, hr]
    rw [hl, List.take_nil] at hm hb
    rw [K.synced hm, K.synced hb]; exact .refl _

/-- C44: whatever the files contain (if the backup reads as a value at all, one that the format can represent), after any number of interrupted `Load`s the next one answers what the first one
would have answered. -/
theorem c44_recovery_idempotent (fmt : Format V) (P : V → Prop) (hg : fmt.Good P) (K : Crash) (hK : Detects fmt K) (c c' : Bytes × Bytes)
    (hP : ∀ v, Holds fmt c.2 v → P v) (h : Interrupted fmt K c c') (old : V) :
    SameAnswer (answer fmt old c.1 c.2) (answer fmt old c'.1 c'.2) := by
  induction h with
  | none => exact .refl _
  | more o k hc _ ih =>
    exact (interrupted_once hg hK hP o k hc old).trans (ih fun v hv => hP v (interrupted_backup hg hK o k hc hv))

/-- C44: after a crash in `Save` and then any number of interrupted `Load`s, `Load` gives the value saved before or the
one being saved. -/
theorem c44_old_or_new (fmt : Format V) (P : V → Prop) (hg : fmt.Good P) (K : Crash) (hK : Detects fmt K) (d : Files) (u v : V)
    (hu : P u) (hv : P v) (k : Nat)
    (c c' : Bytes × Bytes) (h : Crashed K (save fmt v) k (exec (save fmt u) d) c.1 c.2) (hi : Interrupted fmt K c c')
    (old : V) :
    answer fmt old c'.1 c'.2 = (u, .ok true) ∨ answer fmt old c'.1 c'.2 = (v, .ok true) := by
  have hP : ∀ w, Holds fmt c.2 w → P w := by
    intro w hw
    rcases (save_crashed hg hK (m := fmt.enc u) (by rw [exec_save]; exact ⟨rfl, rfl, rfl, rfl⟩) hv k h).1 with hr | hh
    · exact absurd hr (holds_not_rejected hw)
    · have : Res.ok (w, c.2.length) = Res.ok (v, c.2.length) := by rw [← hw, ← hh]
      cases this
      exact hv
  obtain ⟨h1, h2⟩ := c44_recovery_idempotent fmt P hg K hK c c' hP hi old
  rcases c43_old_or_new fmt P hg K hK d u v hu hv k c.1 c.2 h old with h3 | h3 <;> rw [h3] at h1 h2
  · exact .inl (Prod.ext (h2 rfl).symm h1.symm)
  · exact .inr (Prod.ext (h2 rfl).symm h1.symm)

/-- C44: a `Load` that succeeded leaves the storage clean, with the value in the master, so a later one gives the same
value. -/
theorem c44_completed (fmt : Format V) (P : V → Prop) (hg : fmt.Good P) (old v : V) (hv : P v) (m b : Bytes)
    (h : answer fmt old m b = (v, .ok true)) :
    ∃ m', Clean (exec (load fmt old (.opened m b)).1 (.opened m b)) m' ∧
      ∀ old', answer fmt old' m' [] = (v, .ok true) := by
  unfold answer load at h
  unfold load
  dsimp only [Files.opened, File.opened] at h ⊢
  rcases hb : loadFromFile fmt old b with ⟨w, r⟩
  rw [hb] at h
  rcases r with r | e | _
  · cases r
    · dsimp only at h ⊢
      refine ⟨m, ?_, fun old' => ?_⟩
      · rw [clearBackup_eq, exec_backup, frun_clear]
        exact ⟨rfl, rfl, rfl, rfl⟩
      · rw [answer_master hg.empty]
        have := loadFromFile_old fmt m w old'
        rw [h] at this
        exact Prod.ext (this.2 rfl).symm this.1.symm
    · dsimp only at h ⊢
      cases h
      refine ⟨fmt.enc v, ?_, fun old' => ?_⟩
      · rw [writeToStream_eq, clearBackup_eq, exec_append, exec_master, exec_backup, frun_write, frun_clear]
        exact ⟨rfl, rfl, rfl, rfl⟩
      · rw [answer_master hg.empty, loadFromFile_holds (hg.roundTrip v hv)]
  · cases h
  · cases h

-- `Load` stopped after the first byte of the master was written, then stopped again while clearing the backup.
example : Interrupted pairFmt inOrder ([5, ~~~5], [7, ~~~7]) ([7, ~~~7], []) ∧
    answer pairFmt 0 [5, ~~~5] [7, ~~~7] = (7, .ok true) ∧ answer pairFmt 0 [7, ~~~7] [] = (7, .ok true) := by
  refine ⟨.more 0 2 (m := [7, ~~~5]) (b := [7, ~~~7]) ⟨?_, ?_⟩ (.more 0 7 ⟨?_, ?_⟩ (.none _)), ?_, ?_⟩
  · show _ ∈ _; decide
  · show _ ∈ _; decide
  · show _ ∈ _; decide
  · show _ ∈ _; decide
  · decide
  · decide

/-! ## C45 -/

/-- Attempts to save the values, each given up after the given number of operations (all of them: completed). -/
def attempts (fmt : Format V) : List (V × Nat) → Files → Files
  | [], d => d
  | (v, k) :: as, d => attempts fmt as (exec ((save fmt v).take k) d)

theorem attempts_retry {fmt : Format V} {w : V} {m : Bytes} : ∀ (as : List (V × Nat)) (d : Files),
    (∀ a ∈ as, a.1 = w) → Attempt fmt w m d → Attempt fmt w m (attempts fmt as d)
  | [], _, _, h => h
  | (v, k) :: as, d, ha, h => by
    have : v = w := ha (v, k) (by simp)
    subst this
    exact attempts_retry as _ (fun a h => ha a (by simp [h])) (attempt_step h k)

/-- C45 (part): the same value is tried any number of times, each attempt stopping anywhere, then the process stops: `Load`
gives what it would have given before the attempts or the value.  Missing: attempts with different values
(`c45_failed_saves_violated`).  Only for the crash model in which writes reach the disk in order: rewriting a complete
backup in place puts it at risk otherwise. -/
theorem c45_retry_partial (fmt : Format V) (P : V → Prop) (hg : fmt.Good P) (d : Files) (m : Bytes) (hc : Clean d m) (w : V)
    (hw : P w) (as : List (V × Nat)) (has : ∀ a ∈ as, a.1 = w) (cm cb : Bytes)
    (hm : cm ∈ (attempts fmt as d).master.hist) (hb : cb ∈ (attempts fmt as d).backup.hist) (old : V) :
    answer fmt old cm cb = answer fmt old m [] ∨ answer fmt old cm cb = (w, .ok true) := by
  have h := attempts_retry (fmt := fmt) as d has (attempt_clean hc w)
  refine conclude hg hw old (prefix_cases hg hw (h.bpre _ hb)) (fun hr => ?_)
  rcases h.safe with ⟨hs, _⟩ | ⟨hs, _⟩ | hs
  · rw [hs] at hm; exact .inl (by simpa using hm)
  · rw [hs] at hm; exact .inr (by simpa using hm)
  · exact absurd hr (holds_not_rejected (by rw [hs cb hb]; exact hg.roundTrip w hw))

/-- C45 (part): whatever happened before, after a completed `Save` of `u` one more attempt with another value is
harmless.  Missing: two of them. -/
theorem c45_one_failure_partial (fmt : Format V) (P : V → Prop) (hg : fmt.Good P) (K : Crash) (hK : Detects fmt K) (d : Files)
    (as : List (V × Nat)) (u v : V) (hu : P u) (hv : P v) (k : Nat) (cm cb : Bytes)
    (h : Crashed K (save fmt v) k (attempts fmt (as ++ [(u, (save fmt u).length)]) d) cm cb) (old : V) :
    answer fmt old cm cb = (u, .ok true) ∨ answer fmt old cm cb = (v, .ok true) := by
  have key : ∀ (as : List (V × Nat)) (d : Files), ∃ d', attempts fmt (as ++ [(u, (save fmt u).length)]) d =
      exec (save fmt u) d' := by
    intro as
    induction as with
    | nil => intro d; exact ⟨d, by simp [attempts]⟩
    | cons a as ih => intro d; exact ih _
  obtain ⟨d', hd⟩ := key as d
  rw [hd] at h
  exact c43_old_or_new fmt P hg K hK d' u v hu hv k cm cb h old

/-- C45 does not hold: 5 was saved, `Save(7)` failed while it was writing the master, `Save(9)` stopped while it was
writing the backup.  Both files then are mixtures and `Load` gives nothing at all.  No data was lost by the disk. -/
theorem c45_failed_saves_violated :
    let d := attempts pairFmt [(5, (save pairFmt 5).length), (7, 7), (9, 2)] (.opened [] [])
    d.master.cur = [7, ~~~5] ∧ d.backup.cur = [9, ~~~7] ∧
      answer pairFmt 0 d.master.cur d.backup.cur = (0, .ok false) := by
  decide

/-- C45 for all formats: if neither the bytes of `v` written over the first `i` bytes of those of `u` nor the bytes of
`w` over the first `j` of those of `v` can be read, `u`, `v` and `w` are all lost. -/
theorem c45_all_lost_violated (fmt : Format V) (u v w : V) (i j : Nat) (hi : i ≤ (fmt.enc v).length)
    (hj : j ≤ (fmt.enc w).length) (h1 : Rejected fmt ((fmt.enc v).take i ++ (fmt.enc u).drop i))
    (h2 : Rejected fmt ((fmt.enc w).take j ++ (fmt.enc v).drop j)) (d : Files) :
    ∃ kv kw, ∀ old, let d' := attempts fmt [(u, (save fmt u).length), (v, kv), (w, kw)] d
      answer fmt old d'.master.cur d'.backup.cur = (old, .ok false) := by
  have hseek : ∀ (e : Bytes) (n : Nat), n ≤ e.length → (writeOps e).take (n + 1) = .seek0 :: (e.take n).map .put := by
    intro e n hn
    unfold writeOps
    rw [List.cons_append, List.take_succ_cons, List.take_append_of_le_length (by simp; omega), ← List.map_take]
  refine ⟨(writeOps (fmt.enc v)).length + (i + 1), j + 1, fun old => ?_⟩
  simp only [attempts]
  rw [List.take_length, exec_save]
  have e1 : (save fmt v).take ((writeOps (fmt.enc v)).length + (i + 1)) =
      (writeOps (fmt.enc v)).map (fun x => (Which.backup, x)) ++
        (Prim.seek0 :: ((fmt.enc v).take i).map .put).map (fun x => (Which.master, x)) := by
    unfold save
    rw [writeToStream_eq, writeToStream_eq, List.append_assoc, List.take_append, List.take_of_length_le (by simp),
      List.length_map, Nat.add_sub_cancel_left, List.take_append_of_le_length (by simp [writeOps]; omega),
      ← List.map_take, hseek _ _ hi]
  have e2 : (save fmt w).take (j + 1) = (Prim.seek0 :: ((fmt.enc w).take j).map .put).map (fun x => (Which.backup, x)) := by
    unfold save
    rw [writeToStream_eq, List.append_assoc, List.take_append_of_le_length (by simp [writeOps]; omega), ← List.map_take,
      hseek _ _ hj]
  rw [e1, e2, exec_append, exec_backup, exec_master, exec_backup, frun_write]
  dsimp only
  rw [(frun_puts (fmt.enc v) _ i hi).1, (frun_puts (fmt.enc w) _ j hj).1]
  exact (answer_master h2 old _).trans (loadFromFile_rejected h1 old)

/-! ## C86 -/

/-- C86 (part): a `Load` that answers false leaves the value alone, provided that no file holds a value with something
behind it. -/
theorem c86_unchanged_partial (fmt : Format V) (old : V) (m b : Bytes)
    (hm : ∀ v p, fmt.read m = .ok (v, p) → p = m.length) (hb : ∀ v p, fmt.read b = .ok (v, p) → p = b.length)
    (h : (answer fmt old m b).2 ≠ .ok true) : (answer fmt old m b).1 = old := by
  have key : ∀ c, (∀ v p, fmt.read c = .ok (v, p) → p = c.length) → (loadFromFile fmt old c).2 ≠ .ok true →
      (loadFromFile fmt old c).1 = old := by
    intro c hc h
    unfold loadFromFile at h ⊢
    rcases hr : fmt.read c with ⟨v, p⟩ | e | _
    · exfalso
      rw [hr] at h
      simp [hc v p hr] at h
    · rfl
    · rfl
  have kb := key b hb
  have km := key m hm
  unfold answer load at h ⊢
  dsimp only [Files.opened, File.opened] at h ⊢
  rcases hlb : loadFromFile fmt old b with ⟨v, r⟩
  rw [hlb] at h kb
  rcases r with r | e | _
  · cases r
    · have : v = old := kb (by simp)
      subst this
      exact km h
    · simp at h
  · exact kb (by simp)
  · exact kb (by simp)

/-- C86 does not hold: the backup holds a value with one more byte behind it and the master cannot be read: `Load`
answers false but the object now holds 9. -/
theorem c86_failed_load_violated : answer pairFmt 0 [1, 1] [9, ~~~9, 0] = (9, .ok false) := by decide

-- no trailing bytes: unchanged
example : answer pairFmt 0 [1, 1] [9, 9] = (0, .ok false) := by decide

end Verif.Storage
