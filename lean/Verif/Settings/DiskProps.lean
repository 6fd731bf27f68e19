import Verif.Settings.DiskKeep

/-! # Settings are found again by their names (C141) -/

namespace Verif.Settings.Disk

open Storage

variable {V : Type}

theorem reach_wf {fmt : Format V} {l : List (Act V)} {s : Sys V} (h : Reach fmt l s) : ∃ home, Wf s home := wf_run fmt l _ s _ wf_init h

/-- **C141.**  Different settings have different files. -/
theorem c141_names (n m : Name) : masterName n ≠ backupName m ∧ (n ≠ m → masterName n ≠ masterName m ∧ backupName n ≠ backupName m) :=
  ⟨master_ne_backup n m, fun h => ⟨fun e => h (master_inj e), fun e => h (backup_inj e)⟩⟩

/-- **C141.**  `open` that returns has opened the files of that name and told whether one of them was there; if it throws the object is closed and what was stored under the names is still there.
An optional object is not told of the error. -/
theorem c141_open (fmt : Format V) (l : List (Act V)) (s : Sys V) (hs : Reach fmt l s) (a : Nat) (o : Obj V) (ha : s.obj a = some o) (n : Name) (fm fb : Bool) :
    (∀ m k, s.dir m = some k → (step fmt s (.open a n fm fb)).1.dir m = some k ∧ (step fmt s (.open a n fm fb)).1.node k = s.node k) ∧
    ((OpenAs (step fmt s (.open a n fm fb)).1 a n ∧
        (step fmt s (.open a n fm fb)).2 = .ok (some ((s.dir (masterName n)).isSome || (s.dir (backupName n)).isSome))) ∨
     ((step fmt s (.open a n fm fb)).1.obj a = some { o with fds := none } ∧ (fm = true ∨ fb = true) ∧
        (step fmt s (.open a n fm fb)).2 = if o.opt then .ok (some false) else .throw .io)) := by
  obtain ⟨home, hw⟩ := reach_wf hs
  obtain ⟨q1, q2, _, q4, _, q6, q7, q8, _⟩ := openBoth_spec s n fm fb home hw
  simp only [step, ha]
  refine ⟨fun m k hm => ⟨q2 m k hm, q4 k (hw.1 m k hm).1⟩, ?_⟩
  rcases q7 with ⟨h1, h2⟩ | ⟨h1, i, j, h2⟩
  · right
    refine ⟨by simp [putObj, h2], ?_, ?_⟩
    · cases fm <;> cases fb <;> simp
      obtain ⟨i, j, h⟩ := q8 rfl rfl
      rw [h2] at h; simp at h
    · rw [h1]; cases o.opt <;> simp [swallow, isIo]
  · left
    refine ⟨⟨{ o with fds := some (i, j) }, i, j, by simp [putObj, h2], rfl, q6 i j h2⟩, ?_⟩
    rw [h1]; simp [swallow]

/-- **C141.**  An object stays with its settings until it is told otherwise or somebody removes them. -/
theorem c141_stays_open (fmt : Format V) (l : List (Act V)) (s : Sys V) (hs : Reach fmt l s) (a : Nat) (n : Name) (ho : OpenAs s a n) (x : Act V)
    (hx : x.rebinds a = false) (hr : x.removes n = false) (hu : (step fmt s x).2 ≠ .ub) : OpenAs (step fmt s x).1 a n := by
  obtain ⟨home, hw⟩ := reach_wf hs
  obtain ⟨o, i, j, h1, h2, h3, h4⟩ := ho
  have hd3 := (dir_step fmt hw x n hr i).1 h3
  have hd4 := (dir_step fmt hw x n hr j).2 h4
  suffices h : ∃ o', (step fmt s x).1.obj a = some o' ∧ o'.fds = some (i, j) by
    obtain ⟨o', e1, e2⟩ := h
    exact ⟨o', i, j, e1, e2, hd3, hd4⟩
  have other : ∀ (t : Sys V) b q, t.obj = s.obj → b ≠ a → ∃ o', (putObj t b q).obj a = some o' ∧ o'.fds = some (i, j) := by
    intro t b q ht hb
    exact ⟨o, by simp only [putObj]; rw [upd_other _ _ (Ne.symm hb), ht, h1], h2⟩
  cases x with
  | make b opt v =>
    simp only [step] at hu ⊢
    split
    · rename_i hb
      by_cases e : b = a
      · subst e; rw [h1] at hb; simp at hb
      · exact other _ _ _ rfl e
    · exact ⟨o, h1, h2⟩
  | destroy b =>
    have e : b ≠ a := by simpa [Act.rebinds] using hx
    simp only [step]; split
    · exact other _ _ _ rfl e
    · exact ⟨o, h1, h2⟩
  | close b =>
    have e : b ≠ a := by simpa [Act.rebinds] using hx
    simp only [step]; split
    · exact other _ _ _ rfl e
    · exact ⟨o, h1, h2⟩
  | «open» b m fm fb =>
    have e : b ≠ a := by simpa [Act.rebinds] using hx
    simp only [step]; split
    · exact other _ _ _ (openBoth_spec s m fm fb home hw).1 e
    · exact ⟨o, h1, h2⟩
  | remove b m fm fb =>
    have e : b ≠ a := by simpa [Act.rebinds] using hx
    simp only [step]; split
    · rw [obj_remove]
      exact other _ _ _ rfl e
    · exact ⟨o, h1, h2⟩
  | set b v =>
    simp only [step]; split
    · rename_i q hq
      by_cases e : b = a
      · subst e
        rw [h1] at hq; simp at hq; subst hq
        exact ⟨{ o with val := v }, by simp [putObj], h2⟩
      · exact other _ _ _ rfl e
    · exact ⟨o, h1, h2⟩
  | save b fail =>
    simp only [step]; split
    · split <;> exact ⟨o, h1, h2⟩
    · exact ⟨o, h1, h2⟩
  | load b rb rm fail =>
    simp only [step]; split
    · rename_i q hq
      split
      · exact ⟨o, h1, h2⟩
      · rename_i i' j' _
        by_cases e : b = a
        · subst e
          rw [h1] at hq; simp at hq; subst hq
          exact ⟨{ o with val := (loadD fmt rb rm fail o.val (getFiles s i' j')).2.1 }, by simp only [putObj, upd_same], h2⟩
        · exact other _ _ _ rfl e
    · exact ⟨o, h1, h2⟩

/-- **C141.**  An object that has settings open does not touch the files of others. -/
theorem c141_isolated (fmt : Format V) (l : List (Act V)) (s : Sys V) (hs : Reach fmt l s) (c : Nat) (m n : Name) (ho : OpenAs s c m) (hn : m ≠ n) : ¬ Touches s c n := by
  obtain ⟨home, hw⟩ := reach_wf hs
  obtain ⟨o, i, j, h1, h2, h3, h4⟩ := ho
  rintro ⟨o', i', j', h1', h2', h⟩
  have e0 : o = o' := Option.some.inj (h1.symm.trans h1')
  subst e0
  have e1 : (i, j) = (i', j') := Option.some.inj (h2.symm.trans h2')
  simp only [Prod.mk.injEq] at e1
  obtain ⟨rfl, rfl⟩ := e1
  rcases h with h | h
  · exact hn (master_inj ((hw.1 _ _ h3).2.symm.trans (hw.1 _ _ h).2))
  · exact hn (backup_inj ((hw.1 _ _ h4).2.symm.trans (hw.1 _ _ h).2))

/-- **C141.**  Unless a `remove` failed half way, an object has both files of settings open or none. -/
theorem c141_together (fmt : Format V) (l : List (Act V)) (s : Sys V) (hs : Reach fmt l s) (hl : ∀ x ∈ l, x.halfRemoves = false) (c : Nat) (n : Name)
    (ht : Touches s c n) : OpenAs s c n := by
  obtain ⟨home, hw, h⟩ := tog_run fmt l init s (fun _ => []) wf_init (by intro a o i j n ha; simp [init] at ha) hl hs
  obtain ⟨o, i, j, h1, h2, h3⟩ := ht
  obtain ⟨_, _, m, p1, p2⟩ := hw.2 c o i j h1 h2
  have e : m = n := by
    rcases h3 with h3 | h3
    · exact master_inj (p1.symm.trans (hw.1 _ _ h3).2)
    · exact backup_inj (p2.symm.trans (hw.1 _ _ h3).2)
  subst e
  have h4 := h c o i j m h1 h2 p1
  rcases h3 with h3 | h3
  · exact ⟨o, i, j, h1, h2, h3, h4.1 h3⟩
  · exact ⟨o, i, j, h1, h2, h4.2 h3, h3⟩

/-- The files of the object that saves. -/
theorem save_at {fmt : Format V} {s : Sys V} {home : Nat → Name} (hw : Wf s home) {a : Nat} {n : Name} {o : Obj V} (ha : s.obj a = some o) (ho : OpenAs s a n)
    (fail : Option Nat) {Q Q' : Files → Prop} (hQ : ∀ f, Q f → Q' (runProg fail (save fmt o.val) f).1) (h : At Q s n) : At Q' (step fmt s (.save a fail)).1 n := by
  obtain ⟨o', i, j, h1, h2, h3, h4⟩ := ho
  have e0 : o' = o := Option.some.inj (h1.symm.trans ha)
  subst e0
  obtain ⟨i', j', q1, q2, q3⟩ := h
  have e1 : i' = i := Option.some.inj (q1.symm.trans h3)
  have e2 : j' = j := Option.some.inj (q2.symm.trans h4)
  subst e1 e2
  refine ⟨i', j', ?_, ?_, ?_⟩
  · simp only [step, h1, h2]; exact h3
  · simp only [step, h1, h2]; exact h4
  · simp only [step, h1, h2]
    rw [get_put s (roles hw h3 h4 h1 h2).1]
    exact hQ _ q3

/-- **C141.**  What was saved is found: after a `save` that returned (for an optional object: if the file system did not fail), whatever else the program does with other settings and with these,
but for saving and removing them, whatever fails meanwhile, reading the backup included, every object that opens the settings and loads them without errors gets the value. -/
theorem c141_saved (fmt : Format V) (P : V → Prop) (hg : fmt.Good P) (l : List (Act V)) (s s' : Sys V) (hs : Reach fmt l s) (a : Nat) (n : Name) (o : Obj V)
    (ha : s.obj a = some o) (ho : OpenAs s a n) (hv : P o.val) (fail : Option Nat) (hf : o.opt = false ∨ fail = none)
    (hsave : step fmt s (.save a fail) = (s', .ok none)) (l' : List (Act V)) (s'' : Sys V) (hq : Quiet (fun _ => True) fmt n s' l') (hr : run fmt s' l' = .ok s'') :
    Finds fmt s'' n o.val := by
  obtain ⟨home, hw⟩ := reach_wf hs
  have hfull : ∀ f, (runProg fail (save fmt o.val) f).1 = (runProg none (save fmt o.val) f).1 := by
    intro f
    rcases fail with _ | k
    · rfl
    · rcases hf with hf | hf
      · unfold runProg
        dsimp only
        split
        · rename_i hk
          exfalso
          obtain ⟨o', i, j, h1, h2, _⟩ := ho
          have e0 : o' = o := Option.some.inj (h1.symm.trans ha)
          subst e0
          simp only [step, h1, h2] at hsave
          simp [runProg, hk, swallow, hf] at hsave
        · rfl
      · simp at hf
  obtain ⟨o', i, j, h1, h2, h3, h4⟩ := ho
  have hat : At (CleanF fmt · o.val) s' n := by
    have := save_at (fmt := fmt) hw ha ⟨o', i, j, h1, h2, h3, h4⟩ fail (Q := fun _ => True) (Q' := (CleanF fmt · o.val))
      (fun f _ => by rw [hfull]; exact save_none hg o.val hv f) ⟨i, j, h3, h4, trivial⟩
    rwa [hsave] at this
  obtain ⟨home', hw', _⟩ := wf_step fmt hw (.save a fail)
  rw [hsave] at hw'
  obtain ⟨h5, home'', h6⟩ := keep_run (reads := fun _ => True) (fun rb rm fail old f _ h => load_clean hg.empty rb rm fail old o.val h) l' s' s'' home' hw' hat hq hr
  obtain ⟨i, j, q1, q2, q3⟩ := h5
  exact finds_of_rec h6 ⟨i, j, q1, q2, q3.rec hg.empty⟩

/-- **C141.**  One save that fails anywhere leaves the old or the new value: it is what every object finds that opens the settings and loads them, after loads that may themselves have failed, unless
reading the backup failed. -/
theorem c141_failed_save_partial (fmt : Format V) (P : V → Prop) (hg : fmt.Good P) (l l1 : List (Act V)) (s0 s1 s2 s3 s4 : Sys V) (hs : Reach fmt l s0) (a : Nat) (n : Name) (u : V)
    (ha : valueOf s0 a = some u) (ho : OpenAs s0 a n) (hu : P u) (hsave : step fmt s0 (.save a none) = (s1, .ok none))
    (hq : Quiet (fun _ => True) fmt n s1 l1) (hr : run fmt s1 l1 = .ok s2) (b : Nat) (v : V) (hb : valueOf s2 b = some v) (hbo : OpenAs s2 b n) (hv : P v) (fail : Option Nat)
    (r : Res (Option Bool)) (hfail : step fmt s2 (.save b fail) = (s3, r)) (l' : List (Act V)) (hq' : Quiet (· = .ok) fmt n s3 l') (hr' : run fmt s3 l' = .ok s4) :
    Finds fmt s4 n u ∨ Finds fmt s4 n v := by
  obtain ⟨home, hw⟩ := reach_wf hs
  obtain ⟨o, ha', rfl⟩ : ∃ o, s0.obj a = some o ∧ o.val = u := by
    unfold valueOf at ha; rcases h : s0.obj a with _ | o <;> rw [h] at ha <;> simp at ha; exact ⟨o, rfl, ha⟩
  obtain ⟨o2, hb', rfl⟩ : ∃ o, s2.obj b = some o ∧ o.val = v := by
    unfold valueOf at hb; rcases h : s2.obj b with _ | o <;> rw [h] at hb <;> simp at hb; exact ⟨o, rfl, hb⟩
  have hat : At (CleanF fmt · o.val) s1 n := by
    obtain ⟨o', i, j, h1, h2, h3, h4⟩ := ho
    have := save_at (fmt := fmt) hw ha' ⟨o', i, j, h1, h2, h3, h4⟩ none (Q := fun _ => True) (Q' := (CleanF fmt · o.val)) (fun f _ => save_none hg o.val hu f) ⟨i, j, h3, h4, trivial⟩
    rwa [hsave] at this
  obtain ⟨home1, hw1, _⟩ := wf_step fmt hw (.save a none)
  rw [hsave] at hw1
  obtain ⟨h5, home2, h6⟩ := keep_run (reads := fun _ => True) (fun rb rm fail old f _ h => load_clean hg.empty rb rm fail old o.val h) l1 s1 s2 home1 hw1 hat hq hr
  obtain ⟨home3, hw3, _⟩ := wf_step fmt h6 (.save b fail)
  have h7 := save_at (fmt := fmt) h6 hb' hbo fail (Q := (CleanF fmt · o.val)) (Q' := fun f => RecF fmt f o.val ∨ RecF fmt f o2.val)
    (fun f hf => save_rec hg fail o.val o2.val hv hf) h5
  rw [hfail] at hw3 h7
  obtain ⟨i, j, q1, q2, q3⟩ := h7
  rcases q3 with q3 | q3
  · obtain ⟨h8, home4, h9⟩ := keep_run (reads := (· = .ok)) (Q := (RecF fmt · o.val)) (by rintro rb rm fail old f rfl h; exact load_rec hg rm fail old o.val hu h) l' s3 s4 home3 hw3 ⟨i, j, q1, q2, q3⟩ hq' hr'
    exact .inl (finds_of_rec h9 h8)
  · obtain ⟨h8, home4, h9⟩ := keep_run (reads := (· = .ok)) (Q := (RecF fmt · o2.val)) (by rintro rb rm fail old f rfl h; exact load_rec hg rm fail old o2.val hv h) l' s3 s4 home3 hw3 ⟨i, j, q1, q2, q3⟩ hq' hr'
    exact .inr (finds_of_rec h9 h8)

/-- **C141.**  Removed settings are gone: until somebody opens them again, an object that does so is told that they are new and keeps its value. -/
theorem c141_removed (fmt : Format V) (he : Rejected fmt []) (l : List (Act V)) (s s' : Sys V) (hs : Reach fmt l s) (a : Nat) (n : Name) (fm fb : Bool)
    (hrem : step fmt s (.remove a n fm fb) = (s', .ok none)) (l' : List (Act V)) (s'' : Sys V) (ho : ∀ x ∈ l', x.opens n = false) (hr : run fmt s' l' = .ok s'') :
    FindsNone fmt s'' n := by
  obtain ⟨home, hw⟩ := reach_wf hs
  obtain ⟨home', hw', _⟩ := wf_step fmt hw (.remove a n fm fb)
  rw [hrem] at hw'
  have hd : s'.dir (masterName n) = none ∧ s'.dir (backupName n) = none := by
    simp only [step] at hrem
    split at hrem
    · cases fm <;> cases fb <;> simp [removeBoth] at hrem
      rw [← hrem]
      simp [upd_eq]
    · simp at hrem
  obtain ⟨h1, h2⟩ := gone_run fmt n l' s' s'' ho hr hd.1 hd.2
  obtain ⟨home'', h3⟩ := wf_run fmt l' s' s'' home' hw' hr
  exact finds_none he h3 h1 h2

/-- **C141.**  A call of an existing object is not undefined, whatever fails. -/
theorem c141_no_ub (fmt : Format V) (hf : ∀ c, fmt.read c ≠ .ub) (s : Sys V) (a : Nat) (o : Obj V) (ha : s.obj a = some o) (n : Name) (fm fb : Bool) (rb rm : RF) (fail : Option Nat) :
    (step fmt s (.open a n fm fb)).2 ≠ .ub ∧ (step fmt s (.load a rb rm fail)).2 ≠ .ub ∧ (step fmt s (.save a fail)).2 ≠ .ub ∧ (step fmt s (.close a)).2 ≠ .ub ∧
    (step fmt s (.remove a n fm fb)).2 ≠ .ub := by
  have hl : ∀ (rf : RF) (old : V) c, (readF fmt rf old c).2 ≠ .ub := by
    intro rf old c
    have h0 : (loadFromFile fmt old c).2 ≠ .ub := by
      unfold loadFromFile
      rcases h : fmt.read c with ⟨v, p⟩ | e | _
      · simp
      · simp; split <;> simp
      · exact absurd h (hf c)
    cases rf with
    | ok => exact h0
    | early => simp [readF]
    | late =>
      simp only [readF]
      rcases h : loadFromFile fmt old c with ⟨v, r⟩
      rw [h] at h0
      rcases r with _ | _ | _ <;> simp_all
  refine ⟨?_, ?_, ?_, ?_, ?_⟩
  · simp only [step, ha]
    have : (openBoth s n fm fb).2.2 ≠ .ub := by
      unfold openBoth
      rcases openFile fm s (masterName n) with _ | ⟨s1, i, x⟩
      · simp
      · dsimp only; rcases openFile fb s1 (backupName n) with _ | ⟨s2, j, y⟩ <;> simp
    rcases h : (openBoth s n fm fb).2.2 with x | e | _
    · simp [swallow]
    · simp only [swallow]; split <;> simp
    · exact absurd h this
  · simp only [step, ha]
    split
    · simp
    · rename_i i j _
      have : (loadD fmt rb rm fail o.val (getFiles s i j)).2.2 ≠ .ub := by
        unfold loadD
        have h1 := hl rb o.val (getFiles s i j).backup.cur
        rcases hb : readF fmt rb o.val (getFiles s i j).backup.cur with ⟨v, r⟩
        rw [hb] at h1
        rcases r with x | e | _
        · dsimp only
          rcases hp : runProg fail (if x = true then writeToStream .master (fmt.enc v) ++ clearBackup else clearBackup) (getFiles s i j) with ⟨g, q⟩
          have hq := runProg_res fail (if x = true then writeToStream .master (fmt.enc v) ++ clearBackup else clearBackup) (getFiles s i j)
          rw [hp] at hq
          rcases q with _ | _ | _
          · dsimp only; split
            · simp
            · exact hl rm v _
          · simp
          · simp at hq
        · simp
        · simp at h1
      dsimp only
      rcases h : (loadD fmt rb rm fail o.val (getFiles s i j)).2.2 with x | e | _
      · simp
      · simp
      · exact absurd h this
  · simp only [step, ha]
    split
    · split <;> simp
    · rename_i i j _
      rcases runProg_res fail (save fmt o.val) (getFiles s i j) with h | h
      · rw [h]; simp [swallow]
      · rw [h]; simp only [swallow]; split <;> simp
  · simp [step, ha]
  · simp only [step, ha, removeBoth]
    split
    · simp
    · split <;> simp

/-! ## Violations -/

/-- The settings `x`. -/
def nx : Name := ['x']

/-- How a call ends after a history. -/
def after (l : List (Act UInt8)) (x : Act UInt8) : Option (Res (Option Bool)) :=
  match run pairFmt init l with
  | .ok s => some (step pairFmt s x).2
  | _ => none

/-- The value of an object after a history. -/
def valAfter (l : List (Act UInt8)) (a : Nat) : Option UInt8 :=
  match run pairFmt init l with
  | .ok s => valueOf s a
  | _ => none

/-- The value 5 is saved; saving 7 fails in the middle of the master file (the backup has the new value). -/
def torn : List (Act UInt8) := [.make 0 false 5, .open 0 nx false false, .save 0 none, .set 0 7, .save 0 (some 7)]

/-- **C141 is violated**: after a save that failed the backup has the value, and a load gives it; but if reading the backup fails once, the load clears the backup nevertheless, and both values are lost for ever: every load
of any object answers that there is nothing. -/
theorem c141_read_error_violated :
    after torn (.load 0 .ok .ok none) = some (.ok (some true)) ∧
    after torn (.load 0 .early .ok none) = some (.ok (some false)) ∧
    after (torn ++ [.load 0 .early .ok none, .make 1 false 0, .open 1 nx false false]) (.load 1 .ok .ok none) = some (.ok (some false)) ∧
    valAfter (torn ++ [.load 0 .early .ok none, .make 1 false 0, .open 1 nx false false, .load 1 .ok .ok none]) 1 = some 0 := by
  decide +kernel

/-- **C141 is violated**: an object whose settings another one has removed saves without an error into files that nobody can open. -/
theorem c141_orphan_violated :
    after [.make 0 false 5, .open 0 nx false false, .make 1 false 0, .remove 1 nx false false] (.save 0 none) = some (.ok none) ∧
    after [.make 0 false 5, .open 0 nx false false, .make 1 false 0, .remove 1 nx false false, .save 0 none] (.open 1 nx false false) = some (.ok (some false)) := by
  decide +kernel

/-- **C141 is violated**: a `remove` that fails half way and a load of the object that still has the removed master open: the value in the backup goes to the removed file, and is lost for the settings. -/
theorem c141_half_removed_violated :
    after (torn ++ [.make 1 false 0, .remove 1 nx false true, .open 1 nx false false]) (.load 1 .ok .ok none) = some (.ok (some true)) ∧
    after (torn ++ [.make 1 false 0, .remove 1 nx false true, .open 1 nx false false, .load 0 .ok .ok none]) (.load 1 .ok .ok none) = some (.ok (some false)) := by
  decide +kernel

/-! ## Non-vacuity -/

-- a failed load, a failed open of other settings and a remove of other settings: the saved value is found
example : after [.make 0 false 5, .make 1 true 9, .open 0 nx false false, .save 0 none, .open 1 ['y'] false true, .load 0 .early .late (some 1), .remove 1 ['z'] false false, .open 1 nx false false]
    (.load 1 .ok .ok none) = some (.ok (some true)) := by decide +kernel
example : valAfter [.make 0 false 5, .make 1 true 9, .open 0 nx false false, .save 0 none, .open 1 ['y'] false true, .load 0 .early .late (some 1), .remove 1 ['z'] false false, .open 1 nx false false,
    .load 1 .ok .ok none] 1 = some 5 := by decide +kernel
-- a failed save: the new value, or the old one if it failed earlier
example : valAfter (torn ++ [.load 0 .ok .ok (some 2), .make 1 false 0, .open 1 nx false false, .load 1 .ok .ok none]) 1 = some 7 := by decide +kernel
example : valAfter [.make 0 false 5, .open 0 nx false false, .save 0 none, .set 0 7, .save 0 (some 2), .load 0 .ok .ok none] 0 = some 5 := by decide +kernel
-- removed settings are new
example : after (torn ++ [.remove 0 nx false false, .make 1 false 3]) (.open 1 nx false false) = some (.ok (some false)) := by decide +kernel
example : valAfter (torn ++ [.remove 0 nx false false, .make 1 false 3, .open 1 nx false false, .load 1 .ok .ok none]) 1 = some 3 := by decide +kernel
-- an object that fails to open is closed, and saving throws or is ignored
example : after [.make 0 false 5, .open 0 nx false true] (.save 0 none) = some (.throw .io) := by decide +kernel
example : after [.make 0 true 5, .open 0 nx false true] (.save 0 none) = some (.ok none) := by decide +kernel
example : after [.make 0 false 5] (.open 0 nx false true) = some (.throw .io) := by decide +kernel

end Verif.Settings.Disk
