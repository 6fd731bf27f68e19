import Verif.Settings.DiskSpec
import Verif.Settings.DiskLemmas

namespace Verif.Settings.Disk

open Storage

variable {V : Type}

/-- The files named by `n` are there and satisfy `Q`. -/
def At (Q : Files → Prop) (s : Sys V) (n : Name) : Prop :=
  ∃ i j, s.dir (masterName n) = some i ∧ s.dir (backupName n) = some j ∧ Q (getFiles s i j)

theorem get_put (s : Sys V) {i j : Nat} (h : i ≠ j) (f : Files) : getFiles (putFiles s i j f) i j = f := by
  simp [getFiles, putFiles, upd_eq, h]

theorem get_put_other (s : Sys V) {i j i' j' : Nat} (h1 : i ≠ i') (h2 : i ≠ j') (h3 : j ≠ i') (h4 : j ≠ j') (f : Files) :
    getFiles (putFiles s i' j' f) i j = getFiles s i j := by
  simp [getFiles, putFiles, upd_eq, *]

/-- Files of different roles are different. -/
theorem roles {s : Sys V} {home : Nat → Name} (hw : Wf s home) {n : Name} {i j : Nat} (h1 : s.dir (masterName n) = some i)
    (h2 : s.dir (backupName n) = some j) {a : Nat} {o : Obj V} {i' j' : Nat} (ha : s.obj a = some o) (hf : o.fds = some (i', j')) :
    i ≠ j ∧ i ≠ j' ∧ j ≠ i' ∧ i' ≠ j' := by
  obtain ⟨_, _, m, q1, q2⟩ := hw.2 a o i' j' ha hf
  have p1 := (hw.1 _ _ h1).2
  have p2 := (hw.1 _ _ h2).2
  refine ⟨?_, ?_, ?_, ?_⟩ <;> rintro rfl
  · exact master_ne_backup n n (p1.symm.trans p2)
  · exact master_ne_backup n m (p1.symm.trans q2)
  · exact master_ne_backup m n (q1.symm.trans p2)
  · exact master_ne_backup m m (q1.symm.trans q2)

theorem names_lt {s : Sys V} {home : Nat → Name} (hw : Wf s home) {n : Name} {i j : Nat} (h1 : s.dir (masterName n) = some i)
    (h2 : s.dir (backupName n) = some j) : i < s.next ∧ j < s.next := ⟨(hw.1 _ _ h1).1, (hw.1 _ _ h2).1⟩

/-- A name keeps its file unless it is removed. -/
theorem dir_remove (s : Sys V) (m k : Name) (fm fb : Bool) (h1 : k ≠ masterName m) (h2 : k ≠ backupName m) : (removeBoth s m fm fb).1.dir k = s.dir k := by
  unfold removeBoth
  split
  · rfl
  · dsimp only; split
    · exact upd_other _ _ h1
    · show upd (upd s.dir (masterName m) none) (backupName m) none k = _
      rw [upd_other _ _ h2, upd_other _ _ h1]

theorem node_remove (s : Sys V) (m : Name) (fm fb : Bool) : (removeBoth s m fm fb).1.node = s.node := by
  unfold removeBoth
  split
  · rfl
  · dsimp only; split <;> rfl

theorem obj_remove (s : Sys V) (m : Name) (fm fb : Bool) : (removeBoth s m fm fb).1.obj = s.obj := by
  unfold removeBoth
  split
  · rfl
  · dsimp only; split <;> rfl

/-- The names are those of before unless the call removes settings. -/
theorem dir_step (fmt : Format V) {s : Sys V} {home : Nat → Name} (hw : Wf s home) (x : Act V) (n : Name) (hx : x.removes n = false) (k : Nat) :
    (s.dir (masterName n) = some k → (step fmt s x).1.dir (masterName n) = some k) ∧
    (s.dir (backupName n) = some k → (step fmt s x).1.dir (backupName n) = some k) := by
  cases x with
  | make a opt v => simp only [step]; split <;> exact ⟨id, id⟩
  | destroy a => simp only [step]; split <;> exact ⟨id, id⟩
  | set a v => simp only [step]; split <;> exact ⟨id, id⟩
  | close a => simp only [step]; split <;> exact ⟨id, id⟩
  | «open» a m fm fb =>
    simp only [step]; split
    · obtain ⟨_, q, _⟩ := openBoth_spec s m fm fb home hw
      exact ⟨fun h => q _ _ h, fun h => q _ _ h⟩
    · exact ⟨id, id⟩
  | load a rb rm fail =>
    simp only [step]; split
    · split <;> exact ⟨id, id⟩
    · exact ⟨id, id⟩
  | save a fail =>
    simp only [step]; split
    · split <;> exact ⟨id, id⟩
    · exact ⟨id, id⟩
  | remove a m fm fb =>
    have hm : n ≠ m := by rintro rfl; simp [Act.removes] at hx
    simp only [step]; split
    · rw [dir_remove _ _ _ _ _ (fun h => hm (master_inj h)) (master_ne_backup n m), dir_remove _ _ _ _ _ (fun h => master_ne_backup m n h.symm) (fun h => hm (backup_inj h))]
      exact ⟨id, id⟩
    · exact ⟨id, id⟩

/-- What is stored under a name is not changed by a quiet call. -/
theorem keep_step {fmt : Format V} {s : Sys V} {home : Nat → Name} (hw : Wf s home) {n : Name} {Q : Files → Prop} {reads : RF → Prop}
    (hQ : ∀ rb rm fail old f, reads rb → Q f → Q (loadD fmt rb rm fail old f).1) (h : At Q s n) {x : Act V} (hx : QuietAct reads s n x) :
    At Q (step fmt s x).1 n := by
  obtain ⟨i, j, h1, h2, h3⟩ := h
  have hr : x.removes n = false := by
    cases x <;> simp [Act.removes]
    exact hx
  refine ⟨i, j, (dir_step fmt hw x n hr i).1 h1, (dir_step fmt hw x n hr j).2 h2, ?_⟩
  obtain ⟨hi, hj⟩ := names_lt hw h1 h2
  cases x with
  | make a opt v => simp only [step]; split <;> exact h3
  | destroy a => simp only [step]; split <;> exact h3
  | set a v => simp only [step]; split <;> exact h3
  | close a => simp only [step]; split <;> exact h3
  | «open» a m fm fb =>
    simp only [step]; split
    · obtain ⟨_, _, _, q, _⟩ := openBoth_spec s m fm fb home hw
      show Q ⟨(openBoth s m fm fb).1.node i, (openBoth s m fm fb).1.node j⟩
      rw [q i hi, q j hj]; exact h3
    · exact h3
  | remove a m fm fb =>
    simp only [step]; split
    · show Q ⟨(removeBoth _ m fm fb).1.node i, (removeBoth _ m fm fb).1.node j⟩
      rw [node_remove]; exact h3
    · exact h3
  | save c fail =>
    simp only [step]; split
    · rename_i o ho
      split
      · exact h3
      · rename_i i' j' hf
        obtain ⟨_, p2, p3, _⟩ := roles hw h1 h2 ho hf
        have p1 : i ≠ i' := by rintro rfl; exact hx ⟨o, i, j', ho, hf, .inl h1⟩
        have p4 : j ≠ j' := by rintro rfl; exact hx ⟨o, i', j, ho, hf, .inr h2⟩
        show Q (getFiles (putFiles s i' j' _) i j)
        rw [get_put_other s p1 p2 p3 p4]; exact h3
    · exact h3
  | load c rb rm fail =>
    simp only [step]; split
    · rename_i o ho
      split
      · exact h3
      · rename_i i' j' hf
        obtain ⟨p0, p2, p3, _⟩ := roles hw h1 h2 ho hf
        show Q (getFiles (putFiles s i' j' _) i j)
        by_cases ht : Touches s c n
        · obtain ⟨⟨o1, i1, j1, q1, q2, q3, q4⟩, q5⟩ := hx ht
          have e0 : o1 = o := Option.some.inj (q1.symm.trans ho)
          subst e0
          have e1 : (i1, j1) = (i', j') := Option.some.inj (q2.symm.trans hf)
          simp only [Prod.mk.injEq] at e1
          obtain ⟨rfl, rfl⟩ := e1
          have e2 : i1 = i := Option.some.inj (q3.symm.trans h1)
          have e3 : j1 = j := Option.some.inj (q4.symm.trans h2)
          subst e2 e3
          rw [get_put s p0]
          exact hQ rb rm fail o1.val _ q5 h3
        · have p1 : i ≠ i' := by rintro rfl; exact ht ⟨o, i, j', ho, hf, .inl h1⟩
          have p4 : j ≠ j' := by rintro rfl; exact ht ⟨o, i', j, ho, hf, .inr h2⟩
          rw [get_put_other s p1 p2 p3 p4]; exact h3
    · exact h3

theorem keep_run {fmt : Format V} {n : Name} {Q : Files → Prop} {reads : RF → Prop}
    (hQ : ∀ rb rm fail old f, reads rb → Q f → Q (loadD fmt rb rm fail old f).1) :
    ∀ (l : List (Act V)) (s s' : Sys V) (home : Nat → Name), Wf s home → At Q s n → Quiet reads fmt n s l → run fmt s l = .ok s' →
      At Q s' n ∧ ∃ home', Wf s' home'
  | [], s, s', home, hw, h, _, hr => by simp [run] at hr; subst hr; exact ⟨h, home, hw⟩
  | x :: l, s, s', home, hw, h, hq, hr => by
    obtain ⟨home', h1, _⟩ := wf_step fmt hw x
    exact keep_run hQ l _ s' home' h1 (keep_step hw hQ h hq.1) hq.2 (run_cons hr).2

/-- Opening settings that are there, and loading them. -/
theorem finds_of_rec {fmt : Format V} {s : Sys V} {home : Nat → Name} (hw : Wf s home) {n : Name} {w : V} (h : At (RecF fmt · w) s n) : Finds fmt s n w := by
  intro b hb
  obtain ⟨o, ho⟩ := Option.isSome_iff_exists.1 hb
  obtain ⟨i, j, h1, h2, h3⟩ := h
  obtain ⟨hi, hj⟩ := names_lt hw h1 h2
  obtain ⟨q1, q2, _, q4, _, q6, q7, q8, _⟩ := openBoth_spec s n false false home hw
  obtain ⟨i', j', q8⟩ := q8 rfl rfl
  obtain ⟨q61, q62⟩ := q6 i' j' q8
  have e1 : i' = i := Option.some.inj (q61.symm.trans (q2 _ _ h1))
  have e2 : j' = j := Option.some.inj (q62.symm.trans (q2 _ _ h2))
  subst e1 e2
  rw [q8, h1, h2] at q7
  simp at q7
  obtain ⟨g, hg⟩ := load_rec_val (fmt := fmt) o.val w h3
  refine ⟨putObj (openBoth s n false false).1 b (some { o with fds := some (i', j') }), putObj (putFiles (putObj (openBoth s n false false).1 b (some { o with fds := some (i', j') })) i' j' g) b (some { val := w, fds := some (i', j'), opt := o.opt }), ?_, ?_, ?_⟩
  · simp only [step, ho]
    rw [q8, q7]; simp [swallow]
  · have hgf : getFiles (putObj (openBoth s n false false).1 b (some { o with fds := some (i', j') })) i' j' = getFiles s i' j' := by
      show (⟨(openBoth s n false false).1.node i', (openBoth s n false false).1.node j'⟩ : Files) = _
      rw [q4 _ hi, q4 _ hj]; rfl
    have hob : (putObj (openBoth s n false false).1 b (some { o with fds := some (i', j') })).obj b = some { o with fds := some (i', j') } := by simp [putObj]
    simp only [step, hob]
    rw [hgf, hg]; rfl
  · simp [valueOf, putObj]

/-- Opening settings that are not there, and loading them. -/
theorem finds_none {fmt : Format V} (he : Rejected fmt []) {s : Sys V} {home : Nat → Name} (hw : Wf s home) {n : Name}
    (h1 : s.dir (masterName n) = none) (h2 : s.dir (backupName n) = none) : FindsNone fmt s n := by
  intro b hb
  obtain ⟨o, ho⟩ := Option.isSome_iff_exists.1 hb
  obtain ⟨q1, q2, _, q4, _, q6, q7, q8, q9, q10⟩ := openBoth_spec s n false false home hw
  obtain ⟨i, j, q8⟩ := q8 rfl rfl
  rw [q8, h1, h2] at q7
  simp at q7
  rw [q8] at q9 q10
  have r1 := q9 i rfl h1
  have r2 := q10 j rfl h2
  let t := putObj (openBoth s n false false).1 b (some { o with fds := some (i, j) })
  have hob : t.obj b = some { o with fds := some (i, j) } := by simp [t, putObj]
  have hl : loadD fmt .ok .ok none o.val (getFiles t i j) = (exec clearBackup (getFiles t i j), o.val, .ok false) := by
    have hb' : (getFiles t i j).backup.cur = [] := r2
    have hm' : (getFiles t i j).master.cur = [] := r1
    obtain ⟨_, h⟩ := loadD_false (fmt := fmt) (rm := .ok) (fail := none) (rb := .ok) (old := o.val) (f := getFiles t i j) (readF_rejected (by rw [hb']; exact he) .ok o.val)
    rw [h rfl, hm', readF_rejected he]
  refine ⟨t, putObj (putFiles t i j (exec clearBackup (getFiles t i j))) b (some { o with fds := some (i, j) }), ?_, ?_, ?_⟩
  · simp only [step, ho]
    rw [q8, q7]; simp [swallow, t]
  · simp only [step, hob]
    rw [hl]; rfl
  · simp [valueOf, putObj, ho]

/-! ## Both files or none -/

theorem openFile_new {fail : Bool} {s s' : Sys V} {n : Name} {i : Nat} {x : Bool} (h : openFile fail s n = some (s', i, x)) (m : Name) (k : Nat)
    (hm : s'.dir m = some k) : s.dir m = some k ∨ s.next ≤ k := by
  unfold openFile at h
  split at h
  · simp at h
  · split at h
    · simp only [Option.some.injEq, Prod.mk.injEq] at h
      obtain ⟨rfl, _, _⟩ := h
      exact .inl hm
    · simp only [Option.some.injEq, Prod.mk.injEq] at h
      obtain ⟨rfl, _, _⟩ := h
      simp only [upd_eq] at hm
      split at hm
      · simp at hm; exact .inr (by omega)
      · exact .inl hm

theorem openBoth_new (s : Sys V) (n : Name) (fm fb : Bool) (m : Name) (k : Nat) (hm : (openBoth s n fm fb).1.dir m = some k) :
    s.dir m = some k ∨ s.next ≤ k := by
  unfold openBoth at hm
  rcases h1 : openFile fm s (masterName n) with _ | ⟨s1, i, x⟩
  · rw [h1] at hm; exact .inl hm
  · rw [h1] at hm
    dsimp only at hm
    obtain ⟨_, _, _, a4, _⟩ := openFile_some h1
    rcases h2 : openFile fb s1 (backupName n) with _ | ⟨s2, j, y⟩
    · rw [h2] at hm; exact openFile_new h1 m k hm
    · rw [h2] at hm
      rcases openFile_new h2 m k hm with h | h
      · exact openFile_new h1 m k h
      · exact .inr (by omega)

/-- An open storage has both files that are named, or none. -/
def Tog (s : Sys V) (home : Nat → Name) : Prop :=
  ∀ a o i j n, s.obj a = some o → o.fds = some (i, j) → home i = masterName n → (s.dir (masterName n) = some i ↔ s.dir (backupName n) = some j)

theorem tog_obj {s : Sys V} {home : Nat → Name} (h : Tog s home) (a : Nat) (o : Option (Obj V))
    (ho : ∀ x, o = some x → x.fds = none ∨ ∃ y, s.obj a = some y ∧ y.fds = x.fds) : Tog (putObj s a o) home := by
  intro b x i j n hb hx hn
  simp only [putObj, upd_eq] at hb
  split at hb
  · subst b
    rcases ho x hb with h1 | ⟨y, h1, h2⟩
    · rw [h1] at hx; simp at hx
    · exact h a y i j n h1 (h2.trans hx) hn
  · exact h b x i j n hb hx hn

theorem tog_step (fmt : Format V) {s : Sys V} {home : Nat → Name} (hw : Wf s home) (h : Tog s home) (x : Act V) (hx : x.halfRemoves = false) :
    ∃ home', Wf (step fmt s x).1 home' ∧ Tog (step fmt s x).1 home' := by
  cases x with
  | make a opt v =>
    simp only [step]; split
    · exact ⟨home, wf_obj hw _ _ (by rintro x i j hx hf; simp at hx; subst hx; simp at hf), tog_obj h _ _ (by rintro x hx; simp at hx; subst hx; exact .inl rfl)⟩
    · exact ⟨home, hw, h⟩
  | destroy a =>
    simp only [step]; split
    · exact ⟨home, wf_obj hw _ _ (by simp), tog_obj h _ _ (by simp)⟩
    · exact ⟨home, hw, h⟩
  | set a v =>
    simp only [step]; split
    · rename_i o ho
      exact ⟨home, wf_obj hw _ _ (by rintro x i j hx hf; simp at hx; subst hx; exact hw.2 a o i j ho hf), tog_obj h _ _ (by rintro x hx; simp at hx; subst hx; exact .inr ⟨o, ho, rfl⟩)⟩
    · exact ⟨home, hw, h⟩
  | close a =>
    simp only [step]; split
    · exact ⟨home, wf_obj hw _ _ (by rintro x i j hx hf; simp at hx; subst hx; simp at hf), tog_obj h _ _ (by rintro x hx; simp at hx; subst hx; exact .inl rfl)⟩
    · exact ⟨home, hw, h⟩
  | save a fail =>
    simp only [step]; split
    · split <;> exact ⟨home, hw, h⟩
    · exact ⟨home, hw, h⟩
  | load a rb rm fail =>
    simp only [step]; split
    · rename_i o ho
      split
      · exact ⟨home, hw, h⟩
      · rename_i i j hf
        exact ⟨home, wf_obj (wf_files hw i j _) _ _ (by rintro x i' j' hx hf'; simp at hx; subst hx; exact hw.2 a o i' j' ho hf'),
          tog_obj (s := putFiles s i j _) h _ _ (by rintro x hx; simp at hx; subst hx; exact .inr ⟨o, ho, rfl⟩)⟩
    · exact ⟨home, hw, h⟩
  | remove a m fm fb =>
    simp only [step]; split
    · have h1 : Wf (putObj s a (some { val := (by assumption : Obj V).val, fds := none, opt := (by assumption : Obj V).opt })) home :=
        wf_obj hw _ _ (by rintro x i j hx hf; simp at hx; subst hx; simp at hf)
      refine ⟨home, wf_remove h1 m fm fb, ?_⟩
      have h2 := tog_obj h a (some { val := (by assumption : Obj V).val, fds := none, opt := (by assumption : Obj V).opt }) (by rintro x hx; simp at hx; subst hx; exact .inl rfl)
      intro b x i j n hb hf hn
      rw [obj_remove] at hb
      have h3 := h2 b x i j n hb hf hn
      by_cases e : n = m
      · subst e
        cases fm
        · cases fb
          · simp [removeBoth, upd_eq, master_ne_backup]
          · simp [Act.halfRemoves] at hx
        · exact h3
      · rw [dir_remove _ _ _ _ _ (fun h => e (master_inj h)) (master_ne_backup n m), dir_remove _ _ _ _ _ (fun h => master_ne_backup m n h.symm) (fun h => e (backup_inj h))]
        exact h3
    · exact ⟨home, hw, h⟩
  | «open» a m fm fb =>
    simp only [step]; split
    · rename_i o ho
      obtain ⟨q1, q2, _, _, ⟨home', w1, w2, w3, w4⟩, q6, _⟩ := openBoth_spec s m fm fb home hw
      have q7 := openBoth_new s m fm fb
      rcases hq : openBoth s m fm fb with ⟨t, fds, r⟩
      rw [hq] at q1 q2 w1 w2 w4 q6 q7
      refine ⟨home', wf_obj w1 _ _ ?_, ?_⟩
      · rintro x i j hx hf
        simp at hx; subst hx
        obtain ⟨r1, r2, r3, r4⟩ := w4 i j hf
        exact ⟨r1, r2, m, r3, r4⟩
      · intro b x i j n hb hf hn
        simp only [putObj, upd_eq] at hb
        split at hb
        · simp at hb; subst hb
          obtain ⟨r1, r2⟩ := q6 i j hf
          obtain ⟨_, _, r3, _⟩ := w4 i j hf
          have e := master_inj (hn.symm.trans r3)
          subst e
          exact ⟨fun _ => r2, fun _ => r1⟩
        · have hb' : s.obj b = some x := q1 ▸ hb
          obtain ⟨l1, l2, _⟩ := hw.2 b x i j hb' hf
          have h3 := h b x i j n hb' hf (by rw [← w3 i l1]; exact hn)
          constructor
          · intro h4
            rcases q7 _ _ h4 with h5 | h5
            · exact q2 _ _ (h3.1 h5)
            · omega
          · intro h4
            rcases q7 _ _ h4 with h5 | h5
            · exact q2 _ _ (h3.2 h5)
            · omega
    · exact ⟨home, hw, h⟩

theorem tog_run (fmt : Format V) : ∀ (l : List (Act V)) (s s' : Sys V) (home : Nat → Name), Wf s home → Tog s home → (∀ x ∈ l, x.halfRemoves = false) →
    run fmt s l = .ok s' → ∃ home', Wf s' home' ∧ Tog s' home'
  | [], s, s', home, hw, h, _, hr => by simp [run] at hr; subst hr; exact ⟨home, hw, h⟩
  | x :: l, s, s', home, hw, h, hx, hr => by
    obtain ⟨home', h1, h2⟩ := tog_step fmt hw h x (hx x (by simp))
    exact tog_run fmt l _ s' home' h1 h2 (fun y hy => hx y (by simp [hy])) (run_cons hr).2

/-! ## Names that are not there -/

theorem gone_step (fmt : Format V) {s : Sys V} (x : Act V) (n : Name) (hx : x.opens n = false) (h1 : s.dir (masterName n) = none)
    (h2 : s.dir (backupName n) = none) : (step fmt s x).1.dir (masterName n) = none ∧ (step fmt s x).1.dir (backupName n) = none := by
  cases x with
  | make a opt v => simp only [step]; split <;> exact ⟨h1, h2⟩
  | destroy a => simp only [step]; split <;> exact ⟨h1, h2⟩
  | set a v => simp only [step]; split <;> exact ⟨h1, h2⟩
  | close a => simp only [step]; split <;> exact ⟨h1, h2⟩
  | load a rb rm fail =>
    simp only [step]; split
    · split <;> exact ⟨h1, h2⟩
    · exact ⟨h1, h2⟩
  | save a fail =>
    simp only [step]; split
    · split <;> exact ⟨h1, h2⟩
    · exact ⟨h1, h2⟩
  | remove a m fm fb =>
    have hd : ∀ (t : Sys V) k, t.dir k = none → (removeBoth t m fm fb).1.dir k = none := by
      intro t k hk
      unfold removeBoth
      split
      · exact hk
      · dsimp only; split
        · simp only [upd_eq]; split <;> simp [hk]
        · simp only [upd_eq]; split
          · rfl
          · split <;> simp [hk]
    simp only [step]; split
    · exact ⟨hd _ _ h1, hd _ _ h2⟩
    · exact ⟨h1, h2⟩
  | «open» a m fm fb =>
    have hm : n ≠ m := by rintro rfl; simp [Act.opens] at hx
    have ho : ∀ (t t' : Sys V) (f : Bool) (k k' : Name) (i : Nat) (y : Bool), openFile f t k' = some (t', i, y) → k ≠ k' → t'.dir k = t.dir k :=
      fun t t' f k k' i y ho hk => (openFile_some ho).2.2.2.2.1 k hk
    simp only [step]; split
    · have hk : ∀ k, k ≠ masterName m → k ≠ backupName m → (openBoth s m fm fb).1.dir k = s.dir k := by
        intro k hk1 hk2
        unfold openBoth
        rcases e1 : openFile fm s (masterName m) with _ | ⟨s1, i, x⟩
        · rfl
        · dsimp only
          rcases e2 : openFile fb s1 (backupName m) with _ | ⟨s2, j, y⟩
          · exact ho _ _ _ _ _ _ _ e1 hk1
          · exact (ho _ _ _ _ _ _ _ e2 hk2).trans (ho _ _ _ _ _ _ _ e1 hk1)
      refine ⟨?_, ?_⟩
      · show (openBoth s m fm fb).1.dir (masterName n) = none
        rw [hk _ (fun h => hm (master_inj h)) (master_ne_backup n m)]; exact h1
      · show (openBoth s m fm fb).1.dir (backupName n) = none
        rw [hk _ (fun h => master_ne_backup m n h.symm) (fun h => hm (backup_inj h))]; exact h2
    · exact ⟨h1, h2⟩

theorem gone_run (fmt : Format V) (n : Name) : ∀ (l : List (Act V)) (s s' : Sys V), (∀ x ∈ l, x.opens n = false) → run fmt s l = .ok s' →
    s.dir (masterName n) = none → s.dir (backupName n) = none → s'.dir (masterName n) = none ∧ s'.dir (backupName n) = none
  | [], s, s', _, hr, h1, h2 => by simp [run] at hr; subst hr; exact ⟨h1, h2⟩
  | x :: l, s, s', hx, hr, h1, h2 => by
    obtain ⟨h3, h4⟩ := gone_step fmt x n (hx x (by simp)) h1 h2
    exact gone_run fmt n l _ s' (fun y hy => hx y (by simp [hy])) (run_cons hr).2 h3 h4

end Verif.Settings.Disk
