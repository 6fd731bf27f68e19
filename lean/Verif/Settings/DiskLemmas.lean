import Verif.Settings.DiskModel
import Verif.Settings.Lemmas
import Verif.Storage.Props

namespace Verif.Settings.Disk

open Storage

variable {V : Type}

/-! ## Names -/

theorem master_ne_backup (n m : Name) : masterName n ≠ backupName m := by
  intro h
  have := congrArg (fun l => l.getLast?) h
  simp [masterName, backupName] at this

theorem master_inj {n m : Name} (h : masterName n = masterName m) : n = m := by
  simpa [masterName] using h

theorem backup_inj {n m : Name} (h : backupName n = backupName m) : n = m := by
  simpa [backupName] using h

@[simp] theorem upd_same {α β : Type} [DecidableEq α] (f : α → β) (a : α) (b : β) : upd f a b a = b := by simp [upd]

theorem upd_other {α β : Type} [DecidableEq α] (f : α → β) {a x : α} (b : β) (h : x ≠ a) : upd f a b x = f x := by simp [upd, h]

theorem upd_eq {α β : Type} [DecidableEq α] (f : α → β) (a x : α) (b : β) : upd f a b x = if x = a then b else f x := rfl

/-! ## Contents of files -/

theorem frun_cur : ∀ (p : List Prim) (f g : File), f.cur = g.cur → f.pos = g.pos → (frun p f).cur = (frun p g).cur
  | [], _, _, h, _ => h
  | x :: p, f, g, h1, h2 => by
    show (frun p (f.step x)).cur = (frun p (g.step x)).cur
    refine frun_cur p _ _ ?_ ?_ <;> cases x <;> simp [File.step, h1, h2]

theorem clear_cur (f : File) (k : Nat) : (frun (clearOps.take k) f).cur = f.cur ∨ (frun (clearOps.take k) f).cur = [] := by
  have h := frun_clear_take ⟨f.cur, f.pos, [f.cur]⟩ (by simp) k
  dsimp only at h
  rw [frun_cur _ f ⟨f.cur, f.pos, [f.cur]⟩ rfl rfl]
  rcases h.2 _ h.1 with h | h
  · left; simpa using h
  · right; exact h

theorem write_cur (e : Bytes) (f : File) (k : Nat) :
    (frun ((writeOps e).take k) f).cur = f.cur ∨ (frun ((writeOps e).take k) f).cur = e ∨
      ∃ i, (frun ((writeOps e).take k) f).cur = over e f.cur i := by
  have h := frun_write_take e ⟨f.cur, f.pos, [f.cur]⟩ (by simp) k
  dsimp only at h
  rw [frun_cur _ f ⟨f.cur, f.pos, [f.cur]⟩ rfl rfl]
  rcases h.2 _ h.1 with h | h | ⟨i, _, h⟩
  · left; simpa using h
  · right; left; exact h
  · right; right; exact ⟨i, h⟩

theorem runProg_take (fail : Option Nat) (p : Prog) (d : Files) : ∃ k, (runProg fail p d).1 = exec (p.take k) d := by
  unfold runProg
  split
  · exact ⟨p.length, by simp⟩
  · split
    · exact ⟨_, rfl⟩
    · exact ⟨p.length, by simp⟩

theorem runProg_none (p : Prog) (d : Files) : runProg none p d = (exec p d, .ok ()) := rfl

/-! ## What a storage holds -/

/-- The master has the value and the backup is empty. -/
def CleanF (fmt : Format V) (f : Files) (w : V) : Prop := Holds fmt f.master.cur w ∧ f.backup.cur = []

/-- The next load without errors gives the value. -/
def RecF (fmt : Format V) (f : Files) (w : V) : Prop :=
  Holds fmt f.backup.cur w ∨ (Rejected fmt f.backup.cur ∧ Holds fmt f.master.cur w)

theorem CleanF.rec {fmt : Format V} (he : Rejected fmt []) {f : Files} {w : V} (h : CleanF fmt f w) : RecF fmt f w :=
  .inr ⟨by rw [h.2]; exact he, h.1⟩

theorem readF_rejected {fmt : Format V} {c : Bytes} (h : Rejected fmt c) (rf : RF) (old : V) : readF fmt rf old c = (old, .ok false) := by
  cases rf <;> simp [readF, loadFromFile_rejected h]

/-- `Load`, in terms of its first read. -/
theorem loadD_false {fmt : Format V} {rb rm : RF} {fail : Option Nat} {old v : V} {f : Files} (h : readF fmt rb old f.backup.cur = (v, .ok false)) :
    (∃ k, (loadD fmt rb rm fail old f).1 = exec (clearBackup.take k) f) ∧
    (fail = none → loadD fmt rb rm fail old f = (exec clearBackup f, readF fmt rm v f.master.cur)) := by
  obtain ⟨k, hk⟩ := runProg_take fail clearBackup f
  unfold loadD
  rw [h]
  constructor
  · refine ⟨k, ?_⟩
    rw [← hk]
    simp only [Bool.false_eq_true, if_false]
    rcases hr : runProg fail clearBackup f with ⟨g, r⟩
    rcases r with _ | _ | _ <;> rfl
  · rintro rfl
    rfl

theorem loadD_true {fmt : Format V} {rb rm : RF} {fail : Option Nat} {old v : V} {f : Files} (h : readF fmt rb old f.backup.cur = (v, .ok true)) :
    (∃ k, (loadD fmt rb rm fail old f).1 = exec ((writeToStream .master (fmt.enc v) ++ clearBackup).take k) f) ∧
    (fail = none → loadD fmt rb rm fail old f = (exec (writeToStream .master (fmt.enc v) ++ clearBackup) f, v, .ok true)) := by
  obtain ⟨k, hk⟩ := runProg_take fail (writeToStream .master (fmt.enc v) ++ clearBackup) f
  unfold loadD
  rw [h]
  constructor
  · refine ⟨k, ?_⟩
    rw [← hk]
    simp only [if_true]
    rcases hr : runProg fail (writeToStream .master (fmt.enc v) ++ clearBackup) f with ⟨g, r⟩
    rcases r with _ | _ | _ <;> rfl
  · rintro rfl
    rfl

theorem clearTake (f : Files) (k : Nat) :
    (exec (clearBackup.take k) f).master = f.master ∧
    ((exec (clearBackup.take k) f).backup.cur = f.backup.cur ∨ (exec (clearBackup.take k) f).backup.cur = []) := by
  rw [exec_clear_take]
  exact ⟨rfl, clear_cur _ _⟩

theorem load_clean {fmt : Format V} (he : Rejected fmt []) (rb rm : RF) (fail : Option Nat) (old w : V) {f : Files} (h : CleanF fmt f w) :
    CleanF fmt (loadD fmt rb rm fail old f).1 w := by
  obtain ⟨⟨k, hk⟩, _⟩ := loadD_false (rm := rm) (fail := fail) (readF_rejected (fmt := fmt) (c := f.backup.cur) (by rw [h.2]; exact he) rb old)
  obtain ⟨h1, h2⟩ := clearTake f k
  rw [hk]
  refine ⟨by rw [h1]; exact h.1, ?_⟩
  rcases h2 with h2 | h2
  · rw [h2]; exact h.2
  · exact h2

theorem load_rec {fmt : Format V} {P : V → Prop} (hg : fmt.Good P) (rm : RF) (fail : Option Nat) (old w : V) (hw : P w) {f : Files} (h : RecF fmt f w) :
    RecF fmt (loadD fmt .ok rm fail old f).1 w := by
  rcases h with h | ⟨hr, hm⟩
  · obtain ⟨⟨k, hk⟩, _⟩ := loadD_true (rm := rm) (fail := fail) (rb := .ok) (old := old) (loadFromFile_holds h old)
    rw [hk]
    rcases exec_recover_take (fmt.enc w) f k with ⟨j, hj⟩ | ⟨j, hj⟩
    · rw [hj]; exact .inl h
    · rw [hj]
      have hm : Holds fmt (fmt.enc w) w := hg.roundTrip w hw
      rcases clear_cur f.backup j with h2 | h2
      · exact .inl (by simpa [h2] using h)
      · exact .inr ⟨by simpa [h2] using hg.empty, hm⟩
  · obtain ⟨⟨k, hk⟩, _⟩ := loadD_false (rm := rm) (fail := fail) (rb := .ok) (old := old) (loadFromFile_rejected hr old)
    obtain ⟨h1, h2⟩ := clearTake f k
    rw [hk]
    refine .inr ⟨?_, by rw [h1]; exact hm⟩
    rcases h2 with h2 | h2
    · rw [h2]; exact hr
    · rw [h2]; exact hg.empty

/-- A load without errors gives the value. -/
theorem load_rec_val {fmt : Format V} (old w : V) {f : Files} (h : RecF fmt f w) : ∃ g, loadD fmt .ok .ok none old f = (g, w, .ok true) := by
  rcases h with h | ⟨hr, hm⟩
  · obtain ⟨_, h2⟩ := loadD_true (fmt := fmt) (rm := .ok) (fail := none) (rb := .ok) (old := old) (loadFromFile_holds h old)
    exact ⟨_, h2 rfl⟩
  · obtain ⟨_, h2⟩ := loadD_false (fmt := fmt) (rm := .ok) (fail := none) (rb := .ok) (old := old) (loadFromFile_rejected hr old)
    refine ⟨exec clearBackup f, ?_⟩
    rw [h2 rfl]
    show (_, loadFromFile fmt old f.master.cur) = _
    rw [loadFromFile_holds hm]

theorem save_none {fmt : Format V} {P : V → Prop} (hg : fmt.Good P) (v : V) (hv : P v) (f : Files) :
    CleanF fmt (runProg none (save fmt v) f).1 v := by
  rw [runProg_none, exec_save]
  exact ⟨hg.roundTrip v hv, rfl⟩

/-- A save that may fail gives a storage with the old or the new value. -/
theorem save_rec {fmt : Format V} {P : V → Prop} (hg : fmt.Good P) (fail : Option Nat) (u v : V) (hv : P v) {f : Files} (h : CleanF fmt f u) :
    RecF fmt (runProg fail (save fmt v) f).1 u ∨ RecF fmt (runProg fail (save fmt v) f).1 v := by
  obtain ⟨k, hk⟩ := runProg_take fail (save fmt v) f
  rw [hk]
  have hm : Holds fmt (fmt.enc v) v := hg.roundTrip v hv
  rcases exec_save_take fmt v f k with ⟨j, hj⟩ | ⟨j, hj⟩ | ⟨j, hj⟩
  · rw [hj]
    have hb : Rejected fmt (frun ((writeOps (fmt.enc v)).take j) f.backup).cur ∨ Holds fmt (frun ((writeOps (fmt.enc v)).take j) f.backup).cur v := by
      rcases write_cur (fmt.enc v) f.backup j with h1 | h1 | ⟨i, h1⟩
      · rw [h1, h.2]; exact .inl hg.empty
      · rw [h1]; exact .inr hm
      · rw [h1, h.2]
        exact prefix_cases hg hv (over_prefix List.nil_prefix i)
    rcases hb with hb | hb
    · exact .inl (.inr ⟨hb, h.1⟩)
    · exact .inr (.inl hb)
  · rw [hj]; exact .inr (.inl hm)
  · rw [hj]
    right
    rcases clear_cur ⟨fmt.enc v, (fmt.enc v).length, [fmt.enc v]⟩ j with h2 | h2
    · exact .inl (by simpa [h2] using hm)
    · exact .inr ⟨by simpa [h2] using hg.empty, hm⟩

/-! ## The directory -/

/-- Every file was made under one name, the names that are there name files made under them, and every open storage has files made as the master and the backup of one name. -/
def Wf (s : Sys V) (home : Nat → Name) : Prop :=
  (∀ n i, s.dir n = some i → i < s.next ∧ home i = n) ∧
  (∀ a o i j, s.obj a = some o → o.fds = some (i, j) → i < s.next ∧ j < s.next ∧ ∃ n, home i = masterName n ∧ home j = backupName n)

theorem wf_init : Wf (init : Sys V) (fun _ => []) := ⟨by simp [init], by simp [init]⟩

theorem wf_obj {s : Sys V} {home : Nat → Name} (h : Wf s home) (a : Nat) (o : Option (Obj V))
    (ho : ∀ x i j, o = some x → x.fds = some (i, j) → i < s.next ∧ j < s.next ∧ ∃ n, home i = masterName n ∧ home j = backupName n) :
    Wf (putObj s a o) home := by
  refine ⟨h.1, fun b x i j hb hx => ?_⟩
  simp only [putObj, upd_eq] at hb
  split at hb
  · exact ho x i j hb hx
  · exact h.2 b x i j hb hx

theorem wf_files {s : Sys V} {home : Nat → Name} (h : Wf s home) (i j : Nat) (f : Files) : Wf (putFiles s i j f) home := h

/-- `openFile` that worked. -/
theorem openFile_some {fail : Bool} {s s' : Sys V} {n : Name} {i : Nat} {x : Bool} (h : openFile fail s n = some (s', i, x)) :
    s'.obj = s.obj ∧ s'.dir n = some i ∧ x = (s.dir n).isSome ∧ s.next ≤ s'.next ∧
    (∀ m, m ≠ n → s'.dir m = s.dir m) ∧ (∀ k, k < s.next → s'.node k = s.node k) ∧ (s.dir n = none → s'.node i = .opened []) ∧
    (∀ k, s.dir n = some k → k = i ∧ s'.node = s.node) ∧
    (∀ home, Wf s home → ∃ home', Wf s' home' ∧ i < s'.next ∧ home' i = n ∧ ∀ k, k < s.next → home' k = home k) := by
  unfold openFile at h
  split at h
  · simp at h
  · split at h
    · rename_i k hk
      simp only [Option.some.injEq, Prod.mk.injEq] at h
      obtain ⟨rfl, rfl, rfl⟩ := h
      refine ⟨rfl, hk, by simp [hk], Nat.le_refl _, fun _ _ => rfl, fun _ _ => rfl, by simp [hk], by simp [hk], fun home hw => ⟨home, hw, (hw.1 n k hk).1, (hw.1 n k hk).2, fun _ _ => rfl⟩⟩
    · rename_i hk
      simp only [Option.some.injEq, Prod.mk.injEq] at h
      obtain ⟨rfl, rfl, rfl⟩ := h
      refine ⟨rfl, by simp, by simp [hk], by simp, fun m hm => upd_other _ _ hm, fun k hk => upd_other _ _ (by omega), by simp, by simp [hk],
        fun home hw => ⟨upd home s.next n, ⟨?_, ?_⟩, by simp, by simp, fun k hk => upd_other _ _ (by omega)⟩⟩
      · intro m i hm
        simp only [upd_eq] at hm ⊢
        split at hm
        · rename_i h; simp at hm; subst hm; simp [h]
        · obtain ⟨h1, h2⟩ := hw.1 m i hm
          rw [if_neg (by omega)]
          exact ⟨by omega, h2⟩
      · intro a o i j ha hf
        obtain ⟨h1, h2, n', h3⟩ := hw.2 a o i j ha hf
        refine ⟨by show i < s.next + 1; omega, by show j < s.next + 1; omega, n', ?_⟩
        rw [upd_other _ _ (by omega), upd_other _ _ (by omega)]
        exact h3

/-- What `openBoth` does. -/
theorem openBoth_spec (s : Sys V) (n : Name) (fm fb : Bool) (home : Nat → Name) (hw : Wf s home) :
    (openBoth s n fm fb).1.obj = s.obj ∧
    (∀ m k, s.dir m = some k → (openBoth s n fm fb).1.dir m = some k) ∧
    (∀ m, m ≠ masterName n → m ≠ backupName n → (openBoth s n fm fb).1.dir m = s.dir m) ∧
    (∀ k, k < s.next → (openBoth s n fm fb).1.node k = s.node k) ∧
    (∃ home', Wf (openBoth s n fm fb).1 home' ∧ s.next ≤ (openBoth s n fm fb).1.next ∧ (∀ k, k < s.next → home' k = home k) ∧
      ∀ i j, (openBoth s n fm fb).2.1 = some (i, j) →
        i < (openBoth s n fm fb).1.next ∧ j < (openBoth s n fm fb).1.next ∧ home' i = masterName n ∧ home' j = backupName n) ∧
    (∀ i j, (openBoth s n fm fb).2.1 = some (i, j) →
      (openBoth s n fm fb).1.dir (masterName n) = some i ∧ (openBoth s n fm fb).1.dir (backupName n) = some j) ∧
    (((openBoth s n fm fb).2.2 = .throw .io ∧ (openBoth s n fm fb).2.1 = none) ∨
     ((openBoth s n fm fb).2.2 = .ok ((s.dir (masterName n)).isSome || (s.dir (backupName n)).isSome) ∧ ∃ i j, (openBoth s n fm fb).2.1 = some (i, j))) ∧
    (fm = false → fb = false → ∃ i j, (openBoth s n fm fb).2.1 = some (i, j)) ∧
    (∀ i, (openBoth s n fm fb).2.1.map (·.1) = some i → s.dir (masterName n) = none → ((openBoth s n fm fb).1.node i).cur = []) ∧
    (∀ j, (openBoth s n fm fb).2.1.map (·.2) = some j → s.dir (backupName n) = none → ((openBoth s n fm fb).1.node j).cur = []) := by
  have hne := master_ne_backup n n
  unfold openBoth
  rcases h1 : openFile fm s (masterName n) with _ | ⟨s1, i, x⟩
  · refine ⟨rfl, fun _ _ h => h, fun _ _ _ => rfl, fun _ _ => rfl, ⟨home, hw, Nat.le_refl _, fun _ _ => rfl, by simp⟩, by simp, by simp, ?_, by simp, by simp⟩
    rintro rfl _
    unfold openFile at h1; simp at h1; split at h1 <;> simp at h1
  · obtain ⟨a1, a2, a3, a4, a5, a6, a7, a8, a9⟩ := openFile_some h1
    obtain ⟨home1, b1, b2, b3, b4⟩ := a9 home hw
    have c1 : ∀ m k, s.dir m = some k → s1.dir m = some k := by
      intro m k hm
      by_cases h : m = masterName n
      · subst h; rw [a2, (a8 k hm).1]
      · rw [a5 m h, hm]
    dsimp only
    rcases h2 : openFile fb s1 (backupName n) with _ | ⟨s2, j, y⟩
    · refine ⟨a1, c1, fun m hm _ => a5 m hm, a6, ⟨home1, b1, a4, b4, by simp⟩, by simp, by simp, ?_, by simp, by simp⟩
      rintro _ rfl
      unfold openFile at h2; simp at h2; split at h2 <;> simp at h2
    · obtain ⟨d1, d2, d3, d4, d5, d6, d7, d8, d9⟩ := openFile_some h2
      obtain ⟨home2, e1, e2, e3, e4⟩ := d9 home1 b1
      refine ⟨d1.trans a1, ?_, fun m hm hm' => (d5 m hm').trans (a5 m hm), fun k hk => (d6 k (by omega)).trans (a6 k hk),
        ⟨home2, e1, by show s.next ≤ s2.next; omega, fun k hk => (e4 k (by omega)).trans (b4 k hk), ?_⟩, ?_, ?_, fun _ _ => ⟨i, j, rfl⟩, ?_, ?_⟩
      · intro m k hm
        by_cases h : m = backupName n
        · subst h; rw [d2, (d8 k (c1 _ _ hm)).1]
        · show s2.dir m = some k
          rw [d5 m h, c1 m k hm]
      · intro i' j' h
        simp only [Option.some.injEq, Prod.mk.injEq] at h
        obtain ⟨rfl, rfl⟩ := h
        exact ⟨by show i < s2.next; omega, e2, by rw [e4 i b2, b3], e3⟩
      · intro i' j' h
        simp only [Option.some.injEq, Prod.mk.injEq] at h
        obtain ⟨rfl, rfl⟩ := h
        refine ⟨?_, d2⟩
        show s2.dir (masterName n) = some i
        rw [d5 _ hne, a2]
      · right
        refine ⟨?_, i, j, rfl⟩
        rw [d3, a3, a5 _ hne.symm]
      · intro i' h hn
        simp only [Option.map_some, Option.some.injEq] at h
        subst h
        show (s2.node i).cur = []
        rw [d6 i b2, a7 hn]; rfl
      · intro j' h hn
        simp only [Option.map_some, Option.some.injEq] at h
        subst h
        show (s2.node j).cur = []
        rw [d7 (by rw [a5 _ hne.symm]; exact hn)]; rfl

theorem wf_remove {s : Sys V} {home : Nat → Name} (h : Wf s home) (n : Name) (fm fb : Bool) : Wf (removeBoth s n fm fb).1 home := by
  have hd : ∀ (t : Sys V) m, Wf t home → Wf { t with dir := upd t.dir m none } home := by
    intro t m ht
    refine ⟨fun k i hk => ?_, ht.2⟩
    simp only [upd_eq] at hk
    split at hk
    · simp at hk
    · exact ht.1 k i hk
  unfold removeBoth
  split
  · exact h
  · split
    · exact hd s _ h
    · exact hd _ _ (hd s _ h)

/-- The invariant is kept by every call; the files that exist keep their names. -/
theorem wf_step (fmt : Format V) {s : Sys V} {home : Nat → Name} (h : Wf s home) (x : Act V) :
    ∃ home', Wf (step fmt s x).1 home' ∧ s.next ≤ (step fmt s x).1.next ∧ ∀ k, k < s.next → home' k = home k := by
  have triv : ∀ t : Sys V, Wf t home → t.next = s.next → ∃ home', Wf t home' ∧ s.next ≤ t.next ∧ ∀ k, k < s.next → home' k = home k :=
    fun t ht hn => ⟨home, ht, by omega, fun _ _ => rfl⟩
  cases x with
  | make a opt v => simp only [step]; split <;> refine triv _ ?_ rfl
                    · exact wf_obj h _ _ (by rintro x i j hx hf; simp at hx; subst hx; simp at hf)
                    · exact h
  | destroy a => simp only [step]; split <;> refine triv _ ?_ rfl
                 · exact wf_obj h _ _ (by simp)
                 · exact h
  | set a v => simp only [step]; split <;> refine triv _ ?_ rfl
               · rename_i o ho
                 exact wf_obj h _ _ (by rintro x i j hx hf; simp at hx; subst hx; exact h.2 a o i j ho hf)
               · exact h
  | «open» a n fm fb =>
    simp only [step]; split
    · rename_i o ho
      obtain ⟨q1, _, _, _, ⟨home', q2, q3, q4, q5⟩, _⟩ := openBoth_spec s n fm fb home h
      rcases hq : openBoth s n fm fb with ⟨t, fds, r⟩
      rw [hq] at q1 q2 q3 q5
      refine ⟨home', wf_obj q2 _ _ ?_, q3, q4⟩
      rintro x i j hx hf
      simp at hx; subst hx
      obtain ⟨r1, r2, r3, r4⟩ := q5 i j hf
      exact ⟨r1, r2, n, r3, r4⟩
    · exact triv _ h rfl
  | load a rb rm fail =>
    simp only [step]; split
    · rename_i o ho
      split
      · exact triv _ h rfl
      · rename_i i j hf
        refine triv _ (wf_obj (wf_files h i j _) _ _ ?_) rfl
        rintro x i' j' hx hf'
        simp at hx; subst hx
        exact h.2 a o i' j' ho hf'
    · exact triv _ h rfl
  | save a fail =>
    simp only [step]; split
    · split
      · exact triv _ h rfl
      · exact triv _ (wf_files h _ _ _) rfl
    · exact triv _ h rfl
  | close a => simp only [step]; split <;> refine triv _ ?_ rfl
               · exact wf_obj h _ _ (by rintro x i j hx hf; simp at hx; subst hx; simp at hf)
               · exact h
  | remove a n fm fb =>
    simp only [step]; split
    · refine triv _ (wf_remove (wf_obj h _ _ ?_) n fm fb) ?_
      · rintro x i j hx hf; simp at hx; subst hx; simp at hf
      · unfold removeBoth; split
        · rfl
        · dsimp only; split <;> rfl
    · exact triv _ h rfl

theorem run_cons {fmt : Format V} {s s' : Sys V} {x : Act V} {l : List (Act V)} (h : run fmt s (x :: l) = .ok s') :
    (step fmt s x).2 ≠ .ub ∧ run fmt (step fmt s x).1 l = .ok s' := by
  unfold run at h
  rcases hq : step fmt s x with ⟨t, r⟩
  rw [hq] at h
  rcases r with _ | _ | _
  · exact ⟨by simp, h⟩
  · exact ⟨by simp, h⟩
  · simp at h

theorem wf_run (fmt : Format V) : ∀ (l : List (Act V)) (s s' : Sys V) (home : Nat → Name), Wf s home → run fmt s l = .ok s' → ∃ home', Wf s' home'
  | [], s, s', home, h, hr => by simp [run] at hr; exact ⟨home, hr ▸ h⟩
  | x :: l, s, s', home, h, hr => by
    obtain ⟨home', h1, _⟩ := wf_step fmt h x
    exact wf_run fmt l _ s' home' h1 (run_cons hr).2

end Verif.Settings.Disk
