import Verif.Settings.Lemmas
import Verif.Storage.Props

/-! # Optional settings (C100) and persistent objects (C101) -/

namespace Verif.Settings

open Storage

variable {V : Type}

/-- **C100.**  `Open` of an optional storage does not throw; it tells whether one of the files existed, and the storage is open if and only if both
files could be opened. -/
theorem c100_open (m b : Option (Option Bytes)) :
    ((openO m b).2 = .ok (m.isSome && b.isSome && ((m.getD none).isSome || (b.getD none).isSome))) ∧
    ((openO m b).1.isSome ↔ m.isSome ∧ b.isSome) ∧
    (∀ x y, m = some x → b = some y → (openO m b).1 = some (.opened (x.getD []) (y.getD []))) := by
  rcases m with _ | m <;> rcases b with _ | b <;> simp [openO, openA, isIo]

/-- **C100.**  `Save` never throws, whatever fails; a storage that is not open is left alone. -/
theorem c100_save (fmt : Format V) (fail : Option Nat) (v : V) (d : Option Files) :
    (saveO fmt fail v d).2 = .ok () ∧ ((saveO fmt fail v d).1.isSome = d.isSome) ∧ (d = none → (saveO fmt fail v d).1 = none) := by
  rcases d with _ | f
  · simp [saveO]
  · rcases runProg_res fail (save fmt v) f with h | h <;> simp [saveO, saveA, h, isIo]

/-- **C100.**  If nothing fails, `Save` of an open storage has saved: the value is loaded afterwards, whatever was in the files. -/
theorem c100_saved (fmt : Format V) (P : V → Prop) (hg : fmt.Good P) (v old : V) (hv : P v) (f : Files) :
    ∃ f', (saveO fmt none v (some f)).1 = some f' ∧ f'.master.cur = fmt.enc v ∧ f'.backup.cur = [] ∧
      loadO fmt none old (some f') = (some (exec clearBackup f'), v, .ok true) := by
  refine ⟨exec (save fmt v) f, by simp [saveO, saveA, runProg], ?_⟩
  rw [exec_save]
  refine ⟨rfl, rfl, ?_⟩
  obtain ⟨e, he, hr⟩ := hg.empty
  have hm : (exec clearBackup (⟨⟨fmt.enc v, (fmt.enc v).length, [fmt.enc v]⟩, ⟨[], 0, [[]]⟩⟩ : Files)).master.cur = fmt.enc v := rfl
  have h2 := hg.roundTrip v hv
  unfold Holds at h2
  simp [loadO, loadA, loadFromFileA, loadFromFile, hr, he, runProg, hm, h2]

/-- **C100.**  An open storage behaves as the crash-safe storage of C43 to C45 does. -/
theorem c100_open_same (fmt : Format V) (old : V) (f : Files) :
    (∀ v x, (load fmt old f).2 = (v, .ok x) → loadO fmt none old (some f) = (some (exec (load fmt old f).1 f), v, .ok x)) ∧
    (∀ v, (saveO fmt none v (some f)).1 = some (exec (save fmt v) f)) := by
  constructor
  · intro v x h
    unfold load at h ⊢
    simp only [loadO, loadA, Option.map_some, loadFromFileA]
    rcases hl : loadFromFile fmt old f.backup.cur with ⟨w, r⟩
    rw [hl] at h
    have hc : (exec clearBackup f).master.cur = f.master.cur := rfl
    rcases r with b | e | _
    · cases b
      · simp at h
        simp [runProg, hc, h]
      · simp at h
        simp [runProg, h]
    · simp at h
    · simp at h
  · intro v
    simp [saveO, saveA, runProg]

/-- **C100.**  `Load` of an open storage does not throw if the file system does not fail and the format rejects bytes with `IoException`s only. -/
theorem c100_load_partial (fmt : Format V) (hf : ∀ c, (∃ x, fmt.read c = .ok x) ∨ ∃ e, isIo e = true ∧ fmt.read c = .throw e) (old : V) (f : Files) :
    ∃ d v x, loadO fmt none old (some f) = (d, v, .ok x) := by
  have hl : ∀ (o : V) c, ∃ v x, loadFromFile fmt o c = (v, .ok x) := by
    intro o c
    rcases hf c with ⟨⟨v, p⟩, h⟩ | ⟨e, he, h⟩ <;> simp [loadFromFile, h]
    simp [he]
  obtain ⟨v, x, h⟩ := hl old f.backup.cur
  cases x
  · obtain ⟨v', x', h'⟩ := hl v (exec clearBackup f).master.cur
    exact ⟨some (exec clearBackup f), v', x', by simp [loadO, loadA, loadFromFileA, h, runProg, h']⟩
  · exact ⟨some (exec (writeToStream .master (fmt.enc v) ++ clearBackup) f), v, true, by simp only [loadO, loadA, loadFromFileA, h, runProg, Option.map_some, if_true]⟩

/-- **C100 is violated**: the storage is optional and `Open` promised "leaving default values", but `Load` after an `Open` that failed throws (`ClearBackup` seeks in a
closed file). -/
theorem c100_load_violated (fmt : Format V) (fail : Option Nat) (old : V) (m b : Option (Option Bytes)) (h : m = none ∨ b = none) :
    (openO m b).2 = .ok false ∧ (loadO fmt fail old (openO m b).1).2 = (old, .throw .io) := by
  rcases m with _ | m <;> rcases b with _ | b <;> simp at h <;> simp [openO, openA, isIo, loadO, loadA, loadFromFileA]

-- Non-vacuity: the files cannot be opened, the value is kept but the call throws; and a whole session.
example : openO none (some (some [])) = (none, .ok false) := by decide
example : (loadO pairFmt none 9 (openO none none).1).2 = (9, .throw .io) := by decide
example : (loadO pairFmt none 9 (saveO pairFmt none 5 (openO (some none) (some none)).1).1).2 = (5, .ok true) := by decide
example : (saveO pairFmt (some 2) 5 (openO (some none) (some none)).1).2 = .ok () := by decide
example : (loadO pairFmt none 9 (saveO pairFmt (some 2) 5 (openO (some none) (some none)).1).1).2 = (9, .ok false) := by decide
example : ∀ c, (∃ x, pairFmt.read c = .ok x) ∨ ∃ e, isIo e = true ∧ pairFmt.read c = .throw e := by
  intro c
  rcases c with _ | ⟨a, _ | ⟨b, c⟩⟩
  · exact .inr ⟨.endOfFile, rfl, rfl⟩
  · exact .inr ⟨.endOfFile, rfl, rfl⟩
  · by_cases h : b = ~~~a
    · exact .inl ⟨(a, 2), by simp [pairFmt, h]⟩
    · exact .inr ⟨.corruption, rfl, by simp [pairFmt, h]⟩

/-! ## Persistent objects -/

def empty : Heap V := fun _ => none

/-- **C101.**  In every history without moves nothing is undefined (the format reads without undefined behaviour): whatever call comes next. Missing: histories with moves (`c101_move_violated`). -/
theorem c101_no_ub_partial (fmt : Format V) (hf : ∀ c, fmt.read c ≠ .ub) (l : List (Act V)) (h : Heap V) (hr : run fmt empty l = .ok h)
    (hm : ∀ a ∈ l, a.isMove = false) (a : Act V) : step fmt h a ≠ .ub := by
  have hi : Own h := own_run l _ _ (by intro a o h; simp [empty] at h) hm hr
  have hl : ∀ (o : V) c, (loadFromFile fmt o c).2 ≠ .ub := by
    intro o c
    unfold loadFromFile
    have := hf c
    split <;> simp_all
    split <;> simp
  cases a with
  | make a v => simp only [step]; split <;> simp
  | moveTo a b l => simp only [step]; split <;> simp
  | destroy a => simp only [step]; split <;> simp
  | set a v => simp only [step]; split <;> simp
  | close a => simp only [step]; split <;> simp
  | «open» a m b =>
    simp only [step]; split
    · rcases m with _ | m <;> rcases b with _ | b <;> simp [openA]
    · simp
  | save a =>
    simp only [step]
    rcases ho : h a with _ | o
    · simp
    · simp only [hi a o ho, ho]
      rcases hd : o.files with _ | f <;> simp [saveA, runProg]
  | load a =>
    simp only [step]
    rcases ho : h a with _ | o
    · simp
    · have ht := hi a o ho
      simp only [ht, ho]
      rcases hd : o.files with _ | f
      · simp [loadA, loadFromFileA]
      · simp only [loadA, Option.map_some, loadFromFileA]
        rcases hx : loadFromFile fmt o.val f.backup.cur with ⟨v, r⟩
        have := hl o.val f.backup.cur
        rw [hx] at this
        rcases r with b | e | _
        · cases b
          · simp only [runProg, Bool.false_eq_true, if_false]
            rcases hy : loadFromFile fmt v (exec clearBackup f).master.cur with ⟨w, r⟩
            have := hl v (exec clearBackup f).master.cur
            rw [hy] at this
            rcases r with b | e | _ <;> simp [put] at this ⊢
          · simp [runProg, put]
        · simp
        · simp at this

/-- **C101.**  `load` puts into the value of this object what its files hold (C43–C45), and no other object changes. Missing: histories with moves (`c101_wrong_value_violated`). -/
theorem c101_load_partial (fmt : Format V) (l : List (Act V)) (h h' : Heap V) (hr : run fmt empty l = .ok h)
    (hm : ∀ a ∈ l, a.isMove = false) (a : Nat) (o : Obj V) (ho : h a = some o) (x : Option Bool) (hs : step fmt h (.load a) = .ok (h', x)) :
    (∃ f o' y, o.files = some f ∧ h' a = some o' ∧ x = some y ∧ answer fmt o.val f.master.cur f.backup.cur = (o'.val, .ok y)) ∧
    ∀ b, b ≠ a → h' b = h b := by
  have hi : Own h := own_run l _ _ (by intro a o h; simp [empty] at h) hm hr
  have ht := hi a o ho
  simp only [step, ho, ht] at hs
  rcases hd : o.files with _ | f
  · rw [hd] at hs; simp [loadA, loadFromFileA] at hs
  · rw [hd] at hs
    simp only [loadA, Option.map_some, loadFromFileA] at hs
    simp only [answer, load, Files.opened, File.opened]
    rcases hl : loadFromFile fmt o.val f.backup.cur with ⟨v, r⟩
    rw [hl] at hs
    rcases r with b | e | _
    · cases b
      · simp only [runProg, Bool.false_eq_true, if_false] at hs
        have hc : (exec clearBackup f).master.cur = f.master.cur := rfl
        rw [hc] at hs
        rcases hy : loadFromFile fmt v f.master.cur with ⟨w, r⟩
        rw [hy] at hs
        rcases r with b | e | _ <;> simp [put] at hs
        obtain ⟨hs, hx⟩ := hs
        constructor
        · exact ⟨f, _, b, rfl, by rw [← hs]; exact if_pos rfl, hx.symm, by simpa [hl] using hy⟩
        · intro c hc; subst hs; exact (if_neg hc).trans (if_neg hc)
      · simp [runProg, put] at hs
        obtain ⟨hs, hx⟩ := hs
        constructor
        · exact ⟨f, _, true, rfl, by rw [← hs]; exact if_pos rfl, hx.symm, by simp [hl]⟩
        · intro c hc; subst hs; exact (if_neg hc).trans (if_neg hc)
    · simp at hs
    · simp at hs

/-- **C101.**  and `save` stores the value of this object: a later `load` of any object with these files gives it. Missing: histories with moves (`c101_wrong_value_violated`). -/
theorem c101_save_partial (fmt : Format V) (P : V → Prop) (hg : fmt.Good P) (l : List (Act V)) (h h' : Heap V) (hr : run fmt empty l = .ok h)
    (hm : ∀ a ∈ l, a.isMove = false) (a : Nat) (o : Obj V) (ho : h a = some o) (hv : P o.val) (x : Option Bool)
    (hs : step fmt h (.save a) = .ok (h', x)) :
    (∃ f, h' a = some ⟨o.val, a, some f⟩ ∧ ∀ old, answer fmt old f.master.cur f.backup.cur = (o.val, .ok true)) ∧ ∀ b, b ≠ a → h' b = h b := by
  have hi : Own h := own_run l _ _ (by intro a o h; simp [empty] at h) hm hr
  have ht := hi a o ho
  simp only [step, ho, ht] at hs
  rcases hd : o.files with _ | f
  · rw [hd] at hs; simp [saveA] at hs
  · rw [hd] at hs
    simp [saveA, runProg] at hs
    obtain ⟨hs, _⟩ := hs
    constructor
    · refine ⟨exec (save fmt o.val) f, by rw [← hs, ← ht]; simp [put, ht], ?_⟩
      intro old
      obtain ⟨f', h1, h2, h3, h4⟩ := c100_saved fmt P hg o.val old hv f
      have : f' = exec (save fmt o.val) f := by simpa [saveO, saveA, runProg] using h1.symm
      subst this
      rw [h2, h3]
      obtain ⟨e, he, hr⟩ := hg.empty
      have h2 := hg.roundTrip o.val hv
      unfold Holds at h2
      simp [answer, load, Files.opened, File.opened, loadFromFile, hr, he, h2]
    · intro b hb; rw [← hs]; simp [put, hb]

/-- **C101 is violated** for an object that was moved: its serializer still refers to the value of the object it was moved from.  If that one is gone, both
`load` and `save` are undefined, -/
theorem c101_move_violated (fmt : Format V) (v left : V) :
    (run fmt empty [.make 0 v, .moveTo 1 0 left, .destroy 0, .load 1] = .ub) ∧ (run fmt empty [.make 0 v, .moveTo 1 0 left, .destroy 0, .save 1] = .ub) := by
  constructor <;> simp [run, step, empty, put]

/-- What is in the files of the object. -/
def fileOf (h : Res (Heap V)) (a : Nat) : Option (Bytes × Bytes) :=
  match h with
  | .ok h => (h a).bind fun o => o.files.map fun f => (f.master.cur, f.backup.cur)
  | _ => none

/-- The value of the object. -/
def valueOf (h : Res (Heap V)) (a : Nat) : Option V :=
  match h with
  | .ok h => (h a).map (·.val)
  | _ => none

/-- and if it still exists, `save` stores the moved-from value and `load` does not change the value of the object. -/
theorem c101_wrong_value_violated :
    (fileOf (run pairFmt empty [.make 0 5, .open 0 (some none) (some none), .moveTo 1 0 0, .save 1]) 1 = some ([0, 255], [])) ∧
    (valueOf (run pairFmt empty [.make 0 5, .open 0 (some (some [7, 248])) (some none), .moveTo 1 0 0, .load 1]) 1 = some 5) := by decide

/-- So it is in every history: whatever was done before (no moves), after the move `load` of the new object leaves its value as it was, whatever is in the files, and `save` of it stores what the
move has left in the old object. -/
theorem c101_moved_violated (fmt : Format V) (P : V → Prop) (hg : fmt.Good P) (l : List (Act V)) (h : Heap V) (hr : run fmt empty l = .ok h) (hm : ∀ a ∈ l, a.isMove = false)
    (a b : Nat) (o : Obj V) (ha : h a = none) (hb : h b = some o) (f : Files) (hf : o.files = some f) (left : V) (hl : P left) :
    ∃ h1, step fmt h (.moveTo a b left) = .ok (h1, none) ∧
      (∀ h2 x, step fmt h1 (.load a) = .ok (h2, x) → ∃ o2, h2 a = some o2 ∧ o2.val = o.val) ∧
      ∃ h2 f2, step fmt h1 (.save a) = .ok (h2, none) ∧ h2 a = some ⟨o.val, b, some f2⟩ ∧ ∀ old, answer fmt old f2.master.cur f2.backup.cur = (left, .ok true) := by
  have hi : Own h := own_run l _ _ (by intro a o h; simp [empty] at h) hm hr
  have ht := hi b o hb
  have hab : a ≠ b := fun e => by rw [e, hb] at ha; cases ha
  have hba : b ≠ a := fun e => hab e.symm
  refine ⟨_, by simp only [step, ha, hb]; rfl, ?_, ?_⟩
  · intro h2 x hs
    simp only [step, put, if_neg hab, if_true, ht] at hs
    obtain ⟨y, _, hs⟩ := Res.bind_eq_ok.1 hs
    simp only [if_neg hba] at hs
    cases hs
    exact ⟨⟨o.val, b, (loadA fmt none left o.files).1⟩, by simp [put, hab], rfl⟩
  · refine ⟨_, exec (save fmt left) f, by simp only [step, put, if_neg hab, if_true, ht, hf, saveA, runProg]; rfl, by simp [put], ?_⟩
    intro old
    obtain ⟨f', h1, h2, h3, h4⟩ := c100_saved fmt P hg left old hl f
    have : f' = exec (save fmt left) f := by simpa [saveO, saveA, runProg] using h1.symm
    subst this
    rw [h2, h3]
    obtain ⟨e, he, hr⟩ := hg.empty
    have h2 := hg.roundTrip left hl
    unfold Holds at h2
    simp [answer, load, Files.opened, File.opened, loadFromFile, hr, he, h2]

-- Non-vacuity: two objects; the first is saved, the second loads what the first saved.
example : valueOf (run pairFmt empty [.make 0 5, .make 1 6, .open 0 (some none) (some none), .save 0, .open 1 (some (some [5, 250])) (some none), .load 1]) 1
    = some 5 := by decide
example : fileOf (run pairFmt empty [.make 0 5, .make 1 6, .open 0 (some none) (some none), .set 0 8, .save 0]) 0 = some ([8, 247], []) := by decide

end Verif.Settings
