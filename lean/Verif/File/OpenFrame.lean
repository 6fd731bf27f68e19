import Verif.File.OpenLemmas

namespace Verif.File.Open

/-- The thread that acts, none for another process. -/
def Act.actor : Act → Option Nat
  | .call t _ _ | .step t | .close t | .save t _ _ => some t
  | .create _ _ | .remove _ => none

/-- What the acts of others leave to the thread `t`. -/
structure Frame (t : Nat) (s s' : St) : Prop where
  pc : s'.pc t = s.pc t
  flag : s'.flag t = s.flag t
  sto : s'.sto t = s.sto t
  fds : ∀ d i, Owns s t d → ((d, i) ∈ s'.fds ↔ (d, i) ∈ s.fds)

theorem frame_refl (t : Nat) (s : St) : Frame t s s := ⟨rfl, rfl, rfl, fun _ _ _ => Iff.rfl⟩

theorem frame_closeBoth (win : Bool) (t u : Nat) (s : St) (hi : Inv win s) (h : u ≠ t) (p : Pc) : Frame t s { closeBoth s u with pc := upd s.pc u p } := by
  have h' : t ≠ u := fun e => h e.symm
  refine ⟨by simp [upd, h'], rfl, by simp [closeBoth, upd, h'], fun d i ho => ?_⟩
  simp only [closeBoth, mem_closeFd]
  have := hi.uniq t u d ho
  refine ⟨fun x => x.1.1, fun x => ⟨⟨x, fun e => h' (this (Or.inl e))⟩, fun e => h' (this (Or.inr e))⟩⟩

theorem frame_opened (win : Bool) (t u n : Nat) (s : St) (hi : Inv win s) (h : u ≠ t) (p : Pc) (d : Disk) (i : Nat) :
    Frame t s { setMaster (opened win s u n d i) u s.nextFd with pc := upd s.pc u p }
    ∧ Frame t s { setBackup (opened win s u n d i) u s.nextFd with pc := upd s.pc u p } := by
  have h' : t ≠ u := fun e => h e.symm
  have hf : (opened win s u n d i).flag t = s.flag t := by simp only [opened]; split <;> simp [upd, h']
  have hlt : ∀ x, Owns s t x → x ≠ s.nextFd := by
    intro x hx e
    obtain ⟨j, hj⟩ := hi.own t x hx
    have := hi.ltFd x j hj; omega
  refine ⟨⟨by simp [upd, h'], hf, by simp [setMaster, opened, upd, h'], fun x j ho => ?_⟩, ⟨by simp [upd, h'], hf, by simp [setBackup, opened, upd, h'], fun x j ho => ?_⟩⟩
  · have := hi.uniq t u x ho
    simp only [setMaster, opened, mem_closeFd, List.mem_cons]
    refine ⟨fun y => ?_, fun y => ⟨Or.inr y, fun e => h' (this (Or.inl e))⟩⟩
    rcases y.1 with e | e
    · cases e; exact absurd rfl (hlt _ ho)
    · exact e
  · have := hi.uniq t u x ho
    simp only [setBackup, opened, mem_closeFd, List.mem_cons]
    refine ⟨fun y => ?_, fun y => ⟨Or.inr y, fun e => h' (this (Or.inr e))⟩⟩
    rcases y.1 with e | e
    · cases e; exact absurd rfl (hlt _ ho)
    · exact e

theorem frame_pc (t u : Nat) (s : St) (h : u ≠ t) (p : Pc) (fl : Nat → Bool) (hf : fl t = s.flag t) : Frame t s { s with pc := upd s.pc u p, flag := fl } := by
  have h' : t ≠ u := fun e => h e.symm
  exact ⟨by simp [upd, h'], hf, rfl, fun _ _ _ => Iff.rfl⟩

theorem frame_act (win : Bool) (t : Nat) (s : St) (a : Act) (hi : Inv win s) (h : a.actor ≠ some t) : Frame t s (act win s a) := by
  cases a with
  | call u f b =>
    have hu : u ≠ t := fun e => h (by rw [e]; rfl)
    simp only [act]
    split
    · exact frame_pc t u s hu _ _ rfl
    · exact frame_refl t s
  | step u =>
    have hu : u ≠ t := fun e => h (by rw [e]; rfl)
    have hu' : t ≠ u := fun e => hu e.symm
    simp only [act, stepOpen]
    split
    · exact frame_refl t s
    · rw [access_eq]; exact frame_pc t u s hu _ _ (by split <;> simp [upd, hu'])
    · split
      · exact frame_closeBoth win t u s hi hu _
      · exact (frame_opened win t u _ s hi hu _ _ _).1
    · exact frame_pc t u s hu _ _ rfl
    · rw [access_eq]; exact frame_pc t u s hu _ _ (by split <;> simp [upd, hu'])
    · split
      · exact frame_closeBoth win t u s hi hu _
      · exact (frame_opened win t u _ s hi hu _ _ _).2
    · exact frame_pc t u s hu _ _ rfl
  | close u =>
    have hu : u ≠ t := fun e => h (by rw [e]; rfl)
    simp only [act]
    split
    · have := frame_closeBoth win t u s hi hu (s.pc u)
      rw [upd_self] at this
      exact this
    · exact frame_refl t s
  | save u m b =>
    simp only [act]
    split
    · obtain ⟨a1, a2, a3, a4, _⟩ := writeFd_frame s (s.sto u).master m
      obtain ⟨b1, b2, b3, b4, _⟩ := writeFd_frame (writeFd s (s.sto u).master m) (s.sto u).backup b
      exact ⟨by rw [b2, a2], by rw [b4, a4], by rw [b3, a3], fun _ _ _ => by rw [b1, a1]⟩
    · exact frame_refl t s
  | create n c =>
    simp only [act]
    split
    · exact frame_refl t s
    · exact ⟨rfl, rfl, rfl, fun _ _ _ => Iff.rfl⟩
  | remove n =>
    simp only [act]
    split
    · exact frame_refl t s
    · split
      · exact frame_refl t s
      · exact ⟨rfl, rfl, rfl, fun _ _ _ => Iff.rfl⟩

/-- The next step of a thread opens the file of a name. -/
def Pc.opens : Pc → Nat → Prop
  | .open1 f _, n => n = f
  | .open2 _ b _, n => n = b
  | _, _ => False

/-- An act that does not make or remove the name `n`. -/
def Spares (s : St) (n : Nat) : Act → Prop
  | .step u => ¬ (s.pc u).opens n
  | .create m _ | .remove m => m ≠ n
  | _ => True

theorem spares_dir (win : Bool) (s : St) (n : Nat) (a : Act) (hi : Inv win s) (h : Spares s n a) : (act win s a).disk.dir n = s.disk.dir n := by
  cases a with
  | call u f b => simp only [act]; split <;> rfl
  | step u =>
    simp only [Spares] at h
    simp only [act, stepOpen]
    split
    · rfl
    · rw [access_eq]
    · rename_i hp; rw [hp] at h
      split
      · rfl
      · rename_i d i ho
        exact (sysOpen_some win s _ d i hi ho).2.2.2.2.2.1 n h
    · rfl
    · rw [access_eq]
    · rename_i hp; rw [hp] at h
      split
      · rfl
      · rename_i d i ho
        exact (sysOpen_some win s _ d i hi ho).2.2.2.2.2.1 n h
    · rfl
  | close u => simp only [act]; split <;> rfl
  | save u m b =>
    simp only [act]
    split
    · rw [(writeFd_frame _ _ _).2.2.2.2.1, (writeFd_frame _ _ _).2.2.2.2.1]
    · rfl
  | create m c =>
    have h : m ≠ n := h
    simp only [act]
    split
    · rfl
    · simp only [Disk.make, upd]; rw [if_neg (fun e => h e.symm)]
  | remove m =>
    have h : m ≠ n := h
    simp only [act]
    split
    · rfl
    · split
      · rfl
      · simp only [upd]; rw [if_neg (fun e => h e.symm)]

theorem writeFd_data (win : Bool) (s : St) (t : Nat) (h : Option Nat) (c : List UInt8) (d i : Nat) (hw : win = true) (hi : Inv win s) (ho : Owns s t d)
    (hd : (d, i) ∈ s.fds) (hh : ∀ e, h = some e → ¬ Owns s t e) : (writeFd s h c).disk.data i = s.disk.data i := by
  simp only [writeFd]
  split
  · rfl
  · rename_i j hj
    cases h with
    | none => cases hj
    | some e =>
      have he := (fileOf_mem win s hi e j).1 hj
      simp only [upd]
      rw [if_neg]
      rintro rfl
      have := hi.excl hw d e i hd he
      subst this
      exact hh _ rfl ho

/-- On Windows nobody else changes the contents of the files a thread has open. -/
theorem frame_data (t : Nat) (s : St) (a : Act) (hi : Inv true s) (h : a.actor ≠ some t) (d i : Nat) (ho : Owns s t d) (hd : (d, i) ∈ s.fds) :
    (act true s a).disk.data i = s.disk.data i := by
  have hlt := hi.ltFile d i hd
  cases a with
  | call u f b => simp only [act]; split <;> rfl
  | step u =>
    simp only [act, stepOpen]
    split
    · rfl
    · rw [access_eq]
    · split
      · rfl
      · rename_i d i ho'
        exact (sysOpen_some true s _ d i hi ho').2.2.2.2.2.2.2.1 _ hlt
    · rfl
    · rw [access_eq]
    · split
      · rfl
      · rename_i d i ho'
        exact (sysOpen_some true s _ d i hi ho').2.2.2.2.2.2.2.1 _ hlt
    · rfl
  | close u => simp only [act]; split <;> rfl
  | save u m b =>
    have hu : u ≠ t := fun e => h (by rw [e]; rfl)
    simp only [act]
    split
    · obtain ⟨a1, a2, a3, a4, _⟩ := writeFd_frame s (s.sto u).master m
      rw [writeFd_data true _ t _ b d i rfl (inv_writeFd true _ _ _ hi) (by simp only [Owns, a3]; exact ho) (by rw [a1]; exact hd),
        writeFd_data true s t _ m d i rfl hi ho hd]
      · intro e he hc; exact hu (hi.uniq u t e (Or.inl he) hc)
      · intro e he hc
        simp only [Owns, a3] at hc
        exact hu (hi.uniq u t e (Or.inr he) hc)
    · rfl
  | create n c =>
    simp only [act]
    split
    · rfl
    · simp only [Disk.make, upd]; rw [if_neg (by omega)]
  | remove n =>
    simp only [act]
    split
    · rfl
    · split <;> rfl

end Verif.File.Open
