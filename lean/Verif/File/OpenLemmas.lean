import Verif.File.OpenModel

namespace Verif.File.Open

theorem mem_closeFd (l : List (Nat × Nat)) (h : Option Nat) (p : Nat × Nat) : p ∈ closeFd l h ↔ p ∈ l ∧ h ≠ some p.1 := by
  cases h with
  | none => simp [closeFd]
  | some d =>
    simp only [closeFd, List.mem_filter, bne_iff_ne, ne_eq, Option.some.injEq]
    constructor <;> intro ⟨a, b⟩ <;> exact ⟨a, fun e => b e.symm⟩

/-- The thread `t` has the descriptor `d`. -/
def Owns (s : St) (t d : Nat) : Prop := (s.sto t).master = some d ∨ (s.sto t).backup = some d

structure Inv (win : Bool) (s : St) : Prop where
  ltFd : ∀ d i, (d, i) ∈ s.fds → d < s.nextFd
  ltFile : ∀ d i, (d, i) ∈ s.fds → i < s.disk.next
  func : ∀ d i j, (d, i) ∈ s.fds → (d, j) ∈ s.fds → i = j
  own : ∀ t d, Owns s t d → ∃ i, (d, i) ∈ s.fds
  uniq : ∀ t u d, Owns s t d → Owns s u d → t = u
  diff : ∀ t d, (s.sto t).master = some d → (s.sto t).backup = some d → False
  all : ∀ d i, (d, i) ∈ s.fds → ∃ t, Owns s t d
  wf : ∀ n i, s.disk.dir n = some i → i < s.disk.next
  both : ∀ t, match s.pc t with
    | .idle _ | .access1 _ _ | .open1 _ _ => (s.sto t).master.isSome = (s.sto t).backup.isSome
    | .flag1 _ _ | .access2 _ _ _ | .open2 _ _ _ => (s.sto t).master.isSome = true
    | .flag2 _ _ _ => (s.sto t).master.isSome = true ∧ (s.sto t).backup.isSome = true
  excl : win = true → ∀ d e i, (d, i) ∈ s.fds → (e, i) ∈ s.fds → d = e

theorem inv_start (win : Bool) (d : Disk) (hd : ∀ n i, d.dir n = some i → i < d.next) : Inv win (start d) := by
  constructor <;> simp [start, Owns]
  exact hd

/-- Only the program counter of `t` changes, to one that asks no more. -/
theorem inv_pc (win : Bool) (s : St) (t : Nat) (p : Pc) (hi : Inv win s)
    (hp : match p with
      | .idle _ | .access1 _ _ | .open1 _ _ => (s.sto t).master.isSome = (s.sto t).backup.isSome
      | .flag1 _ _ | .access2 _ _ _ | .open2 _ _ _ => (s.sto t).master.isSome = true
      | .flag2 _ _ _ => (s.sto t).master.isSome = true ∧ (s.sto t).backup.isSome = true) (fl : Nat → Bool) :
    Inv win { s with pc := upd s.pc t p, flag := fl } := by
  refine ⟨hi.ltFd, hi.ltFile, hi.func, hi.own, hi.uniq, hi.diff, hi.all, hi.wf, ?_, hi.excl⟩
  intro u
  by_cases h : u = t
  · subst h; simpa [upd] using hp
  · simpa [upd, h] using hi.both u

theorem inv_closeBoth (win : Bool) (s : St) (t : Nat) (hi : Inv win s) (p : Pc) (hp : p.isIdle = true) :
    Inv win { closeBoth s t with pc := upd s.pc t p } := by
  have hm : ∀ q : Nat × Nat, q ∈ (closeBoth s t).fds ↔ q ∈ s.fds ∧ ¬ Owns s t q.1 := by
    intro q
    simp only [closeBoth, mem_closeFd, Owns]; grind
  have ho : ∀ u d, Owns (closeBoth s t) u d ↔ u ≠ t ∧ Owns s u d := by
    intro u d
    simp only [Owns, closeBoth, upd]; grind
  have h1 := hi.ltFd
  have h2 := hi.ltFile
  have h3 := hi.func
  have h4 := hi.own
  have h5 := hi.uniq
  have h6 := hi.diff
  have h7 := hi.all
  have h9 := hi.both
  have h10 := hi.excl
  constructor
  · intro d i h; exact h1 d i ((hm _).1 h).1
  · intro d i h; exact h2 d i ((hm _).1 h).1
  · intro d i j ha hb; exact h3 d i j ((hm _).1 ha).1 ((hm _).1 hb).1
  · intro u d h
    obtain ⟨hne, hu⟩ := (ho u d).1 h
    obtain ⟨i, hx⟩ := h4 u d hu
    exact ⟨i, (hm _).2 ⟨hx, fun hc => hne (h5 u t d hu hc)⟩⟩
  · intro u v d ha hb; exact h5 u v d ((ho u d).1 ha).2 ((ho v d).1 hb).2
  · intro u d ha hb
    simp only [closeBoth, upd] at ha hb
    by_cases e : u = t
    · simp [e] at ha
    · simp only [e, if_false] at ha hb; exact h6 u d ha hb
  · intro d i h
    obtain ⟨ha, hb⟩ := (hm _).1 h
    obtain ⟨u, hu⟩ := h7 d i ha
    exact ⟨u, (ho u d).2 ⟨fun e => hb (e ▸ hu), hu⟩⟩
  · exact hi.wf
  · intro u
    by_cases e : u = t
    · subst e
      cases p <;> simp_all [Pc.isIdle, upd, closeBoth]
    · simpa [upd, e, closeBoth] using h9 u
  · intro hw d e i ha hb; exact h10 hw d e i ((hm _).1 ha).1 ((hm _).1 hb).1

/-- What a successful open gives. -/
theorem sysOpen_some (win : Bool) (s : St) (n : Nat) (d : Disk) (i : Nat) (hi : Inv win s) (h : sysOpen win s n = some (d, i)) :
    (∀ m j, d.dir m = some j → j < d.next) ∧ i < d.next ∧ s.disk.next ≤ d.next ∧ (win = true → ∀ e, (e, i) ∉ s.fds)
    ∧ d.dir n = some i ∧ (∀ m, m ≠ n → d.dir m = s.disk.dir m) ∧ (∀ j, s.disk.dir n = some j → j = i)
    ∧ (∀ j, j < s.disk.next → d.data j = s.disk.data j) ∧ (s.disk.dir n = none → d.data i = []) ∧ s.disk.deny n = false ∧ d.deny = s.disk.deny
    ∧ (s.disk.dir n = none → i = s.disk.next) := by
  have hw := hi.wf
  have hl := hi.ltFile
  simp only [sysOpen] at h
  split at h
  · cases h
  · rename_i hd
    have hd : s.disk.deny n = false := by simpa using hd
    split at h
    · rename_i j hj
      split at h
      · cases h
      · rename_i hx
        cases h
        refine ⟨hw, hw n i hj, Nat.le_refl _, ?_, hj, fun _ _ => rfl, ?_, fun _ _ => rfl, ?_, hd, rfl, ?_⟩
        · intro hwin e hmem
          apply hx
          simp only [hwin, Bool.true_and, List.any_eq_true, beq_iff_eq]
          exact ⟨_, hmem, rfl⟩
        · intro k hk; rw [hj] at hk; exact (Option.some.inj hk).symm
        · intro hn; rw [hj] at hn; cases hn
        · intro hn; rw [hj] at hn; cases hn
    · rename_i hj
      cases h
      refine ⟨?_, by simp [Disk.make], by simp [Disk.make], ?_, by simp [Disk.make, upd], ?_, ?_, ?_, by simp [Disk.make, upd], hd, rfl, fun _ => rfl⟩
      · intro m k hk
        simp only [Disk.make, upd] at hk ⊢
        split at hk
        · cases hk; omega
        · have := hw m k hk; omega
      · intro _ e hmem
        exact absurd (hl e _ hmem) (Nat.lt_irrefl _)
      · intro m hm; simp [Disk.make, upd, hm]
      · intro k hk; rw [hj] at hk; cases hk
      · intro k hk; simp only [Disk.make, upd]; rw [if_neg (by omega)]

theorem inv_master (win : Bool) (s : St) (t n : Nat) (d : Disk) (i : Nat) (hi : Inv win s) (h : sysOpen win s n = some (d, i)) (f b : Nat) :
    Inv win { setMaster (opened win s t n d i) t s.nextFd with pc := upd s.pc t (.flag1 f b) } := by
  obtain ⟨k1, k2, k3, k4, _⟩ := sysOpen_some win s n d i hi h
  have h1 := hi.ltFd
  have h2 := hi.ltFile
  have h3 := hi.func
  have h4 := hi.own
  have h5 := hi.uniq
  have h6 := hi.diff
  have h7 := hi.all
  have h9 := hi.both
  have h10 := hi.excl
  have hm : ∀ q : Nat × Nat, q ∈ (setMaster (opened win s t n d i) t s.nextFd).fds ↔ (q = (s.nextFd, i) ∨ q ∈ s.fds) ∧ (s.sto t).master ≠ some q.1 := by
    intro q
    simp only [setMaster, opened, mem_closeFd, List.mem_cons]
  have hold : ∀ u x, Owns s u x → x < s.nextFd := by
    intro u x hx
    obtain ⟨j, hj⟩ := h4 u x hx
    exact h1 x j hj
  have hmm : ∀ x, (s.sto t).master = some x → x < s.nextFd := fun x hx => hold t x (Or.inl hx)
  constructor
  · intro x j hx
    have := (hm _).1 hx
    rcases this.1 with e | e
    · cases e; simp [setMaster, opened]
    · have := h1 x j e; simp only [setMaster, opened]; omega
  · intro x j hx
    have := (hm _).1 hx
    rcases this.1 with e | e
    · cases e; exact k2
    · have := h2 x j e; simp only [setMaster, opened]; omega
  · intro x j j' ha hb
    rcases ((hm _).1 ha).1 with e | e <;> rcases ((hm _).1 hb).1 with e' | e'
    · cases e; cases e'; rfl
    · cases e; have := h1 _ _ e'; omega
    · cases e'; have := h1 _ _ e; omega
    · exact h3 x j j' e e'
  · intro u x hx
    simp only [Owns, setMaster, opened, upd] at hx
    by_cases e : u = t
    · subst e
      simp only [if_true] at hx
      rcases hx with hx | hx
      · cases hx
        refine ⟨i, (hm _).2 ⟨Or.inl rfl, fun hc => ?_⟩⟩
        have := hmm _ hc; omega
      · obtain ⟨j, hj⟩ := h4 u x (Or.inr hx)
        exact ⟨j, (hm _).2 ⟨Or.inr hj, fun hc => h6 u x hc hx⟩⟩
    · simp only [e, if_false] at hx
      obtain ⟨j, hj⟩ := h4 u x hx
      exact ⟨j, (hm _).2 ⟨Or.inr hj, fun hc => e (h5 u t x hx (Or.inl hc))⟩⟩
  · intro u v x hu hv
    simp only [Owns, setMaster, opened, upd] at hu hv
    have hu' : Owns s u x ∨ (u = t ∧ x = s.nextFd) := by simp only [Owns]; grind
    have hv' : Owns s v x ∨ (v = t ∧ x = s.nextFd) := by simp only [Owns]; grind
    rcases hu' with hu' | hu' <;> rcases hv' with hv' | hv'
    · exact h5 u v x hu' hv'
    · have := hold u x hu'; omega
    · have := hold v x hv'; omega
    · omega
  · intro u x ha hb
    simp only [setMaster, opened, upd] at ha hb
    by_cases e : u = t
    · simp only [e, if_true] at ha hb
      cases ha
      have := hold t _ (Or.inr hb); omega
    · simp only [e, if_false] at ha hb; exact h6 u x ha hb
  · intro x j hx
    obtain ⟨ha, hb⟩ := (hm _).1 hx
    rcases ha with e | e
    · cases e; exact ⟨t, Or.inl (by simp [setMaster, upd])⟩
    · obtain ⟨u, hu⟩ := h7 x j e
      refine ⟨u, ?_⟩
      simp only [Owns, setMaster, opened, upd] at hu ⊢
      by_cases e : u = t
      · subst e; simp only [if_true]
        rcases hu with hu | hu
        · exact absurd hu hb
        · exact Or.inr hu
      · simpa [e] using hu
  · exact k1
  · intro u
    by_cases e : u = t
    · subst e; simp [upd, setMaster]
    · simpa [upd, e, setMaster, opened] using h9 u
  · intro hw x y j ha hb
    rcases ((hm _).1 ha).1 with e | e <;> rcases ((hm _).1 hb).1 with e' | e'
    · cases e; cases e'; rfl
    · cases e; exact absurd e' (k4 hw y)
    · cases e'; exact absurd e (k4 hw x)
    · exact h10 hw x y j e e'

theorem inv_backup (win : Bool) (s : St) (t n : Nat) (d : Disk) (i : Nat) (hi : Inv win s) (h : sysOpen win s n = some (d, i)) (f b : Nat) (m : Bool)
    (hp : (s.sto t).master.isSome = true) :
    Inv win { setBackup (opened win s t n d i) t s.nextFd with pc := upd s.pc t (.flag2 f b m) } := by
  obtain ⟨k1, k2, k3, k4, _⟩ := sysOpen_some win s n d i hi h
  have h1 := hi.ltFd
  have h2 := hi.ltFile
  have h3 := hi.func
  have h4 := hi.own
  have h5 := hi.uniq
  have h6 := hi.diff
  have h7 := hi.all
  have h9 := hi.both
  have h10 := hi.excl
  have hm : ∀ q : Nat × Nat, q ∈ (setBackup (opened win s t n d i) t s.nextFd).fds ↔ (q = (s.nextFd, i) ∨ q ∈ s.fds) ∧ (s.sto t).backup ≠ some q.1 := by
    intro q
    simp only [setBackup, opened, mem_closeFd, List.mem_cons]
  have hold : ∀ u x, Owns s u x → x < s.nextFd := by
    intro u x hx
    obtain ⟨j, hj⟩ := h4 u x hx
    exact h1 x j hj
  have hmm : ∀ x, (s.sto t).backup = some x → x < s.nextFd := fun x hx => hold t x (Or.inr hx)
  constructor
  · intro x j hx
    have := (hm _).1 hx
    rcases this.1 with e | e
    · cases e; simp [setBackup, opened]
    · have := h1 x j e; simp only [setBackup, opened]; omega
  · intro x j hx
    have := (hm _).1 hx
    rcases this.1 with e | e
    · cases e; exact k2
    · have := h2 x j e; simp only [setBackup, opened]; omega
  · intro x j j' ha hb
    rcases ((hm _).1 ha).1 with e | e <;> rcases ((hm _).1 hb).1 with e' | e'
    · cases e; cases e'; rfl
    · cases e; have := h1 _ _ e'; omega
    · cases e'; have := h1 _ _ e; omega
    · exact h3 x j j' e e'
  · intro u x hx
    simp only [Owns, setBackup, opened, upd] at hx
    by_cases e : u = t
    · subst e
      simp only [if_true] at hx
      rcases hx with hx | hx
      · obtain ⟨j, hj⟩ := h4 u x (Or.inl hx)
        exact ⟨j, (hm _).2 ⟨Or.inr hj, fun hc => h6 u x hx hc⟩⟩
      · cases hx
        refine ⟨i, (hm _).2 ⟨Or.inl rfl, fun hc => ?_⟩⟩
        have := hmm _ hc; omega
    · simp only [e, if_false] at hx
      obtain ⟨j, hj⟩ := h4 u x hx
      exact ⟨j, (hm _).2 ⟨Or.inr hj, fun hc => e (h5 u t x hx (Or.inr hc))⟩⟩
  · intro u v x hu hv
    simp only [Owns, setBackup, opened, upd] at hu hv
    have hu' : Owns s u x ∨ (u = t ∧ x = s.nextFd) := by simp only [Owns]; grind
    have hv' : Owns s v x ∨ (v = t ∧ x = s.nextFd) := by simp only [Owns]; grind
    rcases hu' with hu' | hu' <;> rcases hv' with hv' | hv'
    · exact h5 u v x hu' hv'
    · have := hold u x hu'; omega
    · have := hold v x hv'; omega
    · omega
  · intro u x ha hb
    simp only [setBackup, opened, upd] at ha hb
    by_cases e : u = t
    · simp only [e, if_true] at ha hb
      cases hb
      have := hold t _ (Or.inl ha); omega
    · simp only [e, if_false] at ha hb; exact h6 u x ha hb
  · intro x j hx
    obtain ⟨ha, hb⟩ := (hm _).1 hx
    rcases ha with e | e
    · cases e; exact ⟨t, Or.inr (by simp [setBackup, upd])⟩
    · obtain ⟨u, hu⟩ := h7 x j e
      refine ⟨u, ?_⟩
      simp only [Owns, setBackup, opened, upd] at hu ⊢
      by_cases e : u = t
      · subst e; simp only [if_true]
        rcases hu with hu | hu
        · exact Or.inl hu
        · exact absurd hu hb
      · simpa [e] using hu
  · exact k1
  · intro u
    by_cases e : u = t
    · subst e; simp [upd, setBackup, opened, hp]
    · simpa [upd, e, setBackup, opened] using h9 u
  · intro hw x y j ha hb
    rcases ((hm _).1 ha).1 with e | e <;> rcases ((hm _).1 hb).1 with e' | e'
    · cases e; cases e'; rfl
    · cases e; exact absurd e' (k4 hw y)
    · cases e'; exact absurd e (k4 hw x)
    · exact h10 hw x y j e e'

/-- Only contents and names change. -/
theorem inv_disk (win : Bool) (s : St) (d : Disk) (hi : Inv win s) (hn : s.disk.next ≤ d.next) (hw : ∀ n i, d.dir n = some i → i < d.next) :
    Inv win { s with disk := d } :=
  ⟨hi.ltFd, fun x j hx => Nat.lt_of_lt_of_le (hi.ltFile x j hx) hn, hi.func, hi.own, hi.uniq, hi.diff, hi.all, hw, hi.both, hi.excl⟩

theorem inv_writeFd (win : Bool) (s : St) (h : Option Nat) (c : List UInt8) (hi : Inv win s) : Inv win (writeFd s h c) := by
  simp only [writeFd]
  split
  · exact hi
  · exact inv_disk win s _ hi (Nat.le_refl _) hi.wf

theorem writeFd_frame (s : St) (h : Option Nat) (c : List UInt8) :
    (writeFd s h c).fds = s.fds ∧ (writeFd s h c).pc = s.pc ∧ (writeFd s h c).sto = s.sto ∧ (writeFd s h c).flag = s.flag
      ∧ (writeFd s h c).disk.dir = s.disk.dir ∧ (writeFd s h c).disk.next = s.disk.next := by
  simp only [writeFd]
  split <;> exact ⟨rfl, rfl, rfl, rfl, rfl, rfl⟩

theorem access_eq (win : Bool) (s : St) (t n : Nat) (p : Pc) :
    ({ accessStep win s t n with pc := upd s.pc t p } : St) = { s with pc := upd s.pc t p, flag := if win then s.flag else upd s.flag t (s.disk.dir n).isSome } := by
  cases win <;> rfl

theorem inv_step (win : Bool) (s : St) (t : Nat) (hi : Inv win s) : Inv win (stepOpen win s t) := by
  have h9 := hi.both t
  simp only [stepOpen]
  split
  · exact hi
  · rename_i hp; rw [hp] at h9
    rw [access_eq]
    exact inv_pc win s t _ hi (by simpa using h9) _
  · rename_i hp; rw [hp] at h9
    split
    · exact inv_closeBoth win s t hi _ rfl
    · rename_i d i ho
      exact inv_master win s t _ d i hi ho _ _
  · rename_i hp; rw [hp] at h9
    exact inv_pc win s t _ hi (by simpa using h9) _
  · rename_i hp; rw [hp] at h9
    rw [access_eq]
    exact inv_pc win s t _ hi (by simpa using h9) _
  · rename_i hp; rw [hp] at h9
    split
    · exact inv_closeBoth win s t hi _ rfl
    · rename_i d i ho
      exact inv_backup win s t _ d i hi ho _ _ _ (by simpa using h9)
  · rename_i hp; rw [hp] at h9
    refine inv_pc win s t _ hi ?_ _
    simp only at h9 ⊢
    rw [h9.1, h9.2]

theorem idle_both (win : Bool) (s : St) (t : Nat) (hi : Inv win s) (h : (s.pc t).isIdle = true) : (s.sto t).master.isSome = (s.sto t).backup.isSome := by
  have h9 := hi.both t
  cases hp : s.pc t <;> rw [hp] at h h9 <;> first | exact h9 | simp [Pc.isIdle] at h

theorem upd_self {β : Type} (f : Nat → β) (i : Nat) : upd f i (f i) = f := by
  funext j; simp only [upd]; split
  · rename_i e; rw [e]
  · rfl

theorem inv_act (win : Bool) (s : St) (a : Act) (hi : Inv win s) : Inv win (act win s a) := by
  cases a with
  | call t f b =>
    simp only [act]
    split
    · rename_i h
      exact inv_pc win s t _ hi (by simpa using idle_both win s t hi h) _
    · exact hi
  | step t => exact inv_step win s t hi
  | close t =>
    simp only [act]
    split
    · rename_i h
      have := inv_closeBoth win s t hi (s.pc t) h
      rw [upd_self] at this
      exact this
    · exact hi
  | save t m b =>
    simp only [act]
    split
    · exact inv_writeFd win _ _ _ (inv_writeFd win _ _ _ hi)
    · exact hi
  | create n c =>
    simp only [act]
    split
    · exact hi
    · refine inv_disk win s _ hi (by simp [Disk.make]) ?_
      intro m i h
      have := hi.wf m i
      simp only [Disk.make, upd] at h ⊢
      split at h
      · cases h; omega
      · have := hi.wf m i h; omega
  | remove n =>
    simp only [act]
    split
    · exact hi
    · split
      · exact hi
      · refine inv_disk win s _ hi (Nat.le_refl _) ?_
        intro m i h
        simp only [upd] at h
        split at h
        · cases h
        · exact hi.wf m i h

theorem inv_run (win : Bool) (l : List Act) : ∀ s, Inv win s → Inv win (run win s l) := by
  induction l with
  | nil => exact fun _ h => h
  | cons a l ih => exact fun s h => ih _ (inv_act win s a h)

theorem fileOf_mem (win : Bool) (s : St) (hi : Inv win s) (d i : Nat) : fileOf s (some d) = some i ↔ (d, i) ∈ s.fds := by
  simp only [fileOf, Option.map_eq_some_iff]
  constructor
  · rintro ⟨⟨x, y⟩, h, rfl⟩
    have h1 := List.find?_some h
    simp only [beq_iff_eq] at h1
    subst h1
    exact List.mem_of_find?_eq_some h
  · intro h
    cases hf : s.fds.find? (·.1 == d) with
    | none =>
      have := List.find?_eq_none.1 hf (d, i) h
      simp at this
    | some q =>
      refine ⟨q, rfl, ?_⟩
      have h1 := List.find?_some hf
      simp only [beq_iff_eq] at h1
      have h2 := List.mem_of_find?_eq_some hf
      have : (d, q.2) ∈ s.fds := by rw [← h1]; exact h2
      exact hi.func d q.2 i this h

end Verif.File.Open
