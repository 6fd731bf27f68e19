import Verif.File.OpenFrame

namespace Verif.File.Open

/-- A disk on which every name names a file that has been made. -/
def Sound (d : Disk) : Prop := ∀ n i, d.dir n = some i → i < d.next

/-- A history of the process from its start. -/
def History (win : Bool) (d : Disk) (l : List Act) (s : St) : Prop := Sound d ∧ s = run win (start d) l

theorem history_inv (win : Bool) (d : Disk) (l : List Act) (s : St) (h : History win d l s) : Inv win s := by
  rw [h.2]; exact inv_run win l _ (inv_start win d h.1)

/-- The thread `t` only goes on with its call, nobody else makes or removes the names `f` and `b`. -/
def Quiet (win : Bool) (t f b : Nat) : St → List Act → Prop
  | _, [] => True
  | s, a :: l => (a = .step t ∨ (a.actor ≠ some t ∧ Spares s f a ∧ Spares s b a)) ∧ Quiet win t f b (act win s a) l

/-- The stream has the file of the name, the same as before if there was one. -/
def At (s0 s : St) (n : Nat) (h : Option Nat) : Prop :=
  ∃ d i, h = some d ∧ (d, i) ∈ s.fds ∧ s.disk.dir n = some i ∧ ∀ j, s0.disk.dir n = some j → j = i

/-- Where a quiet call of `Open` is. -/
def Q (win : Bool) (s0 : St) (t f b : Nat) (s : St) : Prop :=
  match s.pc t with
  | .access1 f' b' => f' = f ∧ b' = b ∧ s.disk.dir f = s0.disk.dir f ∧ s.disk.dir b = s0.disk.dir b
  | .open1 f' b' => f' = f ∧ b' = b ∧ s.disk.dir f = s0.disk.dir f ∧ s.disk.dir b = s0.disk.dir b ∧ (win = false → s.flag t = (s0.disk.dir f).isSome)
  | .flag1 f' b' => f' = f ∧ b' = b ∧ s.flag t = (s0.disk.dir f).isSome ∧ s.disk.dir b = s0.disk.dir b ∧ At s0 s f (s.sto t).master
  | .access2 f' b' m => f' = f ∧ b' = b ∧ m = (s0.disk.dir f).isSome ∧ s.disk.dir b = s0.disk.dir b ∧ At s0 s f (s.sto t).master
  | .open2 f' b' m => f' = f ∧ b' = b ∧ m = (s0.disk.dir f).isSome ∧ s.disk.dir b = s0.disk.dir b ∧ At s0 s f (s.sto t).master
      ∧ (win = false → s.flag t = (s0.disk.dir b).isSome)
  | .flag2 f' b' m => f' = f ∧ b' = b ∧ m = (s0.disk.dir f).isSome ∧ s.flag t = (s0.disk.dir b).isSome ∧ At s0 s f (s.sto t).master ∧ At s0 s b (s.sto t).backup
  | .idle (some (.ok v)) => v = ((s0.disk.dir f).isSome || (s0.disk.dir b).isSome) ∧ At s0 s f (s.sto t).master ∧ At s0 s b (s.sto t).backup
  | .idle _ => True

theorem at_frame (s0 s s' : St) (t n : Nat) (h : Option Nat) (hf : Frame t s s') (hn : s'.disk.dir n = s.disk.dir n) (ho : ∀ d, h = some d → Owns s t d) (ha : At s0 s n h) :
    At s0 s' n h := by
  obtain ⟨d, i, h1, h2, h3, h4⟩ := ha
  exact ⟨d, i, h1, (hf.fds d i (ho d h1)).2 h2, by rw [hn]; exact h3, h4⟩

theorem q_frame (win : Bool) (s0 s s' : St) (t f b : Nat) (hf : Frame t s s') (h1 : s'.disk.dir f = s.disk.dir f) (h2 : s'.disk.dir b = s.disk.dir b) (h : Q win s0 t f b s) :
    Q win s0 t f b s' := by
  have hm : ∀ n, s'.disk.dir n = s.disk.dir n → At s0 s n (s.sto t).master → At s0 s' n (s.sto t).master :=
    fun n hn => at_frame s0 s s' t n _ hf hn (fun d hd => Or.inl hd)
  have hb : ∀ n, s'.disk.dir n = s.disk.dir n → At s0 s n (s.sto t).backup → At s0 s' n (s.sto t).backup :=
    fun n hn => at_frame s0 s s' t n _ hf hn (fun d hd => Or.inr hd)
  simp only [Q, hf.pc, hf.flag, hf.sto, h1, h2] at h ⊢
  cases hp : s.pc t with
  | idle v =>
    rw [hp] at h
    cases v with
    | none => trivial
    | some v =>
      cases v with
      | ok v => exact ⟨h.1, hm _ h1 h.2.1, hb _ h2 h.2.2⟩
      | throw _ => trivial
      | ub => trivial
  | access1 => rw [hp] at h; exact h
  | open1 => rw [hp] at h; exact h
  | flag1 => rw [hp] at h; exact ⟨h.1, h.2.1, h.2.2.1, h.2.2.2.1, hm _ h1 h.2.2.2.2⟩
  | access2 => rw [hp] at h; exact ⟨h.1, h.2.1, h.2.2.1, h.2.2.2.1, hm _ h1 h.2.2.2.2⟩
  | open2 => rw [hp] at h; exact ⟨h.1, h.2.1, h.2.2.1, h.2.2.2.1, hm _ h1 h.2.2.2.2.1, h.2.2.2.2.2⟩
  | flag2 => rw [hp] at h; exact ⟨h.1, h.2.1, h.2.2.1, h.2.2.2.1, hm _ h1 h.2.2.2.2.1, hb _ h2 h.2.2.2.2.2⟩

theorem q_step (win : Bool) (s0 s : St) (t f b : Nat) (hne : f ≠ b) (hi : Inv win s) (h : Q win s0 t f b s) : Q win s0 t f b (stepOpen win s t) := by
  simp only [Q] at h
  cases hp : s.pc t with
  | idle v =>
    have e : stepOpen win s t = s := by simp only [stepOpen, hp]
    rw [e]; simp only [Q, hp] at h ⊢; exact h
  | access1 f' b' =>
    rw [hp] at h; obtain ⟨rfl, rfl, h3, h4⟩ := h
    simp only [stepOpen, hp]; rw [access_eq]
    simp only [Q, upd, if_true]
    refine ⟨trivial, trivial, h3, h4, fun hw => ?_⟩
    subst hw; simp [h3, upd]
  | open1 f' b' =>
    rw [hp] at h; obtain ⟨rfl, rfl, h3, h4, h5⟩ := h
    cases ho : sysOpen win s f' with
    | none => simp only [stepOpen, hp, ho, Q, failOpen, upd, if_true]
    | some q =>
      obtain ⟨d, i⟩ := q
      obtain ⟨_, _, _, _, k5, k6, k7, _⟩ := sysOpen_some win s f' d i hi ho
      simp only [stepOpen, hp, ho, Q, upd, if_true]
      refine ⟨trivial, trivial, ?_, ?_, ?_⟩
      · cases win with
        | true => simp [setMaster, opened, upd, h3]
        | false => simpa [setMaster, opened] using h5 rfl
      · simp only [setMaster, opened]; rw [k6 b' (fun e => hne e.symm)]; exact h4
      · refine ⟨s.nextFd, i, by simp [setMaster, upd], ?_, k5, fun j hj => k7 j (by rw [h3]; exact hj)⟩
        simp only [setMaster, opened, mem_closeFd]
        refine ⟨List.mem_cons_self, fun e => ?_⟩
        obtain ⟨j, hj⟩ := hi.own t s.nextFd (Or.inl e)
        exact Nat.lt_irrefl _ (hi.ltFd _ j hj)
  | flag1 f' b' =>
    rw [hp] at h; obtain ⟨rfl, rfl, h3, h4, h5⟩ := h
    simp only [stepOpen, hp, Q, upd, if_true]
    exact ⟨trivial, trivial, h3, h4, h5⟩
  | access2 f' b' m =>
    rw [hp] at h; obtain ⟨rfl, rfl, h3, h4, h5⟩ := h
    simp only [stepOpen, hp]; rw [access_eq]
    simp only [Q, upd, if_true]
    refine ⟨trivial, trivial, h3, h4, h5, fun hw => ?_⟩
    subst hw; simp [h4, upd]
  | open2 f' b' m =>
    rw [hp] at h; obtain ⟨rfl, rfl, h3, h4, h5, h6⟩ := h
    cases ho : sysOpen win s b' with
    | none => simp only [stepOpen, hp, ho, Q, failOpen, upd, if_true]
    | some q =>
      obtain ⟨d, i⟩ := q
      obtain ⟨_, _, _, _, k5, k6, k7, _⟩ := sysOpen_some win s b' d i hi ho
      simp only [stepOpen, hp, ho, Q, upd, if_true]
      refine ⟨trivial, trivial, h3, ?_, ?_, ?_⟩
      · cases win with
        | true => simp [setBackup, opened, upd, h4]
        | false => simpa [setBackup, opened] using h6 rfl
      · obtain ⟨x, y, a1, a2, a3, a4⟩ := h5
        refine ⟨x, y, by simp [setBackup, opened, upd, a1], ?_, by simp only [setBackup, opened]; rw [k6 f' hne]; exact a3, a4⟩
        simp only [setBackup, opened, mem_closeFd]
        exact ⟨List.mem_cons_of_mem _ a2, fun e => hi.diff t x a1 e⟩
      · refine ⟨s.nextFd, i, by simp [setBackup, upd], ?_, k5, fun j hj => k7 j (by rw [h4]; exact hj)⟩
        simp only [setBackup, opened, mem_closeFd]
        refine ⟨List.mem_cons_self, fun e => ?_⟩
        obtain ⟨j, hj⟩ := hi.own t s.nextFd (Or.inr e)
        exact Nat.lt_irrefl _ (hi.ltFd _ j hj)
  | flag2 f' b' m =>
    rw [hp] at h; obtain ⟨rfl, rfl, h3, h4, h5, h6⟩ := h
    simp only [stepOpen, hp, Q, upd, if_true]
    exact ⟨by rw [h3, h4], h5, h6⟩

theorem q_run (win : Bool) (s0 : St) (t f b : Nat) (hne : f ≠ b) (l : List Act) : ∀ s, Inv win s → Q win s0 t f b s → Quiet win t f b s l → Q win s0 t f b (run win s l) := by
  induction l with
  | nil => intro s _ h _; exact h
  | cons a l ih =>
    intro s hi h hq
    refine ih _ (inv_act win s a hi) ?_ hq.2
    rcases hq.1 with rfl | ⟨h1, h2, h3⟩
    · exact q_step win s0 s t f b hne hi h
    · exact q_frame win s0 s _ t f b (frame_act win t s a hi h1) (spares_dir win s f a hi h2) (spares_dir win s b a hi h3) h

/-- What is known on Windows about the files a call of `Open` has made. -/
def E (t : Nat) (s : St) : Prop :=
  match s.pc t with
  | .flag1 _ _ => s.flag t = false → ∀ d i, (s.sto t).master = some d → (d, i) ∈ s.fds → s.disk.data i = []
  | .access2 _ _ m | .open2 _ _ m => m = false → ∀ d i, (s.sto t).master = some d → (d, i) ∈ s.fds → s.disk.data i = []
  | .flag2 _ _ m => (m = false → ∀ d i, (s.sto t).master = some d → (d, i) ∈ s.fds → s.disk.data i = [])
      ∧ (s.flag t = false → ∀ d i, (s.sto t).backup = some d → (d, i) ∈ s.fds → s.disk.data i = [])
  | .idle (some (.ok v)) => v = false → ∀ d i, Owns s t d → (d, i) ∈ s.fds → s.disk.data i = []
  | _ => True

theorem e_frame (t : Nat) (s s' : St) (hf : Frame t s s') (hd : ∀ d i, Owns s t d → (d, i) ∈ s.fds → s'.disk.data i = s.disk.data i) (h : E t s) : E t s' := by
  have hm : (∀ d i, (s.sto t).master = some d → (d, i) ∈ s.fds → s.disk.data i = []) → ∀ d i, (s.sto t).master = some d → (d, i) ∈ s'.fds → s'.disk.data i = [] := by
    intro h d i h1 h2
    have h3 := (hf.fds d i (Or.inl h1)).1 h2
    rw [hd d i (Or.inl h1) h3]; exact h d i h1 h3
  have hb : (∀ d i, (s.sto t).backup = some d → (d, i) ∈ s.fds → s.disk.data i = []) → ∀ d i, (s.sto t).backup = some d → (d, i) ∈ s'.fds → s'.disk.data i = [] := by
    intro h d i h1 h2
    have h3 := (hf.fds d i (Or.inr h1)).1 h2
    rw [hd d i (Or.inr h1) h3]; exact h d i h1 h3
  simp only [E, hf.pc, hf.flag, hf.sto, Owns] at h ⊢
  cases hp : s.pc t with
  | idle v =>
    rw [hp] at h
    cases v with
    | none => trivial
    | some v =>
      cases v with
      | ok v =>
        intro hv d i ho hx
        have h3 := (hf.fds d i ho).1 hx
        rw [hd d i ho h3]; exact h hv d i ho h3
      | throw _ => trivial
      | ub => trivial
  | access1 => trivial
  | open1 => trivial
  | flag1 => rw [hp] at h; exact fun hv => hm (h hv)
  | access2 => rw [hp] at h; exact fun hv => hm (h hv)
  | open2 => rw [hp] at h; exact fun hv => hm (h hv)
  | flag2 => rw [hp] at h; exact ⟨fun hv => hm (h.1 hv), fun hv => hb (h.2 hv)⟩

theorem e_step (s : St) (t : Nat) (hi : Inv true s) (h : E t s) : E t (stepOpen true s t) := by
  simp only [E] at h
  cases hp : s.pc t with
  | idle v =>
    have e : stepOpen true s t = s := by simp only [stepOpen, hp]
    rw [e]; simp only [E, hp] at h ⊢; exact h
  | access1 f' b' => simp only [stepOpen, hp, E, upd, if_true]
  | open1 f' b' =>
    cases ho : sysOpen true s f' with
    | none => simp only [stepOpen, hp, ho, E, failOpen, upd, if_true]
    | some q =>
      obtain ⟨d, i⟩ := q
      obtain ⟨_, _, _, _, _, _, _, _, k9, _⟩ := sysOpen_some true s f' d i hi ho
      simp only [stepOpen, hp, ho, E, upd, if_true, setMaster, opened]
      intro hfl x j hx hm
      cases hx
      have : i = j := by
        rcases (mem_closeFd _ _ _).1 hm with ⟨hm, _⟩
        rcases List.mem_cons.1 hm with e | e
        · cases e; rfl
        · exact absurd (hi.ltFd _ _ e) (Nat.lt_irrefl _)
      subst this
      exact k9 (by simpa using hfl)
  | flag1 f' b' =>
    rw [hp] at h
    simp only [stepOpen, hp, E, upd, if_true]
    exact h
  | access2 f' b' m =>
    rw [hp] at h
    simp only [stepOpen, hp]; rw [access_eq]
    simp only [E, upd, if_true]
    exact h
  | open2 f' b' m =>
    rw [hp] at h
    cases ho : sysOpen true s b' with
    | none => simp only [stepOpen, hp, ho, E, failOpen, upd, if_true]
    | some q =>
      obtain ⟨d, i⟩ := q
      obtain ⟨_, _, _, _, _, _, _, k8, k9, _⟩ := sysOpen_some true s b' d i hi ho
      simp only [stepOpen, hp, ho, E, upd, if_true, setBackup, opened]
      refine ⟨fun hm x j hx hmem => ?_, fun hfl x j hx hm => ?_⟩
      · rcases (mem_closeFd _ _ _).1 hmem with ⟨hmem, _⟩
        rcases List.mem_cons.1 hmem with e | e
        · cases e
          obtain ⟨j, hj⟩ := hi.own t s.nextFd (Or.inl hx)
          exact absurd (hi.ltFd _ _ hj) (Nat.lt_irrefl _)
        · rw [k8 j (hi.ltFile x j e)]
          exact h hm x j hx e
      · cases hx
        have : i = j := by
          rcases (mem_closeFd _ _ _).1 hm with ⟨hm, _⟩
          rcases List.mem_cons.1 hm with e | e
          · cases e; rfl
          · exact absurd (hi.ltFd _ _ e) (Nat.lt_irrefl _)
        subst this
        exact k9 (by simpa using hfl)
  | flag2 f' b' m =>
    rw [hp] at h
    simp only [stepOpen, hp, E, upd, if_true]
    intro hv d i ho hx
    have hv : m = false ∧ s.flag t = false := by simpa using hv
    rcases ho with ho | ho
    · exact h.1 hv.1 d i ho hx
    · exact h.2 hv.2 d i ho hx

/-- The thread `t` only goes on with its call; the others and other processes do what they like. -/
def OnlySteps (t : Nat) (l : List Act) : Prop := ∀ a ∈ l, a = .step t ∨ a.actor ≠ some t

theorem e_run (t : Nat) (l : List Act) : ∀ s, Inv true s → E t s → OnlySteps t l → E t (run true s l) := by
  induction l with
  | nil => intro s _ h _; exact h
  | cons a l ih =>
    intro s hi h hq
    refine ih _ (inv_act true s a hi) ?_ (fun x hx => hq x (List.mem_cons_of_mem _ hx))
    rcases hq a List.mem_cons_self with rfl | h1
    · exact e_step s t hi h
    · exact e_frame t s _ (frame_act true t s a hi h1) (fun d i ho hd => frame_data t s a hi h1 d i ho hd) h

end Verif.File.Open
