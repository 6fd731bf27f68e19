import Verif.File.OpenCall

/-! # C138: opening the files of a storage -/

namespace Verif.File.Open

/-- **C138.**  In every history a descriptor is open if and only if exactly one of the storages has it, in one of its two streams: nothing leaks, also not when `Open` throws or a storage
that is open is opened again. -/
theorem c138_owner (win : Bool) (d : Disk) (l : List Act) (s : St) (h : History win d l s) (x : Nat) :
    (∃ i, (x, i) ∈ s.fds) ↔ ∃ t, Owns s t x ∧ (∀ u, Owns s u x → u = t) ∧ ¬ ((s.sto t).master = some x ∧ (s.sto t).backup = some x) := by
  have hi := history_inv win d l s h
  constructor
  · rintro ⟨i, hx⟩
    obtain ⟨t, ht⟩ := hi.all x i hx
    exact ⟨t, ht, fun u hu => hi.uniq u t x hu ht, fun hc => hi.diff t x hc.1 hc.2⟩
  · rintro ⟨t, ht, _⟩
    exact hi.own t x ht

/-- **C138.**  Outside of `Open` a storage has both files open or none; `IsOpened` tells which, and `IsEmpty` tells whether both open files are empty; it throws if none is open. -/
theorem c138_state (win : Bool) (d : Disk) (l : List Act) (s : St) (h : History win d l s) (t : Nat) (ht : (s.pc t).isIdle = true) :
    if isOpened s t then
      ∃ x y i j, s.sto t = ⟨some x, some y⟩ ∧ (x, i) ∈ s.fds ∧ (y, j) ∈ s.fds ∧ isEmpty s t = .ok (decide (s.disk.data i = [] ∧ s.disk.data j = []))
    else s.sto t = ⟨none, none⟩ ∧ isEmpty s t = .throw .io := by
  have hi := history_inv win d l s h
  have hb := idle_both win s t hi ht
  have hop : isOpened s t = (s.sto t).master.isSome := rfl
  rw [hop]
  cases hs : s.sto t with
  | mk m b =>
    rw [hs] at hb
    cases m with
    | none =>
      cases b with
      | none => simp [isEmpty, hs, length, fileOf, Bind.bind, Res.bind]
      | some y => cases hb
    | some x =>
      cases b with
      | none => cases hb
      | some y =>
        obtain ⟨i, hx⟩ := hi.own t x (by simp [Owns, hs])
        obtain ⟨j, hy⟩ := hi.own t y (by simp [Owns, hs])
        simp only [Option.isSome_some, if_true]
        refine ⟨x, y, i, j, rfl, hx, hy, ?_⟩
        have h1 := (fileOf_mem win s hi x i).2 hx
        have h2 := (fileOf_mem win s hi y j).2 hy
        simp only [isEmpty, hs, length, h1, h2, Bind.bind, Res.bind]
        by_cases e1 : s.disk.data i = [] <;> by_cases e2 : s.disk.data j = [] <;> simp [e1, e2]

/-- **C138.**  When `Open` throws, the storage has no file open, also if it was open before. -/
theorem c138_fail (win : Bool) (s : St) (t : Nat) (e : Exn) (h0 : (s.pc t).isIdle = false) (h : (act win s (.step t)).pc t = .idle (some (.throw e))) :
    (act win s (.step t)).sto t = ⟨none, none⟩ ∧ isOpened (act win s (.step t)) t = false := by
  simp only [act, stepOpen] at h ⊢
  split at h <;> rename_i hp
  · rw [hp] at h0; cases h0
  · simp [upd] at h
  · split at h
    · simp [failOpen, closeBoth, upd, isOpened]
    · simp [upd] at h
  · simp [upd] at h
  · simp [upd] at h
  · split at h
    · simp [failOpen, closeBoth, upd, isOpened]
    · simp [upd] at h
  · simp [upd] at h

/-- An act that is no work on contents and not of another process: calls and steps of `Open`, and `Close`. -/
def Opening : Act → Prop
  | .call _ _ _ | .step _ | .close _ => True
  | _ => False

/-- **C138.**  Opening and closing, by any number of threads at once, changes no file and no name that is there; the files it makes are empty. -/
theorem c138_keeps (win : Bool) (d : Disk) (l0 : List Act) (s : St) (h : History win d l0 s) (l : List Act) (hl : ∀ a ∈ l, Opening a) :
    (∀ n i, s.disk.dir n = some i → (run win s l).disk.dir n = some i ∧ (run win s l).disk.data i = s.disk.data i)
    ∧ (∀ n i, s.disk.dir n = none → (run win s l).disk.dir n = some i → (run win s l).disk.data i = []) := by
  have hi := history_inv win d l0 s h
  suffices H : ∀ (l : List Act) (s' : St), (∀ a ∈ l, Opening a) → Inv win s' →
      ((∀ n i, s.disk.dir n = some i → i < s'.disk.next ∧ s'.disk.dir n = some i ∧ s'.disk.data i = s.disk.data i)
        ∧ (∀ n i, s.disk.dir n = none → s'.disk.dir n = some i → s'.disk.data i = [])) →
      (∀ n i, s.disk.dir n = some i → i < (run win s' l).disk.next ∧ (run win s' l).disk.dir n = some i ∧ (run win s' l).disk.data i = s.disk.data i)
        ∧ (∀ n i, s.disk.dir n = none → (run win s' l).disk.dir n = some i → (run win s' l).disk.data i = []) by
    have := H l s hl hi ⟨fun n i hn => ⟨hi.wf n i hn, hn, rfl⟩, fun n i a b => by rw [a] at b; cases b⟩
    exact ⟨fun n i hn => (this.1 n i hn).2, this.2⟩
  intro l
  induction l with
  | nil => intro s' _ _ hs; exact hs
  | cons a l ih =>
    intro s' ha hi' hs
    refine ih _ (fun x hx => ha x (List.mem_cons_of_mem _ hx)) (inv_act win s' a hi') ?_
    have same : ∀ s'' : St, s''.disk = s'.disk → ((∀ n i, s.disk.dir n = some i → i < s''.disk.next ∧ s''.disk.dir n = some i ∧ s''.disk.data i = s.disk.data i)
        ∧ (∀ n i, s.disk.dir n = none → s''.disk.dir n = some i → s''.disk.data i = [])) := by
      intro s'' e; rw [e]; exact hs
    have opn : ∀ n0 dd i0, sysOpen win s' n0 = some (dd, i0) → ((∀ n i, s.disk.dir n = some i → i < dd.next ∧ dd.dir n = some i ∧ dd.data i = s.disk.data i)
        ∧ (∀ n i, s.disk.dir n = none → dd.dir n = some i → dd.data i = [])) := by
      intro n0 dd i0 ho
      obtain ⟨_, _, k3, _, k5, k6, k7, k8, k9, _, _, _⟩ := sysOpen_some win s' n0 dd i0 hi' ho
      refine ⟨fun n i hn => ?_, fun n i hn hd => ?_⟩
      · obtain ⟨x1, x2, x3⟩ := hs.1 n i hn
        refine ⟨by omega, ?_, by rw [k8 i x1, x3]⟩
        by_cases e : n = n0
        · subst e; rw [k5, k7 i x2]
        · rw [k6 n e, x2]
      · by_cases e : n = n0
        · subst e
          rw [k5] at hd; cases hd
          cases hx : s'.disk.dir n with
          | none => exact k9 hx
          | some j =>
            have := k7 j hx; subst this
            rw [k8 j (hi'.wf n j hx)]; exact hs.2 n j hn hx
        · rw [k6 n e] at hd
          rw [k8 i (hi'.wf n i hd)]; exact hs.2 n i hn hd
    have hop := ha a List.mem_cons_self
    cases a with
    | call u f b => apply same; simp only [act]; split <;> rfl
    | close u => apply same; simp only [act]; split <;> rfl
    | step u =>
      simp only [act, stepOpen]
      split
      · exact hs
      · rw [access_eq]; exact hs
      · split
        · exact hs
        · rename_i dd i0 ho; exact opn _ dd i0 ho
      · exact hs
      · rw [access_eq]; exact hs
      · split
        · exact hs
        · rename_i dd i0 ho; exact opn _ dd i0 ho
      · exact hs
    | save u m b => exact absurd hop id
    | create n c => exact absurd hop id
    | remove n => exact absurd hop id

/-- **C138.**  If nobody else makes or removes the two files during the call, an `Open` that returns answers whether one of them was there before, and both streams have the files of the names;
a file that was there is the same file.  Other threads may open other files at the same time.  For files made in between see `c138_race_violated`. -/
theorem c138_result_partial (win : Bool) (d : Disk) (l0 : List Act) (s : St) (h : History win d l0 s) (t f b : Nat) (hne : f ≠ b) (ht : (s.pc t).isIdle = true)
    (l : List Act) (hq : Quiet win t f b (act win s (.call t f b)) l) (v : Bool) (hv : (run win (act win s (.call t f b)) l).pc t = .idle (some (.ok v))) :
    v = ((s.disk.dir f).isSome || (s.disk.dir b).isSome)
    ∧ At s (run win (act win s (.call t f b)) l) f ((run win (act win s (.call t f b)) l).sto t).master
    ∧ At s (run win (act win s (.call t f b)) l) b ((run win (act win s (.call t f b)) l).sto t).backup := by
  have hi := history_inv win d l0 s h
  have h0 : Q win s t f b (act win s (.call t f b)) := by
    simp only [act, ht, if_true, Q, upd]
    exact ⟨trivial, trivial, trivial, trivial⟩
  have := q_run win s t f b hne l _ (inv_act win s _ hi) h0 hq
  simp only [Q, hv] at this
  exact this

/-- **C138.**  On Windows, whatever other threads and processes do during the call: a storage whose `Open` answers that no file was there is empty, until it is saved itself.
On POSIX this is violated, see `c138_contents_violated`. -/
theorem c138_new_is_empty (d : Disk) (l0 : List Act) (s : St) (h : History true d l0 s) (t f b : Nat) (ht : (s.pc t).isIdle = true)
    (l : List Act) (hl : OnlySteps t l) (hv : (run true (act true s (.call t f b)) l).pc t = .idle (some (.ok false))) :
    isEmpty (run true (act true s (.call t f b)) l) t = .ok true := by
  have hi := history_inv true d l0 s h
  have h0 : E t (act true s (.call t f b)) := by simp only [act, ht, if_true, E, upd]
  have he := e_run t l _ (inv_act true s _ hi) h0 hl
  have hh : History true d (l0 ++ .call t f b :: l) (run true (act true s (.call t f b)) l) := by
    refine ⟨h.1, ?_⟩
    rw [h.2]
    have : ∀ (l0 l : List Act) s, run true s (l0 ++ l) = run true (run true s l0) l := by
      intro l0; induction l0 with
      | nil => intro _ _; rfl
      | cons a l0 ih => intro l s; exact ih l _
    rw [this]; rfl
  have hst := c138_state true d _ _ hh t (by rw [hv]; rfl)
  have hop : isOpened (run true (act true s (.call t f b)) l) t = true := by
    have : ∀ (l : List Act) s, OnlySteps t l → Inv true s → (s.pc t).isIdle = false →
        ∀ v, (run true s l).pc t = .idle (some (.ok v)) → isOpened (run true s l) t = true := by
      intro l
      induction l with
      | nil => intro s _ _ hn v hv; simp only [run] at hv; rw [hv] at hn; cases hn
      | cons a l ih =>
        intro s hl hi hn v hv
        by_cases hid : ((act true s a).pc t).isIdle = true
        · -- the call ends with this act
          have keep : ∀ (l : List Act) s, OnlySteps t l → Inv true s → (s.pc t).isIdle = true → (run true s l).pc t = s.pc t ∧ (run true s l).sto t = s.sto t := by
            intro l
            induction l with
            | nil => intro s _ _ _; exact ⟨rfl, rfl⟩
            | cons a l ih =>
              intro s hl hi hd
              have hfr : (act true s a).pc t = s.pc t ∧ (act true s a).sto t = s.sto t := by
                rcases hl a List.mem_cons_self with rfl | h1
                · have : stepOpen true s t = s := by
                    cases hp : s.pc t <;> rw [hp] at hd <;> first | (cases hd; done) | simp only [stepOpen, hp]
                  simp only [act, this, and_self]
                · have := frame_act true t s a hi h1
                  exact ⟨this.pc, this.sto⟩
              have := ih (act true s a) (fun x hx => hl x (List.mem_cons_of_mem _ hx)) (inv_act true s a hi) (by rw [hfr.1]; exact hd)
              exact ⟨by rw [← hfr.1]; exact this.1, by rw [← hfr.2]; exact this.2⟩
          have hk := keep l _ (fun x hx => hl x (List.mem_cons_of_mem _ hx)) (inv_act true s a hi) hid
          simp only [run] at hv ⊢
          rw [hk.1] at hv
          simp only [isOpened, hk.2]
          rcases hl a List.mem_cons_self with rfl | h1
          · have h9 := hi.both t
            simp only [act] at hv ⊢
            cases hp : s.pc t <;> rw [hp] at h9 hn
            · cases hn
            · simp [stepOpen, hp, upd] at hv
            · simp only [stepOpen, hp] at hv
              split at hv <;> simp [failOpen, upd] at hv
            · simp [stepOpen, hp, upd] at hv
            · simp [stepOpen, hp, upd] at hv
            · simp only [stepOpen, hp] at hv
              split at hv <;> simp [failOpen, upd] at hv
            · simpa [stepOpen, hp] using h9.1
          · have := frame_act true t s a hi h1
            rw [this.pc] at hid; rw [hid] at hn; cases hn
        · exact ih _ (fun x hx => hl x (List.mem_cons_of_mem _ hx)) (inv_act true s a hi) (by simpa using hid) v hv
    exact this l _ hl (inv_act true s _ hi) (by simp only [act, ht, if_true, upd]; rfl) false hv
  rw [if_pos hop] at hst
  obtain ⟨x, y, i, j, hs, hx, hy, hem⟩ := hst
  simp only [E, hv] at he
  rw [hem, he trivial x i (by simp [Owns, hs]) hx, he trivial y j (by simp [Owns, hs]) hy]
  rfl

/-- **C138.**  On Windows no file is open twice, be it in one storage or in two.  On POSIX this is violated, see `c138_shared_violated`. -/
theorem c138_exclusive (d : Disk) (l : List Act) (s : St) (h : History true d l s) (x y i : Nat) (hx : (x, i) ∈ s.fds) (hy : (y, i) ∈ s.fds) : x = y :=
  (history_inv true d l s h).excl rfl x y i hx hy

/-! ## Violations and cases -/

/-- An empty disk; the names in the list cannot be opened. -/
def emptyDisk (deny : List Nat) : Disk := ⟨fun _ => none, fun _ => [], 0, fun n => deny.contains n⟩

/-- All steps of `Open` of a thread that returns. -/
def whole (t f b : Nat) : List Act := [.call t f b, .step t, .step t, .step t, .step t, .step t, .step t]

/-- The answer of the last `Open` of a thread, whether its storage is open, and whether it is empty. -/
def view (s : St) (t : Nat) : Option (Res Bool) × Bool × Res Bool :=
  (match s.pc t with | .idle v => v | _ => none, isOpened s t, isEmpty s t)

/-- **C138 is violated** on POSIX when two threads open the same new files at once: both are told that the files are new, -/
theorem c138_race_violated :
    let s := run false (start (emptyDisk [])) ([.call 0 5 6, .call 1 5 6, .step 0, .step 1, .step 0, .step 1, .step 0, .step 1, .step 0, .step 1, .step 0, .step 1, .step 0, .step 1])
    view s 0 = (some (.ok false), true, .ok true) ∧ view s 1 = (some (.ok false), true, .ok true) := by decide

/-- and the two storages have the same files: what one saves, the other finds. -/
theorem c138_shared_violated :
    let s := run false (start (emptyDisk [])) (whole 0 5 6 ++ whole 1 5 6 ++ [.save 0 [1] []])
    view s 0 = (some (.ok false), true, .ok false) ∧ view s 1 = (some (.ok true), true, .ok false) ∧ s.fds = [(3, 1), (2, 0), (1, 1), (0, 0)] := by decide

/-- **C138 is violated** on POSIX when another process makes the file between the two calls of the system: `Open` answers that no file was there and the storage is not empty. -/
theorem c138_contents_violated :
    view (run false (start (emptyDisk [])) [.call 0 5 6, .step 0, .create 5 [1, 2, 3], .step 0, .step 0, .step 0, .step 0, .step 0]) 0 = (some (.ok false), true, .ok false) := by decide

/-- **C138 is violated** when the backup cannot be opened: `Open` throws, but the master file has been made and stays; the next `Open` answers that a file was there though nothing was ever saved. -/
theorem c138_failed_violated :
    let s := run false (start (emptyDisk [7])) [.call 0 5 7, .step 0, .step 0, .step 0, .step 0, .step 0]
    view s 0 = (some (.throw .io), false, .throw .io) ∧ s.disk.dir 5 = some 0 ∧ s.disk.dir 7 = none
      ∧ view (run false s (whole 0 5 6)) 0 = (some (.ok true), true, .ok true) := by decide

/-- **C138 is violated** when both names are the same: the file is made for the master and found for the backup. -/
theorem c138_same_name_violated : view (run false (start (emptyDisk [])) (whole 0 5 5)) 0 = (some (.ok true), true, .ok true) := by decide

/-- On Windows a storage that is open cannot be opened again with the same files: `Open` throws and the storage is closed. -/
theorem c138_reopen_violated :
    view (run true (start (emptyDisk [])) (whole 0 5 6 ++ whole 0 5 6)) 0 = (some (.throw .io), false, .throw .io)
    ∧ view (run false (start (emptyDisk [])) (whole 0 5 6 ++ whole 0 5 6)) 0 = (some (.ok true), true, .ok true) := by decide

example : Sound (emptyDisk [7]) := by intro n i h; cases h
example : let s := run false (start (emptyDisk [])) (whole 0 5 6 ++ [.save 0 [] [4], .close 0] ++ whole 1 5 8); view s 1 = (some (.ok true), true, .ok true) ∧ s.fds = [(3, 2), (2, 0)] := by decide
example : Quiet false 0 5 6 (act false (start (emptyDisk [])) (.call 0 5 6)) [.step 0, .call 1 8 9, .step 1, .create 7 [1], .step 1, .step 0, .step 0] :=
  ⟨.inl rfl, .inr ⟨by decide, trivial, trivial⟩, .inr ⟨by decide, id, id⟩, .inr ⟨by decide, (by decide : (7 : Nat) ≠ 5), (by decide : (7 : Nat) ≠ 6)⟩,
    .inr ⟨by decide, (by decide : ¬ (5 : Nat) = 8), (by decide : ¬ (6 : Nat) = 8)⟩, .inl rfl, .inl rfl, trivial⟩
example : view (run true (start (emptyDisk [])) [.call 0 5 6, .step 0, .create 5 [1, 2, 3], .step 0, .step 0, .step 0, .step 0, .step 0]) 0 = (some (.ok true), true, .ok false) := by decide

end Verif.File.Open
