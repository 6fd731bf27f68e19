import Verif.Storage.Spec

/-! # Lemmas about the storage -/

namespace Verif.Storage

variable {V : Type}

/-! ## Programs on one file -/

def frun (p : List Prim) (f : File) : File := p.foldl File.step f

theorem exec_append (p q : Prog) (d : Files) : exec (p ++ q) d = exec q (exec p d) := List.foldl_append ..

theorem exec_backup (p : List Prim) (d : Files) :
    exec (p.map (fun x => (Which.backup, x))) d = { d with backup := frun p d.backup } := by
  induction p generalizing d with
  | nil => rfl
  | cons x p ih => exact ih _

theorem exec_master (p : List Prim) (d : Files) :
    exec (p.map (fun x => (Which.master, x))) d = { d with master := frun p d.master } := by
  induction p generalizing d with
  | nil => rfl
  | cons x p ih => exact ih _

/-- The operations of `writeToStream`. -/
def writeOps (e : Bytes) : List Prim := .seek0 :: e.map .put ++ [.trunc, .sync]

def clearOps : List Prim := [.seek0, .trunc, .sync]

theorem writeToStream_eq (f : Which) (e : Bytes) : writeToStream f e = (writeOps e).map (fun x => (f, x)) := by
  simp [writeToStream, writeOps]

theorem clearBackup_eq : clearBackup = clearOps.map (fun x => (Which.backup, x)) := rfl

theorem frun_append (p q : List Prim) (f : File) : frun (p ++ q) f = frun q (frun p f) := List.foldl_append ..

/-- `e` written over the beginning of `old`, `j` bytes of it done. -/
def over (e old : Bytes) (j : Nat) : Bytes := e.take j ++ old.drop j

theorem over_step {e old : Bytes} {j : Nat} (hj : j < e.length) :
    (over e old j).take j ++ [e[j]] ++ (over e old j).drop (j + 1) = over e old (j + 1) := by
  have h1 : (e.take j).length = j := by simp; omega
  unfold over
  rw [List.take_left' h1, List.drop_append, List.drop_of_length_le (by omega), h1, List.drop_drop,
    ← List.take_append_getElem hj]
  simp

theorem frun_puts (e : Bytes) (f : File) : ∀ j, j ≤ e.length →
    let g := frun (.seek0 :: (e.take j).map .put) f
    g.cur = over e f.cur j ∧ g.pos = j ∧ (∀ x ∈ g.hist, x ∈ f.hist ∨ ∃ i, i ≤ j ∧ x = over e f.cur i) ∧
      (f.cur ∈ f.hist → g.cur ∈ g.hist)
  | 0, _ => by
    simp only [List.take_zero, List.map_nil, frun, List.foldl_cons, List.foldl_nil, File.step, over]
    exact ⟨by simp, trivial, fun x hx => .inl hx, fun h => by simpa using h⟩
  | j + 1, hj => by
    have ih := frun_puts e f j (by omega)
    dsimp only at ih ⊢
    rw [← List.take_append_getElem (by omega : j < e.length), List.map_append, ← List.cons_append, frun_append]
    obtain ⟨g, hg⟩ : ∃ g, g = frun (.seek0 :: (e.take j).map .put) f := ⟨_, rfl⟩
    rw [← hg] at ih ⊢
    obtain ⟨h1, h2, h3, h4⟩ := ih
    have hc : (frun ([e[j]].map .put) g).cur = over e f.cur (j + 1) := by
      rw [← over_step (by omega : j < e.length), ← h1]
      simp only [List.map_cons, List.map_nil, frun, List.foldl_cons, List.foldl_nil, File.step, h2]
    refine ⟨hc, ?_, ?_, ?_⟩
    · simp [frun, File.step, h2]
    · intro x hx
      have hx : x = (frun ([e[j]].map .put) g).cur ∨ x ∈ g.hist := by
        simpa [frun, File.step] using hx
      rcases hx with hx | hx
      · exact .inr ⟨j + 1, Nat.le_refl _, hx.trans hc⟩
      · rcases h3 x hx with h | ⟨i, hi, h⟩
        · exact .inl h
        · exact .inr ⟨i, by omega, h⟩
    · intro _
      simp [frun, File.step]

theorem over_full (e old : Bytes) : (over e old e.length).take e.length = e := by
  simp [over]

/-- A completed write. -/
theorem frun_write (e : Bytes) (f : File) : frun (writeOps e) f = ⟨e, e.length, [e]⟩ := by
  have h := frun_puts e f e.length (Nat.le_refl _)
  dsimp only at h
  rw [List.take_length] at h
  unfold writeOps
  rw [frun_append]
  generalize frun (.seek0 :: e.map .put) f = g at h
  obtain ⟨h1, h2, _⟩ := h
  simp only [frun, List.foldl_cons, List.foldl_nil, File.step, h1, h2, over_full]

/-- The contents of a file during a write: those before, or the new bytes written over the beginning of the old
contents, or the new bytes. -/
theorem frun_write_take (e : Bytes) (f : File) (hf : f.cur ∈ f.hist) (k : Nat) :
    let g := frun ((writeOps e).take k) f
    g.cur ∈ g.hist ∧ ∀ x ∈ g.hist, x ∈ f.hist ∨ x = e ∨ ∃ i, i ≤ e.length ∧ x = over e f.cur i := by
  dsimp only
  by_cases h0 : k = 0
  · subst h0; exact ⟨hf, fun x hx => .inl hx⟩
  by_cases h1 : k ≤ e.length + 1
  · obtain ⟨j, rfl⟩ : ∃ j, k = j + 1 := ⟨k - 1, by omega⟩
    have : (writeOps e).take (j + 1) = .seek0 :: (e.take j).map .put := by
      unfold writeOps
      rw [List.cons_append, List.take_succ_cons, List.take_append_of_le_length (by simp; omega), ← List.map_take]
    rw [this]
    have h := frun_puts e f j (by omega)
    dsimp only at h
    exact ⟨h.2.2.2 hf, fun x hx => (h.2.2.1 x hx).imp id (fun ⟨i, hi, hx⟩ => .inr ⟨i, by omega, hx⟩)⟩
  by_cases h2 : k = e.length + 2
  · have : (writeOps e).take k = (.seek0 :: e.map .put) ++ [.trunc] := by
      unfold writeOps
      rw [List.take_append, List.take_of_length_le (by simp; omega)]
      simp only [List.length_cons, List.length_map]
      rw [show k - (e.length + 1) = 1 by omega]
      rfl
    rw [this, frun_append]
    have h := frun_puts e f e.length (Nat.le_refl _)
    dsimp only at h
    rw [List.take_length] at h
    generalize frun (.seek0 :: e.map .put) f = g at h
    obtain ⟨h1, h2, h3, h4⟩ := h
    have : frun [.trunc] g = ⟨e, e.length, e :: g.hist⟩ := by
      simp only [frun, List.foldl_cons, List.foldl_nil, File.step, h1, h2, over_full]
    rw [this]
    refine ⟨by simp, fun x hx => ?_⟩
    rcases List.mem_cons.1 hx with hx | hx
    · exact .inr (.inl hx)
    · exact (h3 x hx).imp id .inr
  · rw [List.take_of_length_le (by simp [writeOps]; omega), frun_write]
    exact ⟨by simp, fun x hx => .inr (.inl (by simpa using hx))⟩

/-- The contents of a file while it is cleared. -/
theorem frun_clear_take (f : File) (hf : f.cur ∈ f.hist) (k : Nat) :
    let g := frun (clearOps.take k) f
    g.cur ∈ g.hist ∧ ∀ x ∈ g.hist, x ∈ f.hist ∨ x = [] := by
  match k with
  | 0 => exact ⟨hf, fun x hx => .inl hx⟩
  | 1 => exact ⟨hf, fun x hx => .inl hx⟩
  | 2 => exact ⟨by simp [frun, clearOps, File.step], fun x hx => by
      simpa [frun, clearOps, File.step, or_comm] using hx⟩
  | k + 3 => exact ⟨by simp [frun, clearOps, File.step], fun x hx => .inr (by
      simpa [frun, clearOps, File.step] using hx)⟩

theorem frun_clear (f : File) : frun clearOps f = ⟨[], 0, [[]]⟩ := by
  simp [frun, clearOps, File.step]

/-! ## The three phases of `Save` and the two of `Load` -/

theorem take_append_cases {α : Type} (a b : List α) (k : Nat) :
    (k ≤ a.length ∧ (a ++ b).take k = a.take k) ∨ ∃ j, (a ++ b).take k = a ++ b.take j := by
  by_cases h : k ≤ a.length
  · exact .inl ⟨h, List.take_append_of_le_length h⟩
  · exact .inr ⟨k - a.length, by rw [List.take_append, List.take_of_length_le (by omega)]⟩

theorem exec_save_take (fmt : Format V) (v : V) (d : Files) (k : Nat) :
    (∃ j, exec ((save fmt v).take k) d = { d with backup := frun ((writeOps (fmt.enc v)).take j) d.backup }) ∨
    (∃ j, exec ((save fmt v).take k) d =
      { master := frun ((writeOps (fmt.enc v)).take j) d.master, backup := ⟨fmt.enc v, (fmt.enc v).length, [fmt.enc v]⟩ }) ∨
    (∃ j, exec ((save fmt v).take k) d =
      { master := ⟨fmt.enc v, (fmt.enc v).length, [fmt.enc v]⟩,
        backup := frun (clearOps.take j) ⟨fmt.enc v, (fmt.enc v).length, [fmt.enc v]⟩ }) := by
  unfold save
  rw [writeToStream_eq, writeToStream_eq, clearBackup_eq, List.append_assoc]
  rcases take_append_cases ((writeOps (fmt.enc v)).map (fun x => (Which.backup, x)))
    ((writeOps (fmt.enc v)).map (fun x => (Which.master, x)) ++ clearOps.map (fun x => (Which.backup, x))) k with
    ⟨_, h⟩ | ⟨j, h⟩
  · left
    exact ⟨k, by rw [h, ← List.map_take, exec_backup]⟩
  · right
    rcases take_append_cases ((writeOps (fmt.enc v)).map (fun x => (Which.master, x)))
      (clearOps.map (fun x => (Which.backup, x))) j with ⟨_, h2⟩ | ⟨i, h2⟩
    · left
      exact ⟨j, by rw [h, h2, exec_append, ← List.map_take, exec_backup, exec_master, frun_write]⟩
    · right
      exact ⟨i, by
        rw [h, h2, exec_append, exec_append, ← List.map_take, exec_backup, exec_master, exec_backup, frun_write,
          frun_write]⟩

theorem exec_save (fmt : Format V) (v : V) (d : Files) :
    exec (save fmt v) d = ⟨⟨fmt.enc v, (fmt.enc v).length, [fmt.enc v]⟩, ⟨[], 0, [[]]⟩⟩ := by
  unfold save
  rw [writeToStream_eq, writeToStream_eq, clearBackup_eq, exec_append, exec_append, exec_backup, exec_master,
    exec_backup, frun_write, frun_write, frun_clear]

theorem exec_recover_take (e : Bytes) (d : Files) (k : Nat) :
    (∃ j, exec ((writeToStream .master e ++ clearBackup).take k) d =
      { d with master := frun ((writeOps e).take j) d.master }) ∨
    (∃ j, exec ((writeToStream .master e ++ clearBackup).take k) d =
      { master := ⟨e, e.length, [e]⟩, backup := frun (clearOps.take j) d.backup }) := by
  rw [writeToStream_eq, clearBackup_eq]
  rcases take_append_cases ((writeOps e).map (fun x => (Which.master, x)))
    (clearOps.map (fun x => (Which.backup, x))) k with ⟨_, h⟩ | ⟨j, h⟩
  · left
    exact ⟨k, by rw [h, ← List.map_take, exec_master]⟩
  · right
    exact ⟨j, by rw [h, exec_append, ← List.map_take, exec_master, exec_backup, frun_write]⟩

theorem exec_clear_take (d : Files) (k : Nat) :
    exec (clearBackup.take k) d = { d with backup := frun (clearOps.take k) d.backup } := by
  rw [clearBackup_eq, ← List.map_take, exec_backup]

/-! ## Reading -/

theorem loadFromFile_holds {fmt : Format V} {c : Bytes} {v : V} (h : Holds fmt c v) (old : V) :
    loadFromFile fmt old c = (v, .ok true) := by
  unfold Holds at h
  simp [loadFromFile, h]

theorem loadFromFile_rejected {fmt : Format V} {c : Bytes} (h : Rejected fmt c) (old : V) :
    loadFromFile fmt old c = (old, .ok false) := by
  obtain ⟨e, h1, h2⟩ := h
  simp [loadFromFile, h2, h1]

theorem answer_backup {fmt : Format V} {b : Bytes} {v : V} (h : Holds fmt b v) (old : V) (m : Bytes) :
    answer fmt old m b = (v, .ok true) := by
  simp [answer, load, Files.opened, File.opened, loadFromFile_holds h]

theorem answer_master {fmt : Format V} {b : Bytes} (h : Rejected fmt b) (old : V) (m : Bytes) :
    answer fmt old m b = loadFromFile fmt old m := by
  simp [answer, load, Files.opened, File.opened, loadFromFile_rejected h]

theorem prefix_cases {fmt : Format V} {P : V → Prop} (hg : fmt.Good P) {v : V} (hv : P v) {x : Bytes} (h : x <+: fmt.enc v) :
    Rejected fmt x ∨ Holds fmt x v := by
  obtain ⟨t, ht⟩ := h
  by_cases hl : x.length < (fmt.enc v).length
  · left
    have := hg.truncated v hv x.length hl
    rwa [← ht, List.take_left] at this
  · right
    have : t = [] := List.eq_nil_of_length_eq_zero (by
      have := congrArg List.length ht
      rw [List.length_append] at this; omega)
    subst this
    rw [List.append_nil] at ht
    rw [ht]; exact hg.roundTrip v hv

theorem detected {fmt : Format V} {K : Crash} (hd : Detects fmt K) {h : List Bytes} {c : Bytes} (hc : K.Torn h c)
    {v : V} (hall : ∀ x ∈ h, Rejected fmt x ∨ Holds fmt x v) : Rejected fmt c ∨ Holds fmt c v := by
  rcases hd h c hc with hr | ⟨x, hx, h1, h2⟩
  · exact .inl hr
  · rcases hall x hx with ⟨e, h3, h4⟩ | h3
    · exact .inl ⟨e, h3, by rw [h1, h4]⟩
    · right
      unfold Holds at h3 ⊢
      rw [h1, h3, h2]

theorem over_prefix {e x : Bytes} (h : x <+: e) (i : Nat) : over e x i <+: e := by
  obtain ⟨t, rfl⟩ := h
  by_cases hi : i ≤ x.length
  · refine ⟨t, ?_⟩
    unfold over
    rw [List.take_append_of_le_length hi, List.take_append_drop]
  · unfold over
    rw [List.drop_of_length_le (by omega), List.append_nil]
    exact List.take_prefix _ _

theorem over_self {e : Bytes} (i : Nat) : over e e i = e := List.take_append_drop _ _

end Verif.Storage
