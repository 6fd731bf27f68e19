import Verif.StorageFmt.Damage
import Verif.StorageFmt.IoOnly

/-! # C186: a file of settings that cannot be read does not stand in the way of the other -/

namespace Verif.StorageFmt

open Verif.Storage

variable {V : Type}

/-! ### What it means -/

/-- The contents of the two files after a `Load` that was not interrupted. -/
def filesAfter (fmt : Format V) (old : V) (m b : Bytes) : Bytes × Bytes :=
  ((exec (load fmt old (.opened m b)).1 (.opened m b)).master.cur, (exec (load fmt old (.opened m b)).1 (.opened m b)).backup.cur)

/-- The program was started any number of times, loaded the settings and ended. -/
inductive Started (fmt : Format V) : Bytes × Bytes → Bytes × Bytes → Prop
  | none (c) : Started fmt c c
  | again {c : Bytes × Bytes} {m b : Bytes} (old : V) : Started fmt c (m, b) → Started fmt c (filesAfter fmt old m b)

/-- Besides, a file that was not flushed may have any contents. -/
def garbage : Crash where
  Torn h c := c ∈ h ∨ 2 ≤ h.length
  synced := by
    rintro x c (h | h)
    · simpa using h
    · simp at h
  current := by intro x h; simp

/-! ### Lemmas -/

theorem exec_recovered (e : Bytes) (d : Files) : (exec (writeToStream .master e ++ clearBackup) d).master.cur = e ∧
    (exec (writeToStream .master e ++ clearBackup) d).backup.cur = [] := by
  rw [exec_append, writeToStream_eq, clearBackup_eq, exec_master, exec_backup]
  simp only [frun_write, frun_clear, and_self]

theorem exec_cleared (d : Files) : (exec clearBackup d).master.cur = d.master.cur ∧ (exec clearBackup d).backup.cur = [] := by
  rw [clearBackup_eq, exec_backup]
  simp only [frun_clear, and_self]

theorem loadFromFile_true {fmt : Format V} {old v : V} {c : Bytes} (h : loadFromFile fmt old c = (v, .ok true)) : Holds fmt c v := by
  unfold loadFromFile at h
  split at h
  · rename_i w pos hr
    injection h with h1 h2
    injection h2 with h2
    subst h1
    unfold Holds
    rw [hr, eq_of_beq h2]
  · rename_i e hr
    injection h with h1 h2
    split at h2 <;> cases h2
  · injection h with h1 h2
    cases h2

/-! ### The property -/

/-- **C186.**  If the backup holds a value, `Load` gives that value whatever the master is, and after it the master holds the value and the backup is empty. -/
theorem c186_good_backup {fmt : Format V} {b : Bytes} {v : V} (h : Holds fmt b v) (old : V) (m : Bytes) :
    answer fmt old m b = (v, .ok true) ∧ filesAfter fmt old m b = (fmt.enc v, []) := by
  refine ⟨answer_holds h old m, ?_⟩
  have hb : (Files.opened m b).backup.cur = b := rfl
  have hl : load fmt old (.opened m b) = (writeToStream .master (fmt.enc v) ++ clearBackup, v, .ok true) := by
    simp only [load, hb, load_holds h]
  have he := exec_recovered (fmt.enc v) (.opened m b)
  unfold filesAfter
  rw [hl]
  exact Prod.ext he.1 he.2

/-- **C186.**  If the master holds a value and the backup has any contents whose reading is defined and throws nothing but `IoException`s, `Load` succeeds, with that value or with the one the
backup holds.  Missing: backups whose reading throws something else, see `c186_stuck_violated`. -/
theorem c186_good_master_partial {fmt : Format V} {m b : Bytes} {v : V} (h : Holds fmt m v) (hio : ∀ e, fmt.read b = .throw e → isIo e = true) (hub : fmt.read b ≠ .ub) (old : V) :
    answer fmt old m b = (v, .ok true) ∨ ∃ w, Holds fmt b w ∧ answer fmt old m b = (w, .ok true) := by
  have hb : (Files.opened m b).backup.cur = b := rfl
  have hm : (Files.opened m b).master.cur = m := rfl
  cases hr : fmt.read b with
  | ok r =>
    obtain ⟨w, pos⟩ := r
    by_cases hp : pos = b.length
    · right
      have hw : Holds fmt b w := by unfold Holds; rw [hr, hp]
      exact ⟨w, hw, answer_holds hw old m⟩
    · left
      have hl : loadFromFile fmt old b = (w, .ok false) := by
        simp only [loadFromFile, hr, beq_eq_false_iff_ne.2 hp]
      simp only [answer, load, hb, hm, hl, load_holds h]
  | throw e =>
    left
    rw [answer_rejected ⟨e, hio e hr, hr⟩, load_holds h]
  | ub => exact absurd hr hub

/-- **C186.**  `Load` never takes a good value away from the master: whatever the files are and however often the program is started, the master stays as it is, unless the backup holds a
value, which then is in the master. -/
theorem c186_master_kept {fmt : Format V} {m b : Bytes} {c' : Bytes × Bytes} (he : Rejected fmt []) (h : Started fmt (m, b) c') :
    c' = (m, b) ∨ c' = (m, []) ∨ ∃ w, Holds fmt b w ∧ c' = (fmt.enc w, []) := by
  -- one Load
  have one : ∀ old m b, filesAfter fmt old m b = (m, b) ∨ filesAfter fmt old m b = (m, []) ∨ ∃ w, Holds fmt b w ∧ filesAfter fmt old m b = (fmt.enc w, []) := by
    intro old m b
    have hb : (Files.opened m b).backup.cur = b := rfl
    cases hl : loadFromFile fmt old b with
    | mk w r =>
      cases r with
      | ok t =>
        cases t with
        | true =>
          have hw := loadFromFile_true hl
          exact .inr (.inr ⟨w, hw, (c186_good_backup hw old m).2⟩)
        | false =>
          right; left
          have he := exec_cleared (.opened m b)
          unfold filesAfter
          simp only [load, hb, hl]
          exact Prod.ext he.1 he.2
      | throw e => left; unfold filesAfter; simp only [load, hb, hl]; rfl
      | ub => left; unfold filesAfter; simp only [load, hb, hl]; rfl
  have none : ∀ w, ¬ Holds fmt [] w := by
    intro w hw
    obtain ⟨e, _, hr⟩ := he
    unfold Holds at hw
    rw [hr] at hw
    cases hw
  have empty : ∀ old m, filesAfter fmt old m [] = (m, []) := by
    intro old m
    rcases one old m [] with h | h | ⟨w, hw, _⟩
    · exact h
    · exact h
    · exact absurd hw (none w)
  induction h with
  | none => exact .inl rfl
  | again old h ih =>
    rcases ih with ih | ih | ⟨w, hw, ih⟩ <;> injection ih with h1 h2 <;> subst h1 <;> subst h2
    · exact one old _ _
    · exact .inr (.inl (empty old _))
    · exact .inr (.inr ⟨w, hw, empty old _⟩)

/-- **C186.**  Settings written to the file itself, of a type without vectors and variants and with strings whose length is limited: whatever is in the backup, even after a crash that left
garbage in it, the value of the master is loaded, or the one the backup holds. -/
theorem c186_plain_partial (env : Serialize.Env) (t : Serialize.Ty) (hs : Serialize.Sized env t) (hc : Serialize.Checked env t) {m : Bytes} {v : Serialize.Val}
    (h : Holds (direct (plain env t)) m v) (old : Serialize.Val) (b : Bytes) :
    answer (direct (plain env t)) old m b = (v, .ok true) ∨ ∃ w, Holds (direct (plain env t)) b w ∧ answer (direct (plain env t)) old m b = (w, .ok true) := by
  refine c186_good_master_partial h (fun e he => ?_) (fun he => ?_) old
  · simp only [direct, plain] at he
    split at he
    · cases he
    · rename_i e' hr
      cases he
      exact Serialize.read_ioOnly env t _ hs _ _ hr
    · cases he
  · simp only [direct, plain] at he
    split at he
    · cases he
    · cases he
    · rename_i hr
      rcases Serialize.c79_arbitrary_bytes_partial env t _ b hc (Serialize.legal_dflt env t hc) with ⟨e, h1⟩ | ⟨v, s', h1, _⟩ <;> rw [h1] at hr <;> cases hr

/-- **C186.**  Settings of every type in a hashed file: a backup of any length whose first block is not a payload followed by its hash is passed over. -/
theorem c186_hashed {c : HashStream.Cfg} (hc : c.Good) {f : SFormat V} {P : V → Prop} (hf : f.Good P) {v : V} (hv : P v) (b : Bytes)
    (hb : ¬ HashStream.Consistent c.hash (b.take c.blockSize)) (old : V) :
    answer (hashed c f) old ((hashed c f).enc v) b = (v, .ok true) ∧ filesAfter (hashed c f) old ((hashed c f).enc v) b = ((hashed c f).enc v, []) := by
  have hg := hashed_good hc hf ⟨v, hv⟩
  have hr : Rejected (hashed c f) b := by
    cases b with
    | nil => exact hg.empty
    | cons x xs =>
      have hd := HashStream.decode_bad (c := c) (s := x :: xs) (by simp) xs.length hb
      have ht := hf.truncated v hv [] (List.nil_prefix) (fun e => hf.nonempty v hv e.symm)
      refine ⟨.corruption, rfl, ?_⟩
      simp only [hashed, List.length_cons, hd, ht]
      simp
  have hbk : (Files.opened ((hashed c f).enc v) b).backup.cur = b := rfl
  have he := exec_cleared (.opened ((hashed c f).enc v) b)
  refine ⟨by rw [answer_rejected hr, load_holds (hg.roundTrip v hv)], ?_⟩
  unfold filesAfter
  simp only [load, hbk, load_rejected hr]
  exact Prod.ext he.1 he.2

/-- What a backup that throws something else does: `Load` throws it, and the files stay as they are. -/
theorem stuck {fmt : Format V} {m b : Bytes} {e : Exn} (hr : fmt.read b = .throw e) (he : isIo e = false) {c : Bytes × Bytes} (h : Started fmt (m, b) c) :
    c = (m, b) ∧ ∀ old, answer fmt old c.1 c.2 = (old, .throw e) := by
  have hl : ∀ old, loadFromFile fmt old b = (old, .throw e) := by
    intro old
    simp only [loadFromFile, hr, he]
    rfl
  have hb : ∀ m, (Files.opened m b).backup.cur = b := fun _ => rfl
  have hc : c = (m, b) := by
    induction h with
    | none => rfl
    | again old h ih =>
      injection ih with h1 h2
      subst h1; subst h2
      unfold filesAfter
      simp only [load, hb, hl]
      rfl
  subst hc
  refine ⟨rfl, fun old => ?_⟩
  simp only [answer, load, hb, hl]

theorem direct_throw {f : SFormat V} {b : Bytes} {e : Exn} (h : f.rd b = .throw e) : (direct f).read b = .throw e := by
  simp only [direct, h]

/-- **C186 is violated** by vectors: if the first eight bytes of the backup are a number of elements for which there is no memory, `Load` throws `std::length_error` or `std::bad_alloc`, which
is no `IoException`, although the master is good.  Nothing clears the backup, so every later `Load` does the same, however often the program is started.  A crash during `Save` can leave
such a backup if the file had got its length but not its data. -/
theorem c186_stuck_violated (env : Serialize.Env) (t : Serialize.Ty) (m : Bytes) (n : Nat) (hn : n < 2 ^ 64) (hc : env.cap < n) (rest : Bytes) :
    (∀ c, Started (direct (plain env (.vec t))) (m, Serialize.leBytes 8 n ++ rest) c →
      c = (m, Serialize.leBytes 8 n ++ rest) ∧ ∀ old, answer (direct (plain env (.vec t))) old c.1 c.2 = (old, .throw .general)) ∧
    ∀ v, 2 ≤ ((direct (plain env (.vec t))).enc v).length →
      Crashed garbage (save (direct (plain env (.vec t))) v) 3 (.opened m []) m (Serialize.leBytes 8 n ++ rest) := by
  have hr : (plain env (.vec t)).rd (Serialize.leBytes 8 n ++ rest) = .throw .general := by
    simp only [plain, Serialize.dflt]
    exact Serialize.read_vec_long env t [] n hn hc rest
  refine ⟨fun c h => stuck (direct_throw hr) rfl h, fun v hv => ?_⟩
  generalize hx : (direct (plain env (.vec t))).enc v = x at hv
  obtain ⟨a, a', xs, rfl⟩ : ∃ a a' xs, x = a :: a' :: xs := by
    cases x with
    | nil => simp at hv
    | cons a x =>
      cases x with
      | nil => simp at hv
      | cons a' xs => exact ⟨a, a', xs, rfl⟩
  have ht : (save (direct (plain env (.vec t))) v).take 3 = [(.backup, .seek0), (.backup, .put a), (.backup, .put a')] := by
    simp [save, hx, writeToStream]
  unfold Crashed
  rw [ht]
  refine ⟨.inl (by simp [exec, Files.step, Files.opened, File.opened]), .inr (by simp [exec, Files.step, Files.opened, File.opened, File.step])⟩

/-- **C186 is violated** by strings of characters of more than one byte, even if the context limits the length of strings: the number of bytes is calculated modulo 2^64 and passes the limit, and
`resize` gets the number of characters. -/
theorem c186_limit_violated (env : Serialize.Env) (L : Nat) (hL : env.limit = some L) (c : Nat) (hc : c = 2 ∨ c = 4) (hcap : env.cap < 2 ^ 62) (m rest : Bytes) :
    ∀ files, Started (direct (plain env (.str c))) (m, Serialize.leBytes 8 (2 ^ 64 / c) ++ rest) files →
      files = (m, Serialize.leBytes 8 (2 ^ 64 / c) ++ rest) ∧ ∀ old, answer (direct (plain env (.str c))) old files.1 files.2 = (old, .throw .general) := by
  intro files h
  have hr : (plain env (.str c)).rd (Serialize.leBytes 8 (2 ^ 64 / c) ++ rest) = .throw .general := by
    simp only [plain]
    exact Serialize.read_str_long env c (2 ^ 64 / c) L (by rcases hc with rfl | rfl <;> omega) hL (by rcases hc with rfl | rfl <;> omega)
      (by rcases hc with rfl | rfl <;> omega) _ rest
  exact stuck (direct_throw hr) rfl h

/-! ### Cases -/

/-- The file with the number 5 and a backup of garbage. -/
example : Holds (direct (plain ⟨none, 100⟩ (.num 2 0))) [5, 0] (.num 5) ∧ Serialize.Sized ⟨none, 100⟩ (.num 2 0) ∧ Serialize.Checked ⟨none, 100⟩ (.num 2 0) ∧
    answer (direct (plain ⟨none, 100⟩ (.num 2 0))) (.num 1) [5, 0] [7] = (.num 5, .ok true) ∧
    answer (direct (plain ⟨none, 100⟩ (.num 2 0))) (.num 1) [5, 0] [7, 8, 9] = (.num 5, .ok true) :=
  ⟨rfl, by simp [Serialize.Sized], by simp [Serialize.Checked], rfl, rfl⟩

/-- Names of up to 50 bytes with a number. -/
example : Serialize.Sized ⟨some 50, 100⟩ (.coll .deque (.struct none [.str 1, .num 4 0])) := by
  simp [Serialize.Sized, Serialize.SizedAll]

/-- A master with the vector of the bytes 1 and 2, and a backup of bytes 255. -/
example : Holds (direct (plain ⟨none, 100⟩ (.vec (.num 1 0)))) [2, 0, 0, 0, 0, 0, 0, 0, 1, 2] (.list [.num 1, .num 2]) ∧
    answer (direct (plain ⟨none, 100⟩ (.vec (.num 1 0)))) (.list []) [2, 0, 0, 0, 0, 0, 0, 0, 1, 2] (List.replicate 9 255) = (.list [], .throw .general) :=
  ⟨rfl, rfl⟩

/-- A hashed backup of which one byte got to the disk. -/
example : ¬ HashStream.Consistent (HashStream.crcCfg 127 12).hash (([7] : Bytes).take (HashStream.crcCfg 127 12).blockSize) := by
  rintro ⟨p, h⟩
  have := congrArg List.length h
  rw [List.length_append, (HashStream.crcCfg 127 12).hash_length] at this
  have h8 : (HashStream.crcCfg 127 12).size = 8 := rfl
  rw [h8, List.length_take, List.length_singleton] at this
  omega

end Verif.StorageFmt
