import Verif.Storage.Model

/-!
# Specification of a crash-safe storage

What may be on the disk after a crash, what is expected of a serialization format, and what the user gets from the
storage.  None of it mentions how `Save` and `Load` work.
-/

namespace Verif.Storage

variable {V : Type}

/-- What can be found in a file after a crash (or after the process was killed, or after it closed the file because of
an exception), given the contents the file has had since the last completed flush, newest first. -/
structure Crash where
  Torn : List Bytes → Bytes → Prop
  /-- A completed flush is durable. -/
  synced : ∀ {x c}, Torn [x] c → c = x
  /-- Nothing need be lost. -/
  current : ∀ x h, Torn (x :: h) x

/-- Writes reach the disk in the order in which they were made, one byte at a time, and any number of the last ones may
be missing. -/
def inOrder : Crash where
  Torn h c := c ∈ h
  synced := by intro x c h; simpa using h
  current := by intro x h; simp

/-- Besides, a file that was not flushed may have got its length but not its data (a file full of zeros, as some file
systems leave it). -/
def zeroed : Crash where
  Torn h c := c ∈ h ∨ (2 ≤ h.length ∧ ∃ x ∈ h, c = List.replicate x.length 0)
  synced := by
    rintro x c (h | ⟨h, _⟩)
    · simpa using h
    · simp at h
  current := by intro x h; simp

/-- The bytes are a complete file with the value `v` and nothing behind it. -/
def Holds (fmt : Format V) (c : Bytes) (v : V) : Prop := fmt.read c = .ok (v, c.length)

/-- The bytes are rejected, in a way that leaves the value alone. -/
def Rejected (fmt : Format V) (c : Bytes) : Prop := ∃ e, isIo e = true ∧ fmt.read c = .throw e

/-- A format in which the values that satisfy `P` can be read back and which rejects proper prefixes of their bytes and
the empty file. -/
structure Format.Good (fmt : Format V) (P : V → Prop) : Prop where
  empty : Rejected fmt []
  roundTrip : ∀ v, P v → Holds fmt (fmt.enc v) v
  truncated : ∀ v, P v → ∀ k, k < (fmt.enc v).length → Rejected fmt ((fmt.enc v).take k)

/-- A file found after a crash either is rejected or reads like one of the contents the file had.  It holds for
`inOrder` with every format; for other crash models it says that the format (its checksum) detects damaged files. -/
def Detects (fmt : Format V) (K : Crash) : Prop :=
  ∀ h c, K.Torn h c → Rejected fmt c ∨ ∃ x ∈ h, fmt.read c = fmt.read x ∧ (c.length = x.length)

/-- What a user gets: the value they have after a `Load` and whether it succeeded. -/
def answer (fmt : Format V) (old : V) (master backup : Bytes) : V × Res Bool :=
  (load fmt old (.opened master backup)).2

/-- The contents found after the process stopped having done the first `k` operations of the program. -/
def Crashed (K : Crash) (p : Prog) (k : Nat) (d : Files) (master backup : Bytes) : Prop :=
  K.Torn (exec (p.take k) d).master.hist master ∧ K.Torn (exec (p.take k) d).backup.hist backup

/-- A storage whose last `Save` or `Load` completed: the backup is empty and all is on the disk. -/
def Clean (d : Files) (m : Bytes) : Prop :=
  d.master.cur = m ∧ d.master.hist = [m] ∧ d.backup.cur = [] ∧ d.backup.hist = [[]]

/-- `Load` was started, and the process stopped during it, any number of times. -/
inductive Interrupted (fmt : Format V) (K : Crash) : Bytes × Bytes → Bytes × Bytes → Prop
  | none (c) : Interrupted fmt K c c
  | more {c m b c'} (old : V) (k : Nat) :
    Crashed K (load fmt old (.opened c.1 c.2)).1 k (.opened c.1 c.2) m b →
    Interrupted fmt K (m, b) c' → Interrupted fmt K c c'

end Verif.Storage
