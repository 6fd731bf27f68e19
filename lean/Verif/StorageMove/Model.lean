import Verif.Common.Res

/-!
# Storages that are moved: `Awl/Io/AtomicStorage.h`, `Awl/Io/OptionalStorage.h`, `Platforms/Posix/Awl/Io/UniqueHandle.h`

Variables of type `AtomicStorage` or `OptionalStorage` (`opt`) that are constructed, opened, moved, assigned, swapped, closed and destroyed.  A storage has two descriptors
of the process.  The kernel is a specification (trusted): open(2) gives the lowest descriptor that is not open, so a number is used again, close(2) of a descriptor
that is not open is a failed assertion (UniqueHandle.h:71-74), here undefined behaviour, all other calls fail for one that is not open.

Simplified: an open file is read and written completely at once (its operations: C43–C45, C98), nothing but open(2) fails; `good` tells which contents can be read as a value, and
writing the value that was read gives the same contents (C31); names are numbers and name the same file always; a storage of another thread is not used.
-/

namespace Verif.StorageMove

abbrev Bytes := List UInt8

/-- The two streams (AtomicStorage.h:129-130). -/
inductive Which where
  | master
  | backup
deriving DecidableEq, Repr

/-- A storage: the number of its logger, and the handles of its streams, none: `NullHandleValue` (AtomicStorage.h:128-130, UniqueHandle.h:87). -/
structure Sto where
  logger : Nat
  h : Which → Option Nat

/-- The variables are numbers; `none` is the temporary object of `std::swap` (which moves storages by AtomicStorage.h:35-44). -/
abbrev Var := Option Nat

/-- The process: which file each descriptor has open, the files that exist, the variables (AtomicStorage.h:128-130). -/
structure St where
  fds : List (Option Nat)
  disk : Nat → Option Bytes
  vars : Var → Option Sto

/-- A message: the logger and what happened (AtomicStorage.cpp:19, 79, 84-98, OptionalStorage.cpp:22-25, 41-42). -/
inductive Msg where
  | fromBackup
  | notRead (backup : Bool)
  | notOpened
  | notSaved
deriving DecidableEq, Repr

/-- What is seen of a call: how it ends, and the messages with their loggers (AtomicStorage.h:48-81). -/
structure Seen where
  end_ : Res (Option Bytes × Bool)
  log : List (Nat × Msg) := []
deriving DecidableEq, Repr

/-- The calls (AtomicStorage.h:28-87, OptionalStorage.h:20-64); `can` tells which of the two files can be opened. -/
inductive Stmt where
  | make (v l : Nat)
  | moveNew (v u : Nat)
  | assign (v u : Nat)
  | swap (v u : Nat)
  | open_ (v f b : Nat) (can : Which → Bool)
  | close (v : Nat)
  | destroy (v : Nat)
  | save (v : Nat) (c : Bytes)
  | load (v : Nat)
  | isOpened (v : Nat)
  | isEmpty (v : Nat)

/-- A changed function (AtomicStorage.h:41-42). -/
def upd {α β : Type} [DecidableEq α] (f : α → β) (i : α) (v : β) : α → β := fun j => if j = i then v else f j

/-- open(2): the lowest descriptor that is not open (called at Platforms/Posix/Awl/Io/NativeStream.h:147). -/
def alloc : List (Option Nat) → Nat → List (Option Nat) × Nat
  | [], f => ([some f], 0)
  | none :: l, f => (some f :: l, 0)
  | some g :: l, f => let r := alloc l f; (some g :: r.1, r.2 + 1)

/-- A handle of a variable (AtomicStorage.h:129-130). -/
def St.handle (s : St) (x : Var) (w : Which) : Option Nat := (s.vars x).bind (·.h w)

/-- The handle `m_h` is set (UniqueHandle.h:50-52, 76). -/
def St.setHandle (s : St) (x : Var) (w : Which) (h : Option Nat) : St :=
  match s.vars x with
  | none => s
  | some o => { s with vars := upd s.vars x (some { o with h := upd o.h w h }) }

/-- `UniqueHandle::Close`, UniqueHandle.h:67-78 -/
def closeHandle (s : St) (x : Var) (w : Which) : Res St :=
  match s.handle x w with
  | none => .ok s
  | some d =>
    match s.fds[d]? with
    | some (some _) => .ok ({ s with fds := s.fds.set d none }.setHandle x w none)
    | _ => .ub

/-- `UniqueHandle::operator=(UniqueHandle&&)`, UniqueHandle.h:46-55 -/
def moveHandle (s : St) (x y : Var) (w : Which) : Res St := do
  let s ← closeHandle s x w
  let s := s.setHandle x w (s.handle y w)
  .ok (s.setHandle y w none)

/-- `Close`, AtomicStorage.h:83-87: assignment of empty streams -/
def close (s : St) (x : Var) : Res St := do
  let s ← closeHandle s x .master
  closeHandle s x .backup

/-- The destructor: the members in reverse order (AtomicStorage.h:129-130, UniqueHandle.h:39-42). -/
def destroy (s : St) (x : Var) : Res St := do
  let s ← closeHandle s x .backup
  let s ← closeHandle s x .master
  .ok { s with vars := upd s.vars x none }

/-- AtomicStorage.h:35, OptionalStorage.h:32, UniqueHandle.h:33-37: the logger is that of the other one. -/
def moveNew (s : St) (x y : Var) : Res St :=
  match s.vars y with
  | none => .ub
  | some o =>
    let s := { s with vars := upd s.vars x (some o) }
    .ok ((s.setHandle y .master none).setHandle y .backup none)

/-- AtomicStorage.h:39-44, OptionalStorage.h:36-40 -/
def assign (s : St) (x y : Var) : Res St := do
  let s ← moveHandle s x y .master
  moveHandle s x y .backup

/-- `std::swap` with AtomicStorage.h:35-44 -/
def swap (s : St) (x y : Var) : Res St := do
  let s ← moveNew s none x
  let s ← assign s x y
  let s ← assign s y none
  destroy s none

/-- `m_s = CreateUniqueFile(f)`: the file is made if it is not there, the new handle is assigned (AtomicStorage.h:63-67; Platforms/Posix/Awl/Io/NativeStream.h:141-155; UniqueHandle.h:46-55).
None: it cannot be opened; otherwise whether the file was there. -/
def openFile (s : St) (x : Var) (w : Which) (f : Nat) (can : Bool) : Res (St × Option Bool) :=
  if can then do
    let existed := (s.disk f).isSome
    let (fds, d) := alloc s.fds f
    let s ← closeHandle { s with fds := fds, disk := upd s.disk f (some ((s.disk f).getD [])) } x w
    .ok (s.setHandle x w (some d), some existed)
  else .ok (s, none)

/-- `AtomicStorage::Open`, AtomicStorage.h:59-77; none: an exception is thrown -/
def openBoth (s : St) (x : Var) (f b : Nat) (can : Which → Bool) : Res (St × Option Bool) := do
  let (s, m) ← openFile s x .master f (can .master)
  match m with
  | none => do
    let s ← close s x
    .ok (s, none)
  | some m => do
    let (s, k) ← openFile s x .backup b (can .backup)
    match k with
    | none => do
      let s ← close s x
      .ok (s, none)
    | some k => .ok (s, some (m || k))

/-- The file of a handle (Platforms/Posix/Awl/Io/NativeStream.h:128). -/
def St.fileOf (s : St) (x : Var) (w : Which) : Option Nat :=
  match s.handle x w with
  | none => none
  | some d => (s.fds[d]?).join

/-- The contents of an open file (read by AtomicStorage.h:91-96); none: an exception is thrown -/
def St.content (s : St) (x : Var) (w : Which) : Option Bytes := (s.fileOf x w).map fun f => (s.disk f).getD []

/-- `WriteToStream` and `ClearBackup`, AtomicStorage.h:98-111, 121-126; none: an exception is thrown -/
def St.put (s : St) (x : Var) (w : Which) (c : Bytes) : Option St := (s.fileOf x w).map fun f => { s with disk := upd s.disk f (some c) }

/-- `AtomicStorage::Save`, AtomicStorage.cpp:38-62; false: an exception is thrown -/
def save (s : St) (x : Var) (c : Bytes) : St × Bool :=
  match s.put x .backup c with
  | none => (s, false)
  | some s =>
    match s.put x .master c with
    | none => (s, false)
    | some s =>
      match s.put x .backup [] with
      | none => (s, false)
      | some s => (s, true)

/-- `AtomicStorage::Load`, AtomicStorage.cpp:13-36, 64-101; `l` is the logger -/
def load (good : Bytes → Bool) (s : St) (x : Var) (l : Nat) : St × Seen :=
  match (s.content x .backup).filter good with
  | some c =>
    match s.put x .master c with
    | none => (s, ⟨.throw .io, [(l, .fromBackup)]⟩)
    | some s =>
      match s.put x .backup [] with
      | none => (s, ⟨.throw .io, [(l, .fromBackup)]⟩)
      | some s => (s, ⟨.ok (some c, true), [(l, .fromBackup)]⟩)
  | none =>
    match s.put x .backup [] with
    | none => (s, ⟨.throw .io, [(l, .notRead true)]⟩)
    | some s =>
      match (s.content x .master).filter good with
      | some c => (s, ⟨.ok (some c, true), [(l, .notRead true)]⟩)
      | none => (s, ⟨.ok (none, false), [(l, .notRead true), (l, .notRead false)]⟩)

/-- `IsEmpty`, AtomicStorage.h:48-52 (`&&`: the length of the backup is not asked for if the master is not empty) -/
def isEmpty (s : St) (x : Var) : Seen :=
  match s.content x .master with
  | none => ⟨.throw .io, []⟩
  | some c =>
    if c.length = 0 then
      match s.content x .backup with
      | none => ⟨.throw .io, []⟩
      | some c => ⟨.ok (none, c.length == 0), []⟩
    else ⟨.ok (none, false), []⟩

/-- A call that has no answer (AtomicStorage.h:83-87). -/
def done : Seen := ⟨.ok (none, true), []⟩

/-- One call; of a variable that does not exist, or construction of one that does: undefined (AtomicStorage.h:28-87; OptionalStorage.h:20-64, OptionalStorage.cpp:12-45). -/
def exec (good : Bytes → Bool) (opt : Bool) (s : St) : Stmt → Res (St × Seen)
  | .make v l => if (s.vars (some v)).isSome then .ub else .ok ({ s with vars := upd s.vars (some v) (some ⟨l, fun _ => none⟩) }, done)
  | .moveNew v u => if (s.vars (some v)).isSome then .ub else do
      let s ← moveNew s (some v) (some u)
      .ok (s, done)
  | .assign v u => if (s.vars (some v)).isNone ∨ (s.vars (some u)).isNone then .ub else do
      let s ← assign s (some v) (some u)
      .ok (s, done)
  | .swap v u => if (s.vars (some v)).isNone ∨ (s.vars (some u)).isNone then .ub else do
      let s ← swap s (some v) (some u)
      .ok (s, done)
  | .open_ v f b can =>
    match s.vars (some v) with
    | none => .ub
    | some o => do
      let (s, r) ← openBoth s (some v) f b can
      match r with
      | some e => .ok (s, ⟨.ok (none, e), []⟩)
      | none => if opt then .ok (s, ⟨.ok (none, false), [(o.logger, .notOpened)]⟩) else .ok (s, ⟨.throw .io, []⟩)
  | .close v => if (s.vars (some v)).isNone then .ub else do
      let s ← close s (some v)
      .ok (s, done)
  | .destroy v => if (s.vars (some v)).isNone then .ub else do
      let s ← destroy s (some v)
      .ok (s, done)
  | .save v c =>
    match s.vars (some v) with
    | none => .ub
    | some o =>
      if opt ∧ s.handle (some v) .master = none then .ok (s, done)
      else
        let r := save s (some v) c
        if r.2 then .ok (r.1, done)
        else if opt then .ok (r.1, ⟨.ok (none, true), [(o.logger, .notSaved)]⟩)
        else .ok (r.1, ⟨.throw .io, []⟩)
  | .load v =>
    match s.vars (some v) with
    | none => .ub
    | some o => .ok (load good s (some v) o.logger)
  | .isOpened v => if (s.vars (some v)).isNone then .ub else .ok (s, ⟨.ok (none, (s.handle (some v) .master).isSome), []⟩)
  | .isEmpty v => if (s.vars (some v)).isNone then .ub else .ok (s, isEmpty s (some v))

/-- A program (calls of AtomicStorage.h:28-87): the process at the end and all that is seen. -/
def run (good : Bytes → Bool) (opt : Bool) : St → List Stmt → Res (St × List Seen)
  | s, [] => .ok (s, [])
  | s, p :: ps => do
    let (s, o) ← exec good opt s p
    let (s, os) ← run good opt s ps
    .ok (s, o :: os)

/-- No storage exists yet (AtomicStorage.h:28). -/
def start (disk : Nat → Option Bytes) : St := ⟨[], disk, fun _ => none⟩

end Verif.StorageMove
