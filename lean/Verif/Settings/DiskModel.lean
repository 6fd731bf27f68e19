import Verif.Settings.Model

/-!
# Persistent objects and the names of their files: `Awl/Io/PersistentObject.h` over a directory

C101 is about the objects and C43 to C45 about the two files of one storage.  Here any number of objects, with either storage, open, load, save, close and remove settings by name in one
directory, and the file system may fail at any place: opening, each primitive operation of a write (`fail`, as in C100), reading (`RF`) and removing.  The exception of a call is caught by the
program, which goes on.

The file system is a specification (trusted): names are entries of one directory, open(2) with O_CREAT gives the file of the name or makes an empty one
(Platforms/Posix/Awl/Io/NativeStream.h:141-154), `std::filesystem::remove` removes the name, the file stays for those that have it open (POSIX), and returns without an exception if
the name is missing.  Calls do not overlap (C138 is about those that do).  Contents of files are as in `Storage.Model`; the position of a file is not shared between the descriptors, but every use
of a file begins with `Seek(0)`.  Objects are not moved (C101).
-/

namespace Verif.Settings.Disk

open Storage

variable {V : Type}

/-- `awl::String` as a file name (PersistentObject.h:96). -/
abbrev Name := List Char

/-- The name of the master file (PersistentObject.h:98). -/
def masterName (n : Name) : Name := n ++ ['.', 'd', 'a', 't']

/-- The name of the backup file (PersistentObject.h:99). -/
def backupName (n : Name) : Name := n ++ ['.', 'b', 'a', 'k']

/-- A changed variable (PersistentObject.h:104-108). -/
def upd {α β : Type} [DecidableEq α] (f : α → β) (a : α) (b : β) : α → β := fun x => if x = a then b else f x

/-- A `PersistentObject` (PersistentObject.h:104-108): the value, the two open files, none if the storage is closed (AtomicStorage.h:129-130), and whether the storage is an
`OptionalStorage` (PersistentObject.h:111-112). -/
structure Obj (V : Type) where
  val : V
  fds : Option (Nat × Nat)
  opt : Bool

/-- The directory, the files, the number of the next new file, the objects by address (PersistentObject.h:14-109). -/
structure Sys (V : Type) where
  dir : Name → Option Nat
  node : Nat → File
  next : Nat
  obj : Nat → Option (Obj V)

/-- No files, no objects (before PersistentObject.h:18). -/
def init : Sys V := ⟨fun _ => none, fun _ => .opened [], 0, fun _ => none⟩

/-- How reading a file goes: well, or it throws `PosixException` before the value is taken over, or after that, in `End` (AtomicStorage.cpp:70-72; Platforms/Posix/Awl/Io/NativeStream.h:54-61, 79-82). -/
inductive RF where
  | ok
  | early
  | late
deriving DecidableEq, Repr

/-- The calls (PersistentObject.h:18-67). -/
inductive Act (V : Type) where
  | make (a : Nat) (opt : Bool) (v : V)                            -- :18-23
  | destroy (a : Nat)
  | set (a : Nat) (v : V)                                          -- value() = v, :64-67
  | open (a : Nat) (n : Name) (fm fb : Bool)                       -- :25-30; the master, the backup cannot be opened
  | load (a : Nat) (rb rm : RF) (fail : Option Nat)                -- :32-35; reading the backup, the master; the operation that fails
  | save (a : Nat) (fail : Option Nat)                             -- :37-40
  | close (a : Nat)                                                -- :42-45
  | remove (a : Nat) (n : Name) (fm fb : Bool)                     -- :47-57; the master, the backup cannot be removed

/-- `CreateUniqueFile` and `OpenedExisting` (Platforms/Posix/Awl/Io/NativeStream.h:141-159): the file and whether it was there, or none if it cannot be opened. -/
def openFile (fail : Bool) (s : Sys V) (n : Name) : Option (Sys V × Nat × Bool) :=
  if fail then none
  else match s.dir n with
    | some i => some (s, i, true)
    | none => some ({ s with dir := upd s.dir n (some s.next), node := upd s.node s.next (.opened []), next := s.next + 1 }, s.next, false)

/-- `AtomicStorage::Open` (AtomicStorage.h:59-77) with the names of PersistentObject.h:27-29: the descriptors then held by the storage and the answer. -/
def openBoth (s : Sys V) (n : Name) (fm fb : Bool) : Sys V × Option (Nat × Nat) × Res Bool :=
  match openFile fm s (masterName n) with
  | none => (s, none, .throw .io)
  | some (s, i, x) =>
    match openFile fb s (backupName n) with
    | none => (s, none, .throw .io)
    | some (s, j, y) => (s, some (i, j), .ok (x || y))

/-- `LoadFromFile` (AtomicStorage.cpp:64-101). -/
def readF (fmt : Format V) (rf : RF) (old : V) (c : Bytes) : V × Res Bool :=
  match rf with
  | .ok => loadFromFile fmt old c
  | .early => (old, .ok false)
  | .late => match loadFromFile fmt old c with
    | (v, .ok _) => (v, .ok false)
    | r => r

/-- `AtomicStorage::Load` of an open storage (AtomicStorage.cpp:13-36). -/
def loadD (fmt : Format V) (rb rm : RF) (fail : Option Nat) (old : V) (f : Files) : Files × V × Res Bool :=
  match readF fmt rb old f.backup.cur with
  | (v, .ok success) =>
    match runProg fail (if success then writeToStream .master (fmt.enc v) ++ clearBackup else clearBackup) f with
    | (f, .ok ()) => if success then (f, v, .ok true) else (f, readF fmt rm v f.master.cur)
    | (f, .throw e) => (f, v, .throw e)
    | (f, .ub) => (f, v, .ub)
  | (v, .throw e) => (f, v, .throw e)
  | (v, .ub) => (f, v, .ub)

/-- The files of an open storage (AtomicStorage.h:129-130). -/
def getFiles (s : Sys V) (i j : Nat) : Files := ⟨s.node i, s.node j⟩

/-- The files of an open storage after a call (AtomicStorage.h:129-130). -/
def putFiles (s : Sys V) (i j : Nat) (f : Files) : Sys V := { s with node := upd (upd s.node i f.master) j f.backup }

/-- An object after a call (PersistentObject.h:14-109). -/
def putObj (s : Sys V) (a : Nat) (o : Option (Obj V)) : Sys V := { s with obj := upd s.obj a o }

/-- What `OptionalStorage` makes of an `IoException` (OptionalStorage.cpp:20-26, 39-43). -/
def swallow {α : Type} (opt : Bool) (x : α) : Res α → Res α
  | .throw e => if opt && isIo e then .ok x else .throw e
  | r => r

/-- The names are removed, one after the other (PersistentObject.h:55-56); `filesystem_error` is not an `IoException`. -/
def removeBoth (s : Sys V) (n : Name) (fm fb : Bool) : Sys V × Res (Option Bool) :=
  if fm then (s, .throw .general)
  else
    let s := { s with dir := upd s.dir (masterName n) none }
    if fb then (s, .throw .general) else ({ s with dir := upd s.dir (backupName n) none }, .ok none)

/-- One call: the state after it and how it ended (PersistentObject.h:18-67).  A call for an object that does not exist, and making one where there is one, is undefined. -/
def step (fmt : Format V) (s : Sys V) : Act V → Sys V × Res (Option Bool)
  | .make a opt v => match s.obj a with
    | none => (putObj s a (some ⟨v, none, opt⟩), .ok none)
    | some _ => (s, .ub)
  | .destroy a => match s.obj a with
    | some _ => (putObj s a none, .ok none)
    | none => (s, .ub)
  | .set a v => match s.obj a with
    | some o => (putObj s a (some { o with val := v }), .ok none)
    | none => (s, .ub)
  | .open a n fm fb => match s.obj a with
    | some o =>
      match openBoth s n fm fb with
      | (s, fds, r) => (putObj s a (some { o with fds := fds }), swallow o.opt false r >>= fun x => .ok (some x))
    | none => (s, .ub)
  | .load a rb rm fail => match s.obj a with
    | some o =>
      match o.fds with
      | none => (s, .throw .io)
      | some (i, j) =>
        match loadD fmt rb rm fail o.val (getFiles s i j) with
        | (f, v, r) => (putObj (putFiles s i j f) a (some { o with val := v }), r >>= fun x => .ok (some x))
    | none => (s, .ub)
  | .save a fail => match s.obj a with
    | some o =>
      match o.fds with
      | none => (s, if o.opt then .ok none else .throw .io)
      | some (i, j) =>
        match runProg fail (save fmt o.val) (getFiles s i j) with
        | (f, r) => (putFiles s i j f, swallow o.opt () r >>= fun _ => .ok none)
    | none => (s, .ub)
  | .close a => match s.obj a with
    | some o => (putObj s a (some { o with fds := none }), .ok none)
    | none => (s, .ub)
  | .remove a n fm fb => match s.obj a with
    | some o => removeBoth (putObj s a (some { o with fds := none })) n fm fb
    | none => (s, .ub)

/-- A history of calls, whose exceptions are caught (PersistentObject.h:18-67). -/
def run (fmt : Format V) : Sys V → List (Act V) → Res (Sys V)
  | s, [] => .ok s
  | s, a :: l => match step fmt s a with
    | (_, .ub) => .ub
    | (s, _) => run fmt s l

end Verif.Settings.Disk
