import Verif.Common.Res

/-!
# Opening the two files of a storage

`AtomicStorage::Open`, `IsOpened`, `IsEmpty`, `Close` (Awl/Io/AtomicStorage.h:48-87) over `CreateUniqueFile` and `OpenedExisting` (Platforms/Posix/Awl/Io/NativeStream.h:139-160,
Platforms/Windows/Awl/Io/NativeStream.h:162-195), run by threads that have a storage each, next to another process.

`Open` is a sequence of steps (access, open, reading the flag, twice), any other thread and any other process can run between two of them.

The file system is a specification (trusted): a directory maps names to files, open(2) with O_CREAT gives the file of the name or makes a new empty one, in one step, or fails (`deny`: no
permission, no such directory, too many open files); access(2) with F_OK tells whether the name is there; `CreateFile2` with OPEN_ALWAYS and share mode 0 is one step, sets the
last error of the thread to ERROR_ALREADY_EXISTS or 0 and fails if the file is open already.  Names and descriptors are numbers, a descriptor is not used twice (closing: C99).
No exceptions but `IoException`; no links; a name is not a directory.  The move assignments `m_s = …` are the constructions of C99: the new file is opened before the old descriptor is closed.
-/

namespace Verif.File.Open

/-- The file system: what the names of a directory name, the contents of the files, the number of the next new file; the names that cannot be opened
(Platforms/Posix/Awl/Io/NativeStream.h:144-147). -/
structure Disk where
  dir : Nat → Option Nat
  data : Nat → List UInt8
  next : Nat
  deny : Nat → Bool

/-- A storage: the descriptors of `m_s` and `m_backup`, none for a null handle (AtomicStorage.h:129-130). -/
structure Storage where
  master : Option Nat
  backup : Option Nat
deriving DecidableEq, Repr

/-- Where a thread is in `Open` (AtomicStorage.h:59-77), `f` and `b` are the arguments. -/
inductive Pc where
  | idle (last : Option (Res Bool))      -- not in a call; how the last call ended
  | access1 (f b : Nat)                  -- NativeStream.h:144 for the master
  | open1 (f b : Nat)                    -- :147
  | flag1 (f b : Nat)                    -- AtomicStorage.h:64
  | access2 (f b : Nat) (m : Bool)       -- NativeStream.h:144 for the backup, `m` is master_existed
  | open2 (f b : Nat) (m : Bool)         -- :147
  | flag2 (f b : Nat) (m : Bool)         -- AtomicStorage.h:67-69
deriving Repr

/-- The process: the file system, the open descriptors with their files, the next descriptor, and for each thread `openedExisting` (Platforms/Posix/Awl/Io/NativeStream.h:139, or the last error
of the thread on Windows), its storage and where it is. -/
structure St where
  disk : Disk
  fds : List (Nat × Nat)
  nextFd : Nat
  flag : Nat → Bool
  sto : Nat → Storage
  pc : Nat → Pc

/-- What can happen (AtomicStorage.h:59-87; `create` and `remove`: another process). -/
inductive Act where
  | call (t f b : Nat)                   -- thread t calls Open(f, b)
  | step (t : Nat)                       -- thread t does its next step
  | close (t : Nat)                      -- AtomicStorage.h:83-87
  | save (t : Nat) (m b : List UInt8)    -- the contents of both files change (Save, AtomicStorage.cpp:38-62)
  | create (n : Nat) (c : List UInt8)    -- another process makes a file with contents
  | remove (n : Nat)                     -- another process removes a name
deriving DecidableEq, Repr

/-- A changed variable of a thread (AtomicStorage.h:129-130). -/
def upd {β : Type} (f : Nat → β) (i : Nat) (v : β) : Nat → β := fun j => if j = i then v else f j

/-- A new file with a name and contents (made by open(2) at Platforms/Posix/Awl/Io/NativeStream.h:147). -/
def Disk.make (d : Disk) (n : Nat) (c : List UInt8) : Disk :=
  { d with dir := upd d.dir n (some d.next), data := upd d.data d.next c, next := d.next + 1 }

/-- open(2) (Platforms/Posix/Awl/Io/NativeStream.h:147) and `CreateFile2` (Platforms/Windows/Awl/Io/NativeStream.h:172-178, `win`): the file, or none. -/
def sysOpen (win : Bool) (s : St) (n : Nat) : Option (Disk × Nat) :=
  if s.disk.deny n then none
  else match s.disk.dir n with
    | some i => if win && s.fds.any (·.2 == i) then none else some (s.disk, i)
    | none => some (s.disk.make n [], s.disk.next)

/-- The destructor of a handle or `Close` (UniqueHandle.h:67-78). -/
def closeFd (fds : List (Nat × Nat)) : Option Nat → List (Nat × Nat)
  | none => fds
  | some d => fds.filter (·.1 != d)

/-- `Close` (AtomicStorage.h:83-87). -/
def closeBoth (s : St) (t : Nat) : St :=
  { s with fds := closeFd (closeFd s.fds (s.sto t).master) (s.sto t).backup, sto := upd s.sto t ⟨none, none⟩ }

/-- The `catch` of `Open` (AtomicStorage.h:71-76). -/
def failOpen (s : St) (t : Nat) : St :=
  { closeBoth s t with pc := upd s.pc t (.idle (some (.throw .io))) }

/-- `access` (Platforms/Posix/Awl/Io/NativeStream.h:144); Windows does nothing here. -/
def accessStep (win : Bool) (s : St) (t n : Nat) : St :=
  if win then s else { s with flag := upd s.flag t (s.disk.dir n).isSome }

/-- The file is open: the descriptor is given, the file system changes, and on Windows the last error tells whether the file was there (AtomicStorage.h:63, 66). -/
def opened (win : Bool) (s : St) (t n : Nat) (d : Disk) (i : Nat) : St :=
  { s with disk := d, fds := (s.nextFd, i) :: s.fds, nextFd := s.nextFd + 1, flag := if win then upd s.flag t (s.disk.dir n).isSome else s.flag }

/-- Assignment of the new handle to `m_s` (AtomicStorage.h:63). -/
def setMaster (s : St) (t fd : Nat) : St :=
  { s with fds := closeFd s.fds (s.sto t).master, sto := upd s.sto t ⟨some fd, (s.sto t).backup⟩ }

/-- Assignment of the new handle to `m_backup` (AtomicStorage.h:66). -/
def setBackup (s : St) (t fd : Nat) : St :=
  { s with fds := closeFd s.fds (s.sto t).backup, sto := upd s.sto t ⟨(s.sto t).master, some fd⟩ }

/-- The next step of the thread `t` in `Open` (AtomicStorage.h:59-77). -/
def stepOpen (win : Bool) (s : St) (t : Nat) : St :=
  match s.pc t with
  | .idle _ => s
  | .access1 f b => { accessStep win s t f with pc := upd s.pc t (.open1 f b) }
  | .open1 f b =>
    match sysOpen win s f with
    | none => failOpen s t
    | some (d, i) => { setMaster (opened win s t f d i) t s.nextFd with pc := upd s.pc t (.flag1 f b) }
  | .flag1 f b => { s with pc := upd s.pc t (.access2 f b (s.flag t)) }
  | .access2 f b m => { accessStep win s t b with pc := upd s.pc t (.open2 f b m) }
  | .open2 f b m =>
    match sysOpen win s b with
    | none => failOpen s t
    | some (d, i) => { setBackup (opened win s t b d i) t s.nextFd with pc := upd s.pc t (.flag2 f b m) }
  | .flag2 _ _ m => { s with pc := upd s.pc t (.idle (some (.ok (m || s.flag t)))) }

/-- The file of a descriptor (Platforms/Posix/Awl/Io/NativeStream.h:128). -/
def fileOf (s : St) : Option Nat → Option Nat
  | none => none
  | some d => (s.fds.find? (·.1 == d)).map (·.2)

/-- Contents written through a descriptor (Platforms/Posix/Awl/Io/NativeStream.h:63-77). -/
def writeFd (s : St) (h : Option Nat) (c : List UInt8) : St :=
  match fileOf s h with
  | none => s
  | some i => { s with disk := { s.disk with data := upd s.disk.data i c } }

/-- A thread is not in a call (AtomicStorage.h:59). -/
def Pc.isIdle : Pc → Bool
  | .idle _ => true
  | _ => false

/-- One act; a thread that is in `Open` does nothing else, another process cannot remove a file that is open on Windows (AtomicStorage.h:59-87). -/
def act (win : Bool) (s : St) : Act → St
  | .call t f b => if (s.pc t).isIdle then { s with pc := upd s.pc t (.access1 f b) } else s
  | .step t => stepOpen win s t
  | .close t => if (s.pc t).isIdle then closeBoth s t else s
  | .save t m b => if (s.pc t).isIdle then writeFd (writeFd s (s.sto t).master m) (s.sto t).backup b else s
  | .create n c => if (s.disk.dir n).isSome then s else { s with disk := s.disk.make n c }
  | .remove n =>
    match s.disk.dir n with
    | none => s
    | some i => if win && s.fds.any (·.2 == i) then s else { s with disk := { s.disk with dir := upd s.disk.dir n none } }

/-- A history (AtomicStorage.h:59-87). -/
def run (win : Bool) : St → List Act → St
  | s, [] => s
  | s, a :: l => run win (act win s a) l

/-- The process when it starts: no descriptor of the storages is open (AtomicStorage.h:28). -/
def start (d : Disk) : St := ⟨d, [], 0, fun _ => false, fun _ => ⟨none, none⟩, fun _ => .idle none⟩

/-- `IsOpened` (AtomicStorage.h:54-57). -/
def isOpened (s : St) (t : Nat) : Bool := (s.sto t).master.isSome

/-- `GetLength` of a stream, which throws without a file (Platforms/Posix/Awl/Io/NativeStream.h:36-43). -/
def length (s : St) (h : Option Nat) : Res Nat :=
  match fileOf s h with
  | none => .throw .io
  | some i => .ok (s.disk.data i).length

/-- `IsEmpty` (AtomicStorage.h:48-52); the assertion does nothing. -/
def isEmpty (s : St) (t : Nat) : Res Bool :=
  length s (s.sto t).master >>= fun n => if n = 0 then length s (s.sto t).backup >>= fun k => .ok (k == 0) else .ok false

end Verif.File.Open
