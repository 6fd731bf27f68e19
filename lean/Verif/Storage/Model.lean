import Verif.Common.Res

/-!
# Crash-safe storage: `Awl/Io/AtomicStorage.h`, `Awl/Io/AtomicStorage.cpp`

A storage has two files, the master and the backup.  `Save` writes the value to the backup, then to the master and then
clears the backup; `Load` takes the backup if it can be read completely, otherwise the master.

The program is a list of primitive operations on the two files, one per byte for writes, so that every prefix of the
list is a point at which the process can stop, be it by a crash or by an `IoException`.

Not modelled: that the two files are created and their directory entries are durable (`Open`,
AtomicStorage.h:59-77), the log messages, seeking and reading positions used by `Read` (`ReadFromStream` seeks to 0
before and every later use of the file seeks to 0 again), I/O errors of read calls.
-/

namespace Verif.Storage

/-- Contents of a file (AtomicStorage.h:129-130). -/
abbrev Bytes := List UInt8

/-- A file opened by the process: `cur` is what the process sees, `pos` the position, `hist` are the contents the file
has had since the last completed `Flush` (newest first, `cur` included) (AtomicStorage.h:129-130; the history is that of `Flush`, Platforms/Posix/Awl/Io/NativeStream.h:94-97). -/
structure File where
  cur : Bytes
  pos : Nat
  hist : List Bytes
deriving DecidableEq, Repr

/-- A file just opened, all of it is on the disk (AtomicStorage.h:63, 66). -/
def File.opened (c : Bytes) : File := ⟨c, 0, [c]⟩

/-- Primitive operations (AtomicStorage.h:101-106, 123-125). -/
inductive Prim where
  | seek0
  | put (b : UInt8)
  | trunc
  | sync
deriving DecidableEq, Repr

/-- What the operations do (Platforms/Posix/Awl/Io/NativeStream.h: `Seek` 84-87, `Write` 63-77 one byte at a time,
`Flush` 94-97, `Truncate` 99-106).  The position never is behind the end of the file here; a byte written there goes to
the end. -/
def File.step (f : File) : Prim → File
  | .seek0 => { f with pos := 0 }
  | .put b =>
    let cur := f.cur.take f.pos ++ [b] ++ f.cur.drop (f.pos + 1)
    ⟨cur, f.pos + 1, cur :: f.hist⟩
  | .trunc =>
    let cur := f.cur.take f.pos
    ⟨cur, f.pos, cur :: f.hist⟩
  | .sync => { f with hist := [f.cur] }

/-- Which of the two files (AtomicStorage.h:129-130). -/
inductive Which where
  | master   -- m_s
  | backup   -- m_backup
deriving DecidableEq, Repr

/-- The two files (AtomicStorage.h:129-130). -/
structure Files where
  master : File
  backup : File
deriving DecidableEq, Repr

/-- The storage after the process opened files with given contents (AtomicStorage.h:59-77). -/
def Files.opened (master backup : Bytes) : Files := ⟨.opened master, .opened backup⟩

/-- One operation on one of the files (AtomicStorage.h:101-106, 123-125). -/
def Files.step (d : Files) : Which × Prim → Files
  | (.master, p) => { d with master := d.master.step p }
  | (.backup, p) => { d with backup := d.backup.step p }

/-- What a call does to the files one after the other (AtomicStorage.cpp:13-62). -/
abbrev Prog := List (Which × Prim)

/-- All operations of a program (AtomicStorage.cpp:13-62). -/
def exec (p : Prog) (d : Files) : Files := p.foldl Files.step d

/-- `WriteToStreamFunc` (AtomicStorage.h:98-107) with a function that writes the bytes `e`. -/
def writeToStream (f : Which) (e : Bytes) : Prog :=
  (f, .seek0) :: e.map (fun b => (f, .put b)) ++ [(f, .trunc), (f, .sync)]

/-- `ClearBackup` (AtomicStorage.h:121-126). -/
def clearBackup : Prog := [(.backup, .seek0), (.backup, .trunc), (.backup, .sync)]

/-- The argument `Serializable<>& val`: `Write` writes `enc v`; `Read` gives the value and the position of the file
after it, or throws.  Both functions are parameters, see `Format.lean` for those of the library (Awl/Io/Serializable.h; used at AtomicStorage.h:95, 111). -/
structure Format (V : Type) where
  enc : V → Bytes
  read : Bytes → Res (V × Nat)

/-- The exceptions derived from `IoException` (Awl/Io/IoException.h:17-120). -/
def isIo : Exn → Bool
  | .io | .endOfFile | .corruption | .typeMismatch | .fieldNotFound | .structNotFound => true
  | _ => false

variable {V : Type}

/-- `LoadFromFile` (AtomicStorage.cpp:64-101): the value then held by `val`, which held `old`, and the answer.  `End` of
the file is `GetPosition() == GetLength()` (Platforms/Posix/Awl/Io/NativeStream.h:79-82).  `Read` leaves `val` as it was
if it throws (C81 for version tolerant types, AtomicStorage.cpp:31). -/
def loadFromFile (fmt : Format V) (old : V) (content : Bytes) : V × Res Bool :=
  match fmt.read content with
  | .ok (v, pos) => (v, .ok (pos == content.length))
  | .throw e => (old, if isIo e then .ok false else .throw e)
  | .ub => (old, .ub)

/-- `Load` (AtomicStorage.cpp:13-36): what it does to the files, the value then held by `val`, which held `old`, and
what it answers. -/
def load (fmt : Format V) (old : V) (d : Files) : Prog × V × Res Bool :=
  match loadFromFile fmt old d.backup.cur with
  | (v, .ok true) => (writeToStream .master (fmt.enc v) ++ clearBackup, v, .ok true)
  | (v, .ok false) => (clearBackup, loadFromFile fmt v d.master.cur)
  | (v, r) => ([], v, r)

/-- `Save` (AtomicStorage.cpp:38-62).  With a mutex the bytes are those of a snapshot made under the lock, the writes
are the same. -/
def save (fmt : Format V) (v : V) : Prog :=
  writeToStream .backup (fmt.enc v) ++ writeToStream .master (fmt.enc v) ++ clearBackup

end Verif.Storage
