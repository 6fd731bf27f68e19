import Verif.Common.Res

/-!
# File streams and file handles of the POSIX platform

`Platforms/Posix/Awl/Io/NativeStream.h` (`PosixStream`) over an open regular file, and `UniqueHandle.h`.

The kernel calls are specifications (trusted): `read` and `write` transfer at most `lim` bytes per call (Linux: 2147479552, read(2), write(2)), the
file cannot grow beyond `room` bytes, a write that can store nothing fails with ENOSPC; `lseek` fails for a negative position; `ftruncate` cuts or
fills with zeros.  No signals, no other process, no I/O errors of the device.  `off_t` and `size_t` have 64 bits.
-/

namespace Verif.File

/-- An open file: contents and position (what `m_hFile` of Platforms/Posix/Awl/Io/NativeStream.h names). -/
structure File where
  data : List UInt8
  pos : Nat
deriving DecidableEq, Repr

/-- Contents of length `n`: cut, or filled with zeros (`ftruncate` of Platforms/Posix/Awl/Io/NativeStream.h:105). -/
def resize (d : List UInt8) (n : Nat) : List UInt8 := d.take n ++ List.replicate (n - d.length) 0

/-- write(2): the number of bytes written, or none for -1; a write of no bytes does nothing (called at Platforms/Posix/Awl/Io/NativeStream.h:65). -/
def sysWrite (lim room : Nat) (f : File) (b : List UInt8) : File × Option Nat :=
  let n := min (min b.length lim) (room - f.pos)
  if n = 0 then (f, if b.length = 0 then some 0 else none)
  else (⟨resize f.data f.pos ++ b.take n ++ f.data.drop (f.pos + n), f.pos + n⟩, some n)

/-- read(2) (called at Platforms/Posix/Awl/Io/NativeStream.h:56). -/
def sysRead (lim : Nat) (f : File) (count : Nat) : File × List UInt8 :=
  let b := (f.data.drop f.pos).take (min count lim)
  (⟨f.data, f.pos + b.length⟩, b)

/-- lseek(2) to `base + off`, none for -1 (called at Platforms/Posix/Awl/Io/NativeStream.h:47, 86, 91, 101). -/
def sysSeek (f : File) (base : Nat) (off : Int) : Option File :=
  if (base : Int) + off < 0 then none else some ⟨f.data, ((base : Int) + off).toNat⟩

/-- `static_cast<off_t>(size_t)` (Platforms/Posix/Awl/Io/NativeStream.h:86). -/
def toOff (n : Nat) : Int := if n % 2 ^ 64 < 2 ^ 63 then (n % 2 ^ 64 : Nat) else (n % 2 ^ 64 : Nat) - 2 ^ 64

/-- NativeStream.h:36-43. -/
def getLength (f : File) : Nat := f.data.length

/-- NativeStream.h:45-52. -/
def getPosition (f : File) : Nat := f.pos

/-- NativeStream.h:54-61. -/
def read (lim : Nat) (f : File) (count : Nat) : File × List UInt8 := sysRead lim f count

/-- NativeStream.h:63-77: throws if not all was written.  The file and the outcome. -/
def write (lim room : Nat) (f : File) (b : List UInt8) : File × Res Unit :=
  match sysWrite lim room f b with
  | (f, none) => (f, .throw .io)
  | (f, some n) => if n ≠ b.length then (f, .throw .io) else (f, .ok ())

/-- NativeStream.h:79-82. -/
def atEnd (f : File) : Bool := getPosition f == getLength f

/-- NativeStream.h:84-87. -/
def seek (f : File) (pos : Nat) (begin : Bool) : File × Res Unit :=
  match sysSeek f (if begin then 0 else f.data.length) (toOff pos) with
  | some f' => (f', .ok ())
  | none => (f, .throw .io)

/-- NativeStream.h:89-92. -/
def move (f : File) (off : Int) : File × Res Unit :=
  match sysSeek f f.pos off with
  | some f' => (f', .ok ())
  | none => (f, .throw .io)

/-- NativeStream.h:99-106. -/
def truncate (f : File) : File := ⟨resize f.data f.pos, f.pos⟩

/-! ## Handles -/

/-- `open`: the descriptors open in the process; `vars v`: none if the object does not exist, else its `m_h` (none: NullHandleValue); `closed`: the
descriptors closed by handles, last first.  `bad`: close(2) of a descriptor that is not open (or, worse, of one that belongs to somebody else) (UniqueHandle.h:14-26, 87). -/
structure HState where
  opened : List Nat
  vars : Nat → Option (Option Nat)
  closed : List Nat
  bad : Bool

/-- No handle object of UniqueHandle.h exists. -/
def hinit : HState := ⟨[], fun _ => none, [], false⟩

/-- A changed `m_h` (UniqueHandle.h:87). -/
def upd {β : Type} (f : Nat → β) (i : Nat) (v : β) : Nat → β := fun j => if j = i then v else f j

/-- What a program does with handles; `open`: the constructor from a new descriptor, UniqueHandle.h:23-26. -/
inductive HAct where
  | open (v fd : Nat)     -- UniqueHandle v{ ::open(…) }, which gave fd
  | empty (v : Nat)       -- UniqueHandle.h:18-21
  | moveTo (v w : Nat)    -- :30-34  v constructed from w
  | assign (v w : Nat)    -- :43-52  v = std::move(w)
  | close (v : Nat)       -- :67-78
  | destroy (v : Nat)     -- :36-39

/-- `Close()`, UniqueHandle.h:67-78, of the object `v` with the handle `h`. -/
def close (s : HState) (v : Nat) : Option Nat → HState
  | none => s
  | some fd =>
    { s with opened := s.opened.erase fd, vars := upd s.vars v (some none), closed := fd :: s.closed, bad := s.bad || !s.opened.contains fd }

/-- One act, the lines of UniqueHandle.h are at `HAct`. -/
def hstep (s : HState) : HAct → Res HState
  | .open v fd =>
    match s.vars v with
    | none => if fd ∈ s.opened then .throw .logic else .ok { s with opened := fd :: s.opened, vars := upd s.vars v (some (some fd)) }
    | some _ => .throw .logic
  | .empty v =>
    match s.vars v with
    | none => .ok { s with vars := upd s.vars v (some none) }
    | some _ => .throw .logic
  | .moveTo v w =>
    match s.vars v, s.vars w with
    | none, some h => .ok { s with vars := upd (upd s.vars v (some h)) w (some none) }
    | _, _ => .throw .logic
  | .assign v w =>
    match s.vars v, s.vars w with
    | some h, some _ =>
      let s := close s v h
      match s.vars w with
      | some k => .ok { s with vars := upd (upd s.vars v (some k)) w (some none) }
      | none => .throw .logic
    | _, _ => .throw .logic
  | .close v =>
    match s.vars v with
    | some h => .ok (close s v h)
    | none => .throw .logic
  | .destroy v =>
    match s.vars v with
    | some h => let s := close s v h; .ok { s with vars := upd s.vars v none }
    | none => .throw .logic

/-- A history of acts (UniqueHandle.h:14-88). -/
def hrun : HState → List HAct → Res HState
  | s, [] => .ok s
  | s, a :: l => hstep s a >>= fun s => hrun s l

end Verif.File
