import Verif.File.Model

/-!
# File streams of the Windows platform

`Platforms/Windows/Awl/Io/NativeStream.h` (`WinStream`) over an open file, or over no file (`INVALID_HANDLE_VALUE`, a stream constructed by default or
moved from).  Line numbers without a file are those of Platforms/Windows/Awl/Io/NativeStream.h.

The calls of the system are specifications (trusted, from the documentation of Win32): `ReadFile` gives as many bytes as there are, up to the number asked
for; `WriteFile` writes all bytes, or, if the disk has no room for them, some of them, and either fails or tells how many; `SetFilePointerEx` gives TRUE or
FALSE, and FALSE for a negative position; every call fails for an invalid handle.  `assert` does nothing (release build).  `size_t` and `LONGLONG` have 64 bits,
`DWORD` has 32.
-/

namespace Verif.File.Win

/-- What `m_hFile` (Platforms/Windows/Awl/Io/NativeStream.h:155) names: an open file or none. -/
abbrev Hnd := Option File

/-- How the disk answers a write it has no room for: the bytes it took anyway, and whether `WriteFile` gives TRUE then (called at Platforms/Windows/Awl/Io/NativeStream.h:65). -/
structure Full where
  took : Nat
  ret : Bool
deriving DecidableEq, Repr

/-- `static_cast<DWORD>(size_t)` (Platforms/Windows/Awl/Io/NativeStream.h:50, 61). -/
def toDword (n : Nat) : Nat := n % 2 ^ 32

/-- `WriteFile` (called at Platforms/Windows/Awl/Io/NativeStream.h:65) of the first `n` bytes of the buffer: none for FALSE, else the number of bytes written.  `room`: how long the file can be. -/
def writeFile (room : Nat) (full : Full) (h : Hnd) (b : List UInt8) (n : Nat) : Hnd × Option Nat :=
  match h with
  | none => (none, none)
  | some f =>
    let k := if n = 0 ∨ f.pos + n ≤ room then n else min full.took (n - 1)
    let f' : File := if k = 0 then f else ⟨resize f.data f.pos ++ b.take k ++ f.data.drop (f.pos + k), f.pos + k⟩
    (some f', if k = n ∨ full.ret then some k else none)

/-- `ReadFile` (called at Platforms/Windows/Awl/Io/NativeStream.h:54): none for FALSE. -/
def readFile (h : Hnd) (n : Nat) : Hnd × Option (List UInt8) :=
  match h with
  | none => (none, none)
  | some f => (some ⟨f.data, f.pos + ((f.data.drop f.pos).take n).length⟩, some ((f.data.drop f.pos).take n))

/-- From where `SetFilePointerEx` counts (Platforms/Windows/Awl/Io/NativeStream.h:88, 97, 150). -/
inductive From where
  | fileBegin
  | fileCurrent
  | fileEnd
deriving DecidableEq, Repr

/-- Where the positions of `SetFilePointerEx` are counted from (Platforms/Windows/Awl/Io/NativeStream.h:88, 97, 150). -/
def base (f : File) : From → Nat
  | .fileBegin => 0
  | .fileCurrent => f.pos
  | .fileEnd => f.data.length

/-- `SetFilePointerEx` (called at Platforms/Windows/Awl/Io/NativeStream.h:88, 97, 150): the file, the BOOL, which is 1 for TRUE and 0 for FALSE, and what is stored at `lpNewFilePointer`, nothing if it fails. -/
def setFilePointerEx (h : Hnd) (off : Int) (w : From) : Hnd × Nat × Option Nat :=
  match h with
  | none => (none, 0, none)
  | some f =>
    if (base f w : Int) + off < 0 then (some f, 0, none)
    else (some ⟨f.data, ((base f w : Int) + off).toNat⟩, 1, some ((base f w : Int) + off).toNat)

/-- `INVALID_SET_FILE_POINTER`, `(DWORD)-1` (Platforms/Windows/Awl/Io/NativeStream.h:88, 97, 150). -/
def invalidSetFilePointer : Nat := 2 ^ 32 - 1

/-- `Check` (Platforms/Windows/Awl/Io/NativeStream.h:126-132). -/
def check (success : Bool) : Res Unit := if success then .ok () else .throw .io

/-- `GetFileSizeHelper` (Platforms/Windows/Awl/Io/NativeStream.h:134-143) and `GetLength` (:38-41). -/
def getLength : Hnd → Res Nat
  | none => .throw .io
  | some f => .ok f.data.length

/-- `GetFilePointerHelper` (Platforms/Windows/Awl/Io/NativeStream.h:145-153) and `GetPosition` (:43-46); `liNew` is 0 before the call. -/
def getPosition (h : Hnd) : Res Nat :=
  let r := setFilePointerEx h 0 .fileCurrent
  check (r.2.1 != invalidSetFilePointer) >>= fun _ => .ok (r.2.2.getD 0)

/-- `Read` (Platforms/Windows/Awl/Io/NativeStream.h:48-57). -/
def read (h : Hnd) (count : Nat) : Hnd × Res (List UInt8) :=
  match readFile h (toDword count) with
  | (h, none) => (h, .throw .io)
  | (h, some b) => (h, .ok b)

/-- `Write` (Platforms/Windows/Awl/Io/NativeStream.h:59-75): what it does to the file and how it ends. -/
def write (room : Nat) (full : Full) (h : Hnd) (b : List UInt8) : Hnd × Res Unit :=
  match writeFile room full h b (toDword b.length) with
  | (h, none) => (h, .throw .io)
  | (h, some k) => (h, if toDword b.length ≠ k then .throw .io else .ok ())

/-- `End` (Platforms/Windows/Awl/Io/NativeStream.h:77-80). -/
def atEnd (h : Hnd) : Res Bool :=
  getLength h >>= fun n => getPosition h >>= fun p => .ok (n == p)

/-- `Seek` (Platforms/Windows/Awl/Io/NativeStream.h:82-89). -/
def seek (h : Hnd) (pos : Nat) (begin : Bool) : Hnd × Res Unit :=
  let r := setFilePointerEx h (toOff pos) (if begin then .fileBegin else .fileEnd)
  (r.1, check (r.2.1 != invalidSetFilePointer))

/-- `Move` (Platforms/Windows/Awl/Io/NativeStream.h:91-98). -/
def move (h : Hnd) (off : Int) : Hnd × Res Unit :=
  let r := setFilePointerEx h off .fileCurrent
  (r.1, check (r.2.1 != invalidSetFilePointer))

/-- `Flush` (Platforms/Windows/Awl/Io/NativeStream.h:100-103); the contents and the position stay. -/
def flush (h : Hnd) : Hnd × Res Unit := (h, check h.isSome)

/-- `Truncate` (Platforms/Windows/Awl/Io/NativeStream.h:105-108): `SetEndOfFile` makes the position the end of the file.  The bytes between the old and the new end are taken as zeros, which is what NTFS
gives; the documentation leaves them open. -/
def truncate : Hnd → Hnd × Res Unit
  | none => (none, .throw .io)
  | some f => (some ⟨resize f.data f.pos, f.pos⟩, .ok ())

/-- `MAX_PATH` (Platforms/Windows/Awl/Io/NativeStream.h:112). -/
def maxPath : Nat := 260

/-- `GetFileName` (Platforms/Windows/Awl/Io/NativeStream.h:110-122): the path of the file, none for "<Too long path>".  `GetFinalPathNameByHandle` stores the path and gives its length if it fits together with the zero at
its end, otherwise it gives the size the buffer should have; it gives 0 and stores nothing if the handle is invalid, the array on the stack is not initialised then. -/
def getFileName (h : Hnd) (path : List UInt16) : Res (Option (List UInt16)) :=
  match h with
  | none => .ub
  | some _ =>
    let len := if path.length + 1 ≤ maxPath then path.length else path.length + 1
    if len > maxPath then .ok none else .ok (some path)

end Verif.File.Win
