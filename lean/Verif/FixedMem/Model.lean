/-!
# Streams in a memory of a fixed size: `Tests/Experimental/Io/TrivialMemoryStream.h`, `SampleStreams.h`, `StreamUtils.h`

The memory is a list of bytes at an address; the pointer `m_p` is its distance from `pBuf`.  An access outside of the
memory, and an access of 2, 4 or 8 bytes at an address that is not a multiple of its length, is undefined behaviour.
`assert` ends the program when it is compiled in (`dbg`).
-/

namespace Verif.FixedMem

/-- What a call does: it returns, or a failed `assert` ends the program, or the behaviour is undefined (Tests/Experimental/Io/TrivialMemoryStream.h:36-51). -/
inductive Out (α : Type) where
  | ok (a : α)
  | abort
  | ub
deriving DecidableEq, Repr

/-- The calls are made one after the other (Tests/Experimental/Io/TrivialMemoryStream.h:36-51). -/
def Out.bind {α β : Type} (r : Out α) (f : α → Out β) : Out β :=
  match r with
  | .ok a => f a
  | .abort => .abort
  | .ub => .ub

/-- The members `m_size`, `pBuf` and `m_p` (Tests/Experimental/Io/TrivialMemoryStream.h:96-98, SampleStreams.h:85-87,
130-132): the address of `pBuf`, the bytes there (`m_size` of them) and `m_p - pBuf`. -/
structure Mem where
  addr : Nat
  bytes : List UInt8
  pos : Nat
deriving DecidableEq, Repr

/-- The constructors (Tests/Experimental/Io/TrivialMemoryStream.h:21-24, SampleStreams.h:25-28, 96-99): `new` and `memset`. -/
def create (addr size : Nat) : Mem := ⟨addr, List.replicate size 0, 0⟩

/-- `*out = b` (in Tests/Experimental/Io/StreamUtils.h:12-19). -/
def put (bytes : List UInt8) (i : Nat) (b : UInt8) : Out (List UInt8) :=
  if i < bytes.length then .ok (bytes.set i b) else .ub

/-- `StdCopy` into the memory (Tests/Experimental/Io/StreamUtils.h:12-19). -/
def stdCopy (bytes : List UInt8) (i : Nat) : List UInt8 → Out (List UInt8)
  | [] => .ok bytes
  | b :: bs => (put bytes i b).bind fun m => stdCopy m (i + 1) bs

/-- `std::memmove` into the memory (Tests/Experimental/Io/TrivialMemoryStream.h:45-51). -/
def memmove (bytes : List UInt8) (i : Nat) (bs : List UInt8) : Out (List UInt8) :=
  if i + bs.length ≤ bytes.length then .ok (bytes.take i ++ bs ++ bytes.drop (i + bs.length)) else .ub

/-- `PlainCopy` (Tests/Experimental/Io/StreamUtils.h:21-28) for a type with the length of `bs`, from the address `src`:
one load and one store of the whole value. -/
def plainCopy (m : Mem) (src : Nat) (bs : List UInt8) : Out (List UInt8) :=
  if (m.addr + m.pos) % bs.length = 0 ∧ src % bs.length = 0 then memmove m.bytes m.pos bs else .ub

/-- The three output streams (Tests/Experimental/Io/TrivialMemoryStream.h, Tests/Experimental/Io/SampleStreams.h:38-63, 101-107). -/
inductive Kind where
  | trivial   -- TrivialMemoryStream
  | switched  -- SwitchMemoryOutputStream
  | virt      -- VirtualMemoryOutputStream
deriving DecidableEq, Repr

/-- `Write(buffer, count)`, the buffer is at the address `src`
(Tests/Experimental/Io/TrivialMemoryStream.h:45-51, SampleStreams.h:38-63, 101-107). -/
def write (k : Kind) (dbg : Bool) (m : Mem) (src : Nat) (bs : List UInt8) : Out Mem :=
  match k with
  | .trivial =>
    if dbg ∧ ¬ m.pos + bs.length ≤ m.bytes.length then .abort
    else (stdCopy m.bytes m.pos bs).bind fun b => .ok ⟨m.addr, b, m.pos + bs.length⟩
  | .switched =>
    (if bs.length = 1 ∨ bs.length = 2 ∨ bs.length = 4 ∨ bs.length = 8 then plainCopy m src bs
      else stdCopy m.bytes m.pos bs).bind fun b => .ok ⟨m.addr, b, m.pos + bs.length⟩
  | .virt =>
    if dbg ∧ ¬ m.pos + bs.length ≤ m.bytes.length then .abort
    else (memmove m.bytes m.pos bs).bind fun b => .ok ⟨m.addr, b, m.pos + bs.length⟩

/-- `Write(TrivialMemoryStream &, T)` for a number with the bytes `bs`
(Tests/Experimental/Io/TrivialMemoryStream.h:101-108): one store of the whole value. -/
def putNumber (dbg : Bool) (m : Mem) (bs : List UInt8) : Out Mem :=
  if dbg ∧ ¬ m.pos + bs.length ≤ m.bytes.length then .abort
  else if (m.addr + m.pos) % bs.length = 0 then
    (memmove m.bytes m.pos bs).bind fun b => .ok ⟨m.addr, b, m.pos + bs.length⟩
  else .ub

/-- `TrivialMemoryStream::Read(buffer, count)` (Tests/Experimental/Io/TrivialMemoryStream.h:36-43); the bytes that are
stored into the buffer and the stream afterwards. -/
def read (m : Mem) (count : Nat) : Mem × List UInt8 :=
  let n := min count (m.bytes.length - m.pos)
  (⟨m.addr, m.bytes, m.pos + n⟩, (m.bytes.drop m.pos).take n)

/-- `Read(TrivialMemoryStream &, T &)` for a number of `n` bytes
(Tests/Experimental/Io/TrivialMemoryStream.h:110-117): one load of the whole value. -/
def getNumber (dbg : Bool) (m : Mem) (n : Nat) : Out (Mem × List UInt8) :=
  if dbg ∧ ¬ m.pos + n ≤ m.bytes.length then .abort
  else if (m.addr + m.pos) % n = 0 ∧ m.pos + n ≤ m.bytes.length then
    .ok (⟨m.addr, m.bytes, m.pos + n⟩, (m.bytes.drop m.pos).take n)
  else .ub

/-- `Reset` (Tests/Experimental/Io/TrivialMemoryStream.h:64-67, SampleStreams.h:75-78, 120-123). -/
def reset (m : Mem) : Mem := ⟨m.addr, m.bytes, 0⟩

/-- `End` (Tests/Experimental/Io/TrivialMemoryStream.h:31-34). -/
def atEnd (m : Mem) : Bool := m.pos == m.bytes.length

/-- The calls of a `TrivialMemoryStream` (Tests/Experimental/Io/TrivialMemoryStream.h:36-51, 64-67, 101-117). -/
inductive Cmd where
  | write (src : Nat) (bs : List UInt8)
  | putNumber (bs : List UInt8)
  | read (count : Nat)
  | getNumber (n : Nat)
  | reset
deriving DecidableEq, Repr

/-- One call (Tests/Experimental/Io/TrivialMemoryStream.h:36-51, 64-67, 101-117); the bytes that it gives to the caller. -/
def step (dbg : Bool) (m : Mem) : Cmd → Out (Mem × List UInt8)
  | .write src bs => (write .trivial dbg m src bs).bind fun m' => .ok (m', [])
  | .putNumber bs => (putNumber dbg m bs).bind fun m' => .ok (m', [])
  | .read n => .ok (read m n)
  | .getNumber n => getNumber dbg m n
  | .reset => .ok (reset m, [])

/-- A program (Tests/Experimental/Io/TrivialMemoryStream.h:13-98): the stream afterwards and what each call gave. -/
def run (dbg : Bool) (m : Mem) : List Cmd → Out (Mem × List (List UInt8))
  | [] => .ok (m, [])
  | c :: cs => (step dbg m c).bind fun r => (run dbg r.1 cs).bind fun q => .ok (q.1, r.2 :: q.2)

/-- Writing the pieces, each from its address (Tests/Experimental/Io/TrivialMemoryStream.h:45-51, Tests/Experimental/Io/SampleStreams.h:38-63, 101-107). -/
def writeAll (k : Kind) (dbg : Bool) (m : Mem) : List (Nat × List UInt8) → Out Mem
  | [] => .ok m
  | c :: cs => (write k dbg m c.1 c.2).bind fun m' => writeAll k dbg m' cs

/-- `VirtualMeasureStream` and `InlineMeasureStream` (Tests/Experimental/Io/SampleStreams.h:137-158, 162-183): `size_t`
addition. -/
def measure (pos : UInt64) : List (Nat × List UInt8) → UInt64
  | [] => pos
  | c :: cs => measure (pos + UInt64.ofNat c.2.length) cs

/-- `delete[] pBuf` (Tests/Experimental/Io/TrivialMemoryStream.h:26-29, SampleStreams.h:30-33) in a heap that is the
list of the blocks that are in use. -/
def destroy (heap : List Nat) (pBuf : Nat) : Out (List Nat) :=
  if pBuf ∈ heap then .ok (heap.erase pBuf) else .ub

/-- The destructors of several streams (Tests/Experimental/Io/TrivialMemoryStream.h:26-29). -/
def destroyAll (heap : List Nat) : List Nat → Out (List Nat)
  | [] => .ok heap
  | p :: ps => (destroy heap p).bind fun h => destroyAll h ps

/-- `n` streams: one and its copies.  There is no copy constructor in the class, the implicit one copies the members,
and with them `pBuf` (Tests/Experimental/Io/TrivialMemoryStream.h:96-98). -/
def copies (pBuf n : Nat) : List Nat := List.replicate n pBuf

end Verif.FixedMem
