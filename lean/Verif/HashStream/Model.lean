import Verif.Common.Res

/-!
# Byte streams: `Awl/Io/HashStream.h`, `BufferedStream.h`, `VectorStream.h`, `MeasureStream.h`

`HashOutputStream` cuts what is written into blocks and puts the hash of the payload behind each of them,
`HashInputStream` checks and removes the hashes.  `BufferedInputStream` and `BufferedOutputStream` are the same classes
with a hash of zero bytes.

A call returns the new state of the object together with the outcome, because the object survives an exception.
Iterators are offsets; an iterator that the standard declares invalid is `none` and using it is undefined behaviour.
-/

namespace Verif.HashStream

/-- The bytes of a buffer (`uint8_t *`, Awl/Io/HashStream.h:41, 179). -/
abbrev Bytes := List UInt8

/-- Template argument `Hash` with the object `m_hash` and the constructor argument `block_size`
(Awl/Io/HashStream.h:27,162; Awl/Crypto/BasicHash.h:22-38).  The result of a hash is a `std::array` of `Hash::size()`
bytes. -/
structure Cfg where
  blockSize : Nat
  size : Nat
  hash : Bytes → Bytes
  hash_length : ∀ x, (hash x).length = size

/-- `assert(blockSize > Hash::size())` of both constructors (Awl/Io/HashStream.h:29,165). -/
def Cfg.Good (c : Cfg) : Prop := c.size < c.blockSize

/-- `FakeHash` (Awl/Crypto/BasicHash.h:40-52), with which `BufferedInputStream` and `BufferedOutputStream` are
instantiated (Awl/Io/BufferedStream.h:15-16). -/
def fakeHash (blockSize : Nat) : Cfg := ⟨blockSize, 0, fun _ => [], fun _ => rfl⟩

/-! ## Underlying streams -/

/-- An input stream over a byte sequence.  `lims` bounds the lengths of the next reads (a pipe or a terminal gives
fewer bytes than asked for); when it is used up, `Read` returns all that is asked for as long as there is so much (`m_in`, Awl/Io/HashStream.h:121; Awl/Io/SequentialStream.h). -/
structure Src where
  data : Bytes
  lims : List Nat
deriving DecidableEq, Repr

/-- `Read` of the underlying stream.  With `lims = []` this is `VectorInputStream::Read`
(Awl/Io/VectorStream.h:33-64: `min(available, count)`), see `vectorRead`. -/
def Src.read (s : Src) (n : Nat) : Bytes × Src :=
  match s.lims with
  | [] => (s.data.take n, ⟨s.data.drop n, []⟩)
  | l :: ls => (s.data.take (min l n), ⟨s.data.drop (min l n), ls⟩)

/-- `VectorInputStream` (Awl/Io/VectorStream.h:20-71): a vector and an iterator into it. -/
structure VecIn where
  v : Bytes
  i : Nat
deriving DecidableEq, Repr

/-- `VectorInputStream::End` (Awl/Io/VectorStream.h:28-31). -/
def VecIn.atEnd (s : VecIn) : Bool := s.i == s.v.length

/-- `VectorInputStream::Read` (Awl/Io/VectorStream.h:33-64).  `memcpy` from `data() + pos`. -/
def VecIn.read (s : VecIn) (count : Nat) : VecIn × Res Bytes :=
  if s.i ≤ s.v.length then
    let available := s.v.length - s.i
    let read_count := min available count
    ({ s with i := s.i + read_count },
      .ok (if read_count ≠ 0 then (s.v.drop s.i).take read_count else []))
  else (s, .ub)

/-- `VectorOutputStream::Write` (Awl/Io/VectorStream.h:81-84). -/
def vectorWrite (v : Bytes) (buffer : Bytes) : Bytes := v ++ buffer

/-- `MeasureStream::Write` (Awl/Io/MeasureStream.h:18-22), `size_t` addition. -/
def measureWrite (pos : Nat) (buffer : Bytes) : Nat := (pos + buffer.length) % 2 ^ 64

/-- An output stream that accepts `room` more bytes (`none`: any number).  A `Write` that does not fit stores what
fits and throws (`m_out`, Awl/Io/HashStream.h:199; Awl/Io/SequentialStream.h). -/
structure Sink where
  data : Bytes
  room : Option Nat
deriving DecidableEq, Repr

/-- `Write` of the underlying stream (as called at Awl/Io/HashStream.h:191). -/
def Sink.write (s : Sink) (b : Bytes) : Sink × Res Unit :=
  match s.room with
  | none => (⟨s.data ++ b, none⟩, .ok ())
  | some r =>
    if b.length ≤ r then (⟨s.data ++ b, some (r - b.length)⟩, .ok ())
    else (⟨s.data ++ b.take r, some 0⟩, .throw .io)

/-! ## The input stream -/

/-- `HashInputStream` (Awl/Io/HashStream.h:119-127): `m_in`, `m_block` and `m_i`. -/
structure In where
  src : Src
  block : Bytes
  it : Option Nat
deriving DecidableEq, Repr

/-- Constructor (Awl/Io/HashStream.h:27): `m_i` is the end of the empty `m_block`. -/
def In.init (src : Src) : In := ⟨src, [], some 0⟩

/-- `PeekBuf` (Awl/Io/HashStream.h:52-97).  `m_block.resize(blockSize)` at line 56 and `m_block.clear()` invalidate
`m_i` (it was the end iterator), so `m_i` is invalid from there until line 95; the exceptions at lines 71 and 89 leave
it so.  (After an exception the contents of `m_block` are not modelled exactly: no valid iterator points to them.) -/
def peekBuf (c : Cfg) (s : In) : In × Res Unit :=
  match s.it with
  | none => (s, .ub)
  | some i =>
    if i = s.block.length then
      let (got, src) := s.src.read c.blockSize
      if got.length = 0 then
        (⟨src, [], some 0⟩, .ok ())
      else if got.length < c.size then
        (⟨src, got, none⟩, .throw .corruption)
      else
        let read_val := got.drop (got.length - c.size)
        let calculated_val := c.hash (got.take (got.length - c.size))
        if calculated_val ≠ read_val then
          (⟨src, got, none⟩, .throw .corruption)
        else
          (⟨src, got.take (got.length - c.size), some 0⟩, .ok ())
    else (s, .ok ())

/-- `InternalEnd` and `End` (Awl/Io/HashStream.h:36-50). -/
def atEnd (c : Cfg) (s : In) : In × Res Bool :=
  match peekBuf c s with
  | (s, .ok ()) =>
    match s.it with
    | none => (s, .ub)
    | some i => (s, .ok (i == s.block.length))
  | (s, .throw e) => (s, .throw e)
  | (s, .ub) => (s, .ub)

/-- `FlushBuf` (Awl/Io/HashStream.h:99-117): the bytes copied to the caller's buffer, of which `remaining` more are
wanted. -/
def flushBuf (s : In) (remaining : Nat) : In × Res Bytes :=
  match s.it with
  | none => (s, .ub)
  | some i =>
    if i ≠ s.block.length then
      let available_count := s.block.length - i
      let write_count := min available_count remaining
      ({ s with it := some (i + write_count) }, .ok ((s.block.drop i).take write_count))
    else (s, .ok [])

/-- The loop of `Read` (Awl/Io/HashStream.h:135-150); `buffer` is what has been copied so far, its length is
`flushed_count`.  `none`: the loop did not finish within `fuel` rounds. -/
def readLoop (c : Cfg) (count : Nat) : Nat → In → Bytes → In × Res (Option Bytes)
  | 0, s, _ => (s, .ok none)
  | fuel + 1, s, buffer =>
    match flushBuf s (count - buffer.length) with
    | (s, .ok b) =>
      let buffer := buffer ++ b
      if buffer.length = count then (s, .ok (some buffer))
      else
        match atEnd c s with
        | (s, .ok true) => (s, .ok (some buffer))
        | (s, .ok false) => readLoop c count fuel s buffer
        | (s, .throw e) => (s, .throw e)
        | (s, .ub) => (s, .ub)
    | (s, .throw e) => (s, .throw e)
    | (s, .ub) => (s, .ub)

/-- `Read` (Awl/Io/HashStream.h:130-155): every round but the first copies at least one byte. -/
def read (c : Cfg) (s : In) (count : Nat) : In × Res (Option Bytes) := readLoop c count (count + 2) s []

/-! ## The output stream -/

/-- `HashOutputStream` (Awl/Io/HashStream.h:197-203): `m_out` and `m_v`. -/
structure Out where
  sink : Sink
  buf : Bytes
deriving DecidableEq, Repr

/-- Constructor (Awl/Io/HashStream.h:162-168). -/
def Out.init (sink : Sink) : Out := ⟨sink, []⟩

/-- `Flush` (Awl/Io/HashStream.h:183-195).  If the underlying stream throws, `m_v` keeps the payload and the hash. -/
def flush (c : Cfg) (o : Out) : Out × Res Unit :=
  if o.buf.length ≠ 0 then
    let buf := o.buf ++ c.hash o.buf
    match o.sink.write buf with
    | (sink, .ok ()) => (⟨sink, []⟩, .ok ())
    | (sink, r) => (⟨sink, buf⟩, r)
  else (o, .ok ())

/-- The loop of `Write` (Awl/Io/HashStream.h:213-234).  `rest` are the bytes of `buffer` from `written_cont` on.
`none`: the loop did not finish within `fuel` rounds. -/
def writeLoop (c : Cfg) : Nat → Out → Bytes → Out × Res (Option Unit)
  | 0, o, _ => (o, .ok none)
  | fuel + 1, o, rest =>
    let tail_count := c.blockSize - c.size - o.buf.length
    let insert_count := min tail_count rest.length
    let o := { o with buf := o.buf ++ rest.take insert_count }
    match (if o.buf.length = c.blockSize - c.size then flush c o else (o, .ok ())) with
    | (o, .ok ()) =>
      let rest := rest.drop insert_count
      if rest.length ≠ 0 then writeLoop c fuel o rest else (o, .ok (some ()))
    | (o, .throw e) => (o, .throw e)
    | (o, .ub) => (o, .ub)

/-- `Write` (Awl/Io/HashStream.h:206-235).  A failed `assert` counts as undefined behaviour (without it `tail_count`
at line 217 would wrap around). -/
def write (c : Cfg) (o : Out) (buffer : Bytes) : Out × Res (Option Unit) :=
  if o.buf.length < c.blockSize - c.size then writeLoop c (buffer.length + 1) o buffer else (o, .ub)

/-- What happens at the end of the life time of a stream (`HashOutputStream`, Awl/Io/HashStream.h:174-177). -/
inductive Fate where
  | done
  | terminated   -- std::terminate
deriving DecidableEq, Repr

/-- Destructor (Awl/Io/HashStream.h:174-177).  It is `noexcept` as every destructor without an exception
specification whose bases and members have such destructors: an exception leaving it calls `std::terminate`. -/
def destroy (c : Cfg) (o : Out) : Sink × Fate :=
  match flush c o with
  | (o, .ok ()) => (o.sink, .done)
  | (o, _) => (o.sink, .terminated)

/-- How a block of code with a local `HashOutputStream` ends for the caller (Awl/Io/HashStream.h:157-204). -/
inductive Ending where
  | returned
  | exception (e : Exn)
  | terminated
  | ub
  | running    -- did not finish within the fuel of a loop
deriving DecidableEq, Repr

/-- A function with a local `HashOutputStream` that writes the pieces one after another, as
`HashingSerializable::WriteSnapshotImpl` does (Awl/Io/HashingSerializable.h:59-67): when `Write` throws, the local stream is
destroyed while the exception propagates; at the end it is destroyed normally. -/
def writeAll (c : Cfg) : Out → List Bytes → Sink × Ending
  | o, [] =>
    match destroy c o with
    | (sink, .done) => (sink, .returned)
    | (sink, .terminated) => (sink, .terminated)
  | o, b :: bs =>
    match write c o b with
    | (o, .ok (some ())) => writeAll c o bs
    | (o, .ok none) => (o.sink, .running)
    | (o, .throw e) =>
      match destroy c o with
      | (sink, .done) => (sink, .exception e)
      | (sink, .terminated) => (sink, .terminated)
    | (o, .ub) => (o.sink, .ub)

/-! ## Calls made by a user of an input stream -/

/-- The calls (`End` and `Read`, Awl/Io/HashStream.h:36-41). -/
inductive Op where
  | read (count : Nat)
  | atEnd
deriving DecidableEq, Repr

/-- What the user sees of a call (Awl/Io/HashStream.h:36-41). -/
inductive Obs where
  | data (b : Bytes)
  | flag (b : Bool)
  | exception (e : Exn)
  | ub
  | running    -- did not finish within the fuel of a loop
deriving DecidableEq, Repr

/-- One call (Awl/Io/HashStream.h:36-50, 130-155). -/
def call (c : Cfg) (s : In) : Op → In × Obs
  | .read n =>
    match read c s n with
    | (s, .ok (some b)) => (s, .data b)
    | (s, .ok none) => (s, .running)
    | (s, .throw e) => (s, .exception e)
    | (s, .ub) => (s, .ub)
  | .atEnd =>
    match atEnd c s with
    | (s, .ok b) => (s, .flag b)
    | (s, .throw e) => (s, .exception e)
    | (s, .ub) => (s, .ub)

/-- A program of calls; all that the user sees.  The program goes on after an exception (Awl/Io/HashStream.h:22-155). -/
def run (c : Cfg) : In → List Op → List Obs
  | _, [] => []
  | s, op :: ops => (call c s op).2 :: run c (call c s op).1 ops

end Verif.HashStream
