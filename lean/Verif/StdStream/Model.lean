import Verif.Serialize.Model

/-!
# Streams on `std::istream` and `std::ostream`: `Awl/Io/StdStream.h`

`std::istream` and `std::ostream` by the standard ([istream.unformatted], [ostream.unformatted]): three flags, and unformatted calls that do nothing but set `failbit` unless
the stream is good.  The exceptions mask is zero (the default), so the calls on them do not throw.  A file buffer holds up to `room` bytes before it gives them to the
device, which holds up to `cap` bytes.  Counts are those that fit `std::streamsize`.
-/

namespace Verif.StdStream

open Verif

/-- What is read and written (StdStream.h:23, 53). -/
abbrev Bytes := List UInt8

/-- `std::istream`: the bytes not extracted yet, and `eofbit`, `failbit`, `badbit` (`m_in`, StdStream.h:42). -/
structure IS where
  data : Bytes
  eof : Bool := false
  fail : Bool := false
  bad : Bool := false
deriving DecidableEq, Repr

/-- `good()` (the test of the calls in StdStream.h:26, 35). -/
def IS.good (s : IS) : Bool := !s.eof && !s.fail && !s.bad

/-- `istream::read(buffer, count)` and `gcount()`: the bytes stored (called at StdStream.h:26-28). -/
def isRead (s : IS) (count : Nat) : Bytes × IS :=
  if s.good then
    if s.data.length < count then (s.data, { s with data := [], eof := true, fail := true })
    else (s.data.take count, { s with data := s.data.drop count })
  else ([], { s with fail := true })

/-- `istream::peek()` (called at StdStream.h:35). -/
def isPeek (s : IS) : IS :=
  if s.good then (if s.data.isEmpty then { s with eof := true } else s) else { s with fail := true }

/-- `StdInputStream::Read`, StdStream.h:23-31: the bytes put into the buffer, their number is the result. -/
def read (s : IS) (count : Nat) : Bytes × IS := isRead s count

/-- `StdInputStream::End`, StdStream.h:33-38. -/
def atEnd (s : IS) : Bool × IS :=
  let s := isPeek s
  (s.eof, s)

/-- `ReadRaw`, ReadRaw.h:19-31. -/
def readRaw (s : IS) (count : Nat) : Res (Bytes × IS) :=
  let (b, s) := read s count
  if b.length < count then .throw .endOfFile else .ok (b, s)

/-- A call of the user or, `fault`, an error of the device that the stream buffer reports by an exception (which the stream turns into `badbit`) (StdStream.h:23-38). -/
inductive InOp where
  | read (count : Nat)
  | atEnd
  | fault
deriving DecidableEq, Repr

/-- What a call gives (StdStream.h:30, 37). -/
inductive InRes where
  | bytes (b : Bytes)
  | flag (b : Bool)
  | nothing
deriving DecidableEq, Repr

/-- One call (StdStream.h:23-38). -/
def inStep (s : IS) : InOp → InRes × IS
  | .read n => let (b, s) := read s n; (.bytes b, s)
  | .atEnd => let (b, s) := atEnd s; (.flag b, s)
  | .fault => (.nothing, { s with bad := true })

/-- A history of calls (StdStream.h:23-38). -/
def inRun (s : IS) : List InOp → List InRes × IS
  | [] => ([], s)
  | op :: ops =>
    let (r, s) := inStep s op
    let (rs, s) := inRun s ops
    (r :: rs, s)

/-- `std::ostream` with a file buffer: what is in the buffer and on the device, and whether the stream has failed (`m_out`, StdStream.h:66). -/
structure OS where
  buf : Bytes := []
  dev : Bytes := []
  failed : Bool := false
deriving DecidableEq, Repr

/-- The file: the size of the buffer, and how much the device holds (behind `m_out`, StdStream.h:66). -/
structure File where
  room : Nat
  cap : Nat

/-- `ostream::write(bytes, count)`: whether the stream is good after it (called at StdStream.h:58). -/
def osWrite (F : File) (s : OS) (b : Bytes) : Bool × OS :=
  if s.failed then (false, s)
  else if s.buf.length + b.length ≤ F.room then (true, { s with buf := s.buf ++ b })
  else
    let all := s.dev ++ (s.buf ++ b)
    if all.length ≤ F.cap then (true, { s with buf := [], dev := all })
    else (false, { buf := [], dev := all.take F.cap, failed := true })

/-- `StdOutputStream::Write`, StdStream.h:53-62; the stream is as it is after the call whether it throws or not. -/
def write (F : File) (s : OS) (b : Bytes) : Res Unit × OS :=
  let (g, s) := osWrite F s b
  (if !g then .throw .io else .ok (), s)

/-- The end of the stream (and of the file): what is in the buffer is given to the device, an error is not reported.  `StdOutputStream` has no function to flush (StdStream.h:45-67). -/
def closeOut (F : File) (s : OS) : OS := { s with buf := [], dev := (s.dev ++ s.buf).take F.cap }

/-- Calls of `Write` until one throws (StdStream.h:53-62). -/
def writeAll (F : File) (s : OS) : List Bytes → Res Unit × OS
  | [] => (.ok (), s)
  | b :: bs =>
    match write F s b with
    | (.ok _, s) => writeAll F s bs
    | r => r

end Verif.StdStream
