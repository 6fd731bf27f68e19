import Verif.Storage.Model
import Verif.HashStream.Decode
import Verif.Vts.Model

/-!
# Serialization formats used with a storage

`Awl/Io/PlainSerializable.h`, `Awl/Io/VersionTolerantSerializable.h`, `Awl/Io/HeaderedSerializable.h`,
`Awl/Io/HashingSerializable.h`, `Awl/Io/EuphoricallySerializable.h`.
-/

namespace Verif.StorageFmt

open Verif.Storage (Format)

/-- What is written and read (Awl/Io/Serializable.h). -/
abbrev Bytes := List UInt8

/-- What is written to a stream and how it is read from one: the value and the bytes that follow (Awl/Io/Serializable.h). -/
structure SFormat (V : Type) where
  ser : V → Bytes
  rd : Bytes → Res (V × Bytes)

variable {V : Type}

/-- The bytes written (none if `Write` throws; only used for values that can be written) (`Write`, Awl/Io/Serializable.h). -/
def written : Res Bytes → Bytes
  | .ok bs => bs
  | _ => []

/-- `PlainSerializable` (Awl/Io/PlainSerializable.h:20-32, 39-42) with `atomic`: the value is read into a new object. -/
def plain (env : Serialize.Env) (t : Serialize.Ty) : SFormat Serialize.Val where
  ser v := written (Serialize.write env t v)
  rd := Serialize.read env t (Serialize.dflt t)

/-- `VersionTolerantSerializable` (Awl/Io/VersionTolerantSerializable.h:30-43, 80-86, 104-110) with `atomic` and a movable type;
`o` is the value of a new object, `T val = {}` (line 37). -/
def vts (g : Vts.Cfg) (fuel : Nat) (t : Serialize.Ty) (o : Serialize.Val) : SFormat Serialize.Val where
  ser v := written (Vts.writeV g.env g.nm g.S t v)
  rd := Vts.readV g fuel t o

/-- `Header` (Awl/Io/HeaderedSerializable.h:9-16): `std::string` and `size_t`. -/
def headerTy : Serialize.Ty := .struct none [.str 1, .num 8 0]

/-- A header object (Awl/Io/HeaderedSerializable.h:9-16). -/
structure Header where
  format : Bytes
  version : Nat
deriving DecidableEq, Repr

/-- The header as a structure (Awl/Io/HeaderedSerializable.h:15). -/
def Header.val (h : Header) : Serialize.Val :=
  .list [Vts.strVal h.format, .num h.version]

/-- `ReadHeader` (Awl/Io/HeaderedSerializable.h:38-63), with `ReadOldVersion` as it is in the class (lines 70-73): it
throws. -/
def readHeader (env : Serialize.Env) (expected : Header) (s : Bytes) : Res Bytes :=
  match Serialize.read env headerTy (Serialize.dflt headerTy) s with
  | .ok (.list [.list f, .num version], rest) =>
    if Vts.decStr f ≠ some expected.format then .throw .io
    else if expected.version < version then .throw .io
    else if version < expected.version then .throw .io
    else .ok rest
  | .ok _ => .ub    -- not a header, cannot happen
  | .throw e => .throw e
  | .ub => .ub

/-- `WriteHeader` and the value (Awl/Io/HeaderedSerializable.h:65-68, HashingSerializable.h:38-55); `env` has the limit
`formatNameLimit`. -/
def headered (env : Serialize.Env) (h : Header) (f : SFormat V) : SFormat V where
  ser v := written (Serialize.write env headerTy h.val) ++ f.ser v
  rd s := readHeader env h s >>= f.rd

/-- A value written to the file itself (AtomicStorage.h:95, 111). -/
def direct (f : SFormat V) : Format V where
  enc := f.ser
  read c :=
    match f.rd c with
    | .ok (v, rest) => .ok (v, c.length - rest.length)
    | .throw e => .throw e
    | .ub => .ub

/-- `HashingSerializable` (Awl/Io/HashingSerializable.h:38-55): the value is written to a local `HashOutputStream` and
read from a local `HashInputStream`.

`decode` gives what the calls of the input stream answer (`Verif.HashStream.run_full`): the payload before the first bad block
and, if there is a bad block, `CorruptionException` when more is asked for.  Readers use the stream only through `Read`
and throw `EndOfFileException` when they get less than asked for (Awl/Io/ReadWrite.h).  The file then is at the end of the block that contains the
last byte asked for; a block is not fetched before a byte of it is needed (HashStream.h:135-150). -/
def hashed (c : HashStream.Cfg) (f : SFormat V) : Format V where
  enc v := (HashStream.writeAll c (.init ⟨[], none⟩) [f.ser v]).1.data
  read e :=
    let (p, bad) := HashStream.decode c e.length e
    match f.rd p with
    | .ok (v, rest) =>
      let payload := c.blockSize - c.size
      .ok (v, min e.length ((p.length - rest.length + payload - 1) / payload * c.blockSize))
    | .throw x => .throw (if x = .endOfFile ∧ bad then .corruption else x)
    | .ub => .ub

end Verif.StorageFmt
