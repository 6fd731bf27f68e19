import Verif.Vts.Model

/-!
# A `Reader` that is used for several objects and streams: `Awl/Io/Reader.h`

The functions `ReadV` of `Awl/Io/Vts.h` make a new `Reader` for every object.  A program that keeps its `Reader` calls
`ReadOldPrototypes` or `Initialize` and then `ReadV` any number of times, and `ClearPrototypes` before the next stream.
-/

namespace Verif.Vts

open Verif.Serialize

/-- The members of `Reader` that change, `Awl/Io/Reader.h:486-487`: `oldPrototypes` and `protoMaps`. -/
structure Reader where
  old : List Proto
  cache : Cache

/-- `Reader::Reader`, `Reader.h:127-134`. -/
def Reader.new : Reader := ⟨[], fun _ => none⟩

/-- `Reader::Initialize`, `Reader.h:137-147`; `dbg` says whether assertions are checked, a failed one is `.ub`. -/
def Reader.initialize (dbg : Bool) (g : Cfg) (r : Reader) : Res Reader :=
  if dbg && !r.old.isEmpty then .ub else .ok { r with old := r.old ++ g.S.protos }

/-- `Reader::ReadOldPrototypes` and `AttachMetadata`, `Reader.h:153-219`: the assertion (line 176) comes after the
tables have been read, `oldPrototypes` is assigned at the end, `protoMaps` is not touched. -/
def Reader.readTables (dbg : Bool) (g : Cfg) (r : Reader) (s : List UInt8) : Res (Reader × List UInt8) :=
  match Serialize.read ⟨none, g.env.cap⟩ metaTy (dflt metaTy) s with
  | .throw e => .throw e
  | .ub => .ub
  | .ok _ =>
    if dbg && !r.old.isEmpty then .ub
    else do
      let (old, s') ← readOldPrototypes g s
      .ok ({ r with old := old }, s')

/-- `Reader::ClearPrototypes`, `Reader.h:221-225`. -/
def Reader.clear (r : Reader) : Reader := { r with old := [], cache := fun _ => none }

/-- `Reader::ReadV`, `Reader.h:227-290`, of an object of the type `t` with the value `o`. -/
def Reader.readObject (g : Cfg) (fuel : Nat) (r : Reader) (t : Ty) (o : Val) (s : List UInt8) :
    Res (Val × Reader × List UInt8) :=
  match readBody g fuel r.old t o r.cache s with
  | .ok (v, c, s') => .ok (v, { r with cache := c }, s')
  | .throw e => .throw e
  | .ub => .ub

/-- What a program does first with a stream: the tables are in the stream (`Reader.h:154`), or there are none
(`Reader.h:137`). -/
inductive Start where
  | tables
  | same
  deriving DecidableEq, Repr

/-- The first call (`Reader.h:137-225`). -/
def Reader.start (dbg : Bool) (g : Cfg) (r : Reader) (s : List UInt8) : Start → Res (Reader × List UInt8)
  | .tables => r.readTables dbg g s
  | .same => do
    let r' ← r.initialize dbg g
    .ok (r', s)

/-- Objects read one after another by `ReadV`, as in `Tests/VtsTest.cpp:137-150, 187-207`. -/
def Reader.readObjects (g : Cfg) (fuel : Nat) : Reader → List (Ty × Val) → List UInt8 →
    Res (List Val × Reader × List UInt8)
  | r, [], s => .ok ([], r, s)
  | r, (t, o) :: ts, s => do
    let (v, r', s') ← r.readObject g fuel t o s
    let (vs, r'', s'') ← Reader.readObjects g fuel r' ts s'
    .ok (v :: vs, r'', s'')

/-- What a program does with one stream (`Tests/VtsTest.cpp:137-150, 187-207`). -/
def Reader.session (dbg : Bool) (g : Cfg) (fuel : Nat) (r : Reader) (st : Start) (ts : List (Ty × Val))
    (s : List UInt8) : Res (List Val × Reader × List UInt8) := do
  let (r', s') ← r.start dbg g s st
  r'.readObjects g fuel ts s'

/-- The objects written one after another by `Writer::WriteV`, `Awl/Io/Writer.h:55-73`, as in
`Tests/VtsTest.cpp:97-103`. -/
def writeObjects (env : Env) : List (Ty × Val) → Res (List UInt8)
  | [] => .ok []
  | (t, v) :: ts => do
    let a ← writeTy env preV t v
    let b ← writeObjects env ts
    .ok (a ++ b)

/-- `WriteNewPrototypes` and the objects, `Tests/VtsTest.cpp:90-103`. -/
def writeStream (env : Env) (nm : Ty → Name) (S : Schema) (ts : List (Ty × Val)) : Res (List UInt8) := do
  let a ← writeNewPrototypes env.cap nm S
  let b ← writeObjects env ts
  .ok (a ++ b)

end Verif.Vts
