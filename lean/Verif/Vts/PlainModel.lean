import Verif.Vts.Model

/-!
# The reader without tables: `Awl/Io/PlainReader.h`
-/

namespace Verif.Vts

open Verif.Serialize

/-- `PlainReader::ReadV` of a structure, `PlainReader.h:26-40`: the index of a structure with `AWL_REFLECT` is read and not used. -/
def hookPlain : Hook Unit := fun info rds vs =>
  match info with
  | none => readFields rds vs
  | some _ => do
    let _ ← readStructIndex
    readFields rds vs

/-- `PlainReader::ReadV(s, val)`: the object afterwards and the bytes that are left (`PlainReader.h:27-46`). -/
def readPlain (env : Env) (t : Ty) (o : Val) (s : List UInt8) : Res (Val × List UInt8) :=
  match readTy env hookPlain t o () s with
  | .ok (v, _, s') => .ok (v, s')
  | .throw e => .throw e
  | .ub => .ub

/-- Objects of the type one after another, as `VtsTest.cpp:121-132` reads them. -/
def readPlainAll (env : Env) (t : Ty) : List Val → List UInt8 → Res (List Val × List UInt8)
  | [], s => .ok ([], s)
  | o :: os, s => do
    let (v, s) ← readPlain env t o s
    let (vs, s) ← readPlainAll env t os s
    .ok (v :: vs, s)

end Verif.Vts
