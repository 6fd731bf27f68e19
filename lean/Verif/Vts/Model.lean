import Verif.Serialize.Model

/-!
# Version tolerant serialization: `Awl/Io/Writer.h`, `Awl/Io/Reader.h`, `Awl/Io/Vts.h`

`WriteV` writes the tables describing all structures (names and types of the fields) and then the value, with the index
of its structure in front of the fields of every `AWL_REFLECT` structure.  `ReadV` reads the tables, maps the fields of
the structures in the stream to the fields of the structures of the reading program by name, and reads the value.

The compile-time tables of a program are a `Schema`.  The model of `Read`/`Write` of everything that is not an
`AWL_REFLECT` structure is `Verif.Serialize`; the version tolerant reader is a hook for structures.
-/

namespace Verif.Vts

open Verif.Serialize

/-- The characters of a `std::string` (`Awl/Prototype.h:112`). -/
abbrev Name := List UInt8

/-- `Prototype`, `Awl/Prototype.h:18-41`: names and types of the fields of a structure; `none` is `Field::NoType`. -/
abbrev Proto := List (Name × Option Nat)

/-- The compile-time tables of `PrototypeContainer`, `PrototypeContainer.h:30-47`: the types of the variant `FieldV`
and the prototypes of the types of the variant `StructV`.  How they are derived from the C++ type
(`Awl/Mp/TypeCollector.h`) is not modelled; what is assumed of them is `Described` in the specification. -/
structure Schema where
  fields : List Ty
  protos : List Proto

/-- What a reading program is: its tables, the names of its types (`type_descriptor<T>::name()`,
`Awl/Mp/TypeDescriptor.h`), the registered new names of fields (`FieldMap<Struct>::GetNewName`, `FieldMap.h:14-18`, by
structure), the renaming of types passed to `ReadOldPrototypes`, and the member `allowDelete`. -/
structure Cfg where
  env : Env
  S : Schema
  nm : Ty → Name
  ren : Nat → Name → Name
  tm : Name → Name
  allowDelete : Bool

/-! ### Tables in the stream -/

/-- `Field::type` as it is stored: `NoType` is the maximum of `size_t`, `Prototype.h:20`. -/
def encType : Option Nat → Nat
  | some k => k
  | none => 2 ^ 64 - 1

/-- A `std::string` as a value (`Awl/Io/Writer.h:47-49`). -/
def strVal (s : Name) : Val := .list (s.map fun b => .num b.toNat)

/-- One field of a prototype in `WriteNewPrototypes`, `Writer.h:43-51`. -/
def writeProtoField (f : Name × Option Nat) : List UInt8 :=
  leBytes 8 f.1.length ++ f.1 ++ leBytes 8 (encType f.2)

/-- One prototype in `WriteNewPrototypes`, `Writer.h:38-52`. -/
def writeProto (p : Proto) : List UInt8 := leBytes 8 p.length ++ p.flatMap writeProtoField

/-- `Writer::WriteNewPrototypes`, `Writer.h:29-53`; the type names are written by the plain `Write` of a
`vector<string>`. -/
def writeNewPrototypes (cap : Nat) (nm : Ty → Name) (S : Schema) : Res (List UInt8) := do
  let tm ← write ⟨none, cap⟩ (.vec (.str 1)) (.list (S.fields.map fun t => strVal (nm t)))
  .ok (tm ++ leBytes 8 S.protos.length ++ S.protos.flatMap writeProto)

/-- `Metadata`, `Metadata.h:17-26`, with `DetachedPrototype` and `FieldContainer`, `Prototype.h:110-116, 156`. -/
def metaTy : Ty := .struct none
  [.vec (.str 1), .vec (.struct none [.vec (.struct none [.str 1, .num 8])])]

/-- The characters of a string value (`Awl/Prototype.h:112`). -/
def decStr : List Val → Option Name
  | [] => some []
  | .num x :: vs => (decStr vs).map (UInt8.ofNat x :: ·)
  | _ => none

/-- The type names in a `Metadata` value (`Awl/Io/Metadata.h:22`). -/
def decNames : List Val → Option (List Name)
  | [] => some []
  | .list s :: vs =>
    match decStr s, decNames vs with
    | some a, some b => some (a :: b)
    | _, _ => none
  | _ => none

/-- The fields of a prototype in a `Metadata` value (`Awl/Prototype.h:110-116`). -/
def decFields : List Val → Option (List (Name × Nat))
  | [] => some []
  | .list [.list s, .num ty] :: vs =>
    match decStr s, decFields vs with
    | some a, some b => some ((a, ty) :: b)
    | _, _ => none
  | _ => none

/-- The prototypes in a `Metadata` value (`Awl/Io/Metadata.h:23`). -/
def decProtos : List Val → Option (List (List (Name × Nat)))
  | [] => some []
  | .list [.list fs] :: vs =>
    match decFields fs, decProtos vs with
    | some a, some b => some (a :: b)
    | _, _ => none
  | _ => none

/-- The `Metadata` object read by `Read(s, meta)`, `Reader.h:155-157`. -/
def decMeta : Val → Option (List Name × List (List (Name × Nat)))
  | .list [.list ns, .list ps] =>
    match decNames ns, decProtos ps with
    | some a, some b => some (a, b)
    | _, _ => none
  | _ => none

/-- The index of a type name in `N2iMap`, `PrototypeContainer.h:78-83`: `emplace` keeps the first one. -/
def findName (names : List Name) (n : Name) : Option Nat := names.findIdx? (· == n)

/-- The inner loop of `AttachMetadata`, `Reader.h:183-215`. -/
def attachFields (old_tm new_tm : List Name) : List (Name × Nat) → Res Proto
  | [] => .ok []
  | (n, ty) :: fs =>
    if ty = 2 ^ 64 - 1 then do
      let r ← attachFields old_tm new_tm fs
      .ok ((n, none) :: r)
    else
      match old_tm[ty]? with
      | none => .throw .corruption
      | some tn =>
        match findName new_tm tn with
        | none => .throw .typeMismatch
        | some k => do
          let r ← attachFields old_tm new_tm fs
          .ok ((n, some k) :: r)

/-- `Reader::AttachMetadata`, `Reader.h:172-219`. -/
def attachMetadata (old_tm new_tm : List Name) : List (List (Name × Nat)) → Res (List Proto)
  | [] => .ok []
  | p :: ps => do
    let a ← attachFields old_tm new_tm p
    let b ← attachMetadata old_tm new_tm ps
    .ok (a :: b)

/-- `Reader::ReadOldPrototypes`, `Reader.h:153-170`: the prototypes in the stream, with types numbered as in the
reading program, and the bytes that are left. -/
def readOldPrototypes (g : Cfg) (s : List UInt8) : Res (List Proto × List UInt8) := do
  let (v, s') ← read ⟨none, g.env.cap⟩ metaTy (dflt metaTy) s
  match decMeta v with
  | none => .ub
  | some (tn, ps) => do
    let old ← attachMetadata (tn.map g.tm) (g.S.fields.map g.nm) ps
    .ok (old, s')

/-! ### Mapping of prototypes -/

/-- `AreTypeNamesEqual`, `Reader.h:471-478`. -/
def areTypeNamesEqual (names : List Name) (a b : Nat) : Res Bool :=
  match names[a]?, names[b]? with
  | some x, some y => .ok (x == y)
  | _, _ => .ub

/-- `CheckTypesCompatible`, `Reader.h:446-464`. -/
def checkTypesCompatible (names : List Name) (o n : Option Nat) : Res Unit :=
  if o = n then .ok ()
  else
    match o, n with
    | some a, some b => do
      let eq ← areTypeNamesEqual names a b
      if eq then .ok () else .throw .io
    | _, _ => .throw .io

/-- `AreTypesEqual`, `Reader.h:466-469`. -/
def areTypesEqual (names : List Name) (o n : Option Nat) : Res Bool :=
  if o = n then .ok true
  else
    match o, n with
    | some a, some b => areTypeNamesEqual names a b
    | _, _ => .ub

/-- The outer loop of `MapPrototypes`, `Reader.h:404-426`; the inner loop is `findIdx?`. -/
def mapFields (names : List Name) (rn : Name → Name) (right : Proto) : Proto → Res (List (Option Nat))
  | [] => .ok []
  | (n, ty) :: fs =>
    match right.findIdx? (fun f => f.1 == rn n) with
    | none => do
      let r ← mapFields names rn right fs
      .ok (none :: r)
    | some j =>
      match right[j]? with
      | none => .ub
      | some f => do
        checkTypesCompatible names ty f.2
        let r ← mapFields names rn right fs
        .ok (some j :: r)

/-- `MapPrototypes`, `Reader.h:399-444`: a trivial map becomes empty. -/
def mapPrototypes (names : List Name) (rn : Name → Name) (left right : Proto) : Res (List (Option Nat)) := do
  let v ← mapFields names rn right left
  if left.length = right.length ∧ v = (List.range v.length).map some then .ok [] else .ok v

/-- `protoMaps`, `Reader.h:119-123, 487`: new structure index and field map by old structure index.  Simplified: a
function instead of a vector that is resized on demand. -/
abbrev Cache := Nat → Option (Nat × List (Option Nat))

/-- Assignment to an element of `protoMaps` (`Awl/Io/Reader.h:382-387`). -/
def Cache.set (c : Cache) (i : Nat) (x : Nat × List (Option Nat)) : Cache := fun k => if k = i then some x else c k

/-- `FindProtoMap`, `Reader.h:355-396`: the result and the cache afterwards, which has an empty map if `MapPrototypes`
has thrown. -/
def findProtoMap (g : Cfg) (old : List Proto) (i n : Nat) (c : Cache) : Res (List (Option Nat)) × Cache :=
  match c i with
  | some (n', m) => if n ≠ n' then (.throw .io, c) else (.ok m, c)
  | none =>
    match old[i]?, g.S.protos[n]? with
    | some l, some r =>
      match mapPrototypes (g.S.fields.map g.nm) (g.ren n) l r with
      | .ok m => (.ok m, c.set i (n, m))
      | .throw e => (.throw e, c.set i (n, []))
      | .ub => (.ub, c)
    | _, _ => (.ub, c)

/-- `FindProtoMap` as a step of a reader (`Awl/Io/Reader.h:234`). -/
def findProtoMapR (g : Cfg) (old : List Proto) (i n : Nat) : Rd Cache (List (Option Nat)) := fun c s =>
  match findProtoMap g old i n c with
  | (.ok m, c') => .ok (m, c', s)
  | (.throw e, _) => .throw e
  | (.ub, _) => .ub

/-! ### Reading values -/

/-- `ReadStructIndex`, `BasicReader.h:30-35`. -/
def readStructIndex {σ : Type} : Rd σ Nat := do
  let bs ← readRaw 2
  pure (leVal bs)

/-- The loop over the fields in `ReadV`, `Reader.h:250-279`: the fields of the old prototype with their new indices,
the fields of the object.  `skip` is `SkipField`. -/
def readMapped (names : List Name) (allowDelete : Bool) (skip : Option Nat → Rd Cache Unit) (newProto : Proto)
    (rds : List (Val → Rd Cache Val)) : List ((Name × Option Nat) × Option Nat) → List Val → Rd Cache (List Val)
  | [], vs => pure vs
  | (f, none) :: ps, vs =>
    if allowDelete then do
      skip f.2
      readMapped names allowDelete skip newProto rds ps vs
    else Rd.fail .fieldNotFound
  | (f, some j) :: ps, vs =>
    match newProto[j]?, rds[j]?, vs[j]? with
    | some nf, some rd, some v => do
      let eq ← Rd.lift (areTypesEqual names f.2 nf.2)
      if eq then do
        let v' ← rd v
        readMapped names allowDelete skip newProto rds ps (vs.set j v')
      else Rd.fail .typeMismatch
    | _, _, _ => .ub

/-- `Reader::ReadV`, `Reader.h:227-290`, of a structure: `none` is a structure with `AWL_TUPLIZABLE` only. -/
def hookV (g : Cfg) (old : List Proto) (skip : Option Nat → Rd Cache Unit) : Hook Cache := fun info rds vs =>
  match info with
  | none => readFields rds vs
  | some si => do
    let i ← readStructIndex
    let m ← findProtoMapR g old i si.idx
    if m.isEmpty then readFields rds vs
    else
      match old[i]?, g.S.protos[si.idx]? with
      | some p, some q => readMapped (g.S.fields.map g.nm) g.allowDelete skip q rds (p.zip m) vs
      | _, _ => .ub

/-- The loop over the fields in `SkipStruct`, `Reader.h:312-317`. -/
def skipAll (skip : Option Nat → Rd Cache Unit) : Proto → Rd Cache Unit
  | [] => pure ()
  | f :: fs => do
    skip f.2
    skipAll skip fs

/-- `SkipField` and `SkipStruct`, `Reader.h:292-318`.  The first argument bounds the depth of the recursion (the C++
recursion has no bound but at least two bytes are read between two levels). -/
def skipField (g : Cfg) (old : List Proto) : Nat → Option Nat → Rd Cache Unit
  | 0, _ => .ub
  | fuel + 1, some k =>
    match g.S.fields[k]? with
    | some t => do
      let _ ← readTy g.env (hookV g old (skipField g old fuel)) t (dflt t)
      pure ()
    | none => .ub
  | fuel + 1, none => do
    let i ← readStructIndex
    match old[i]? with
    | some p => skipAll (skipField g old fuel) p
    | none => .ub

/-- `ReadV(in, val)` of an object with a new `Reader`, after the tables have been read, `Vts.h:23`,
`VersionTolerantSerializable.h:109`. -/
def readBody (g : Cfg) (fuel : Nat) (old : List Proto) (t : Ty) (o : Val) : Rd Cache Val :=
  readTy g.env (hookV g old (skipField g old fuel)) t o

/-- `awl::io::ReadV(in, val)`, `Vts.h:15-24`: the object afterwards and the bytes that are left. -/
def readV (g : Cfg) (fuel : Nat) (t : Ty) (o : Val) (s : List UInt8) : Res (Val × List UInt8) := do
  let (old, s') ← readOldPrototypes g s
  match readBody g fuel old t o (fun _ => none) s' with
  | .ok (v, _, s'') => .ok (v, s'')
  | .throw e => .throw e
  | .ub => .ub

/-- `VersionTolerantSerializable::Read`, `VersionTolerantSerializable.h:30-42`, for a movable type: the state of the
object afterwards in either case; `d` is the value of `T val = {}`. -/
def readAtomic (g : Cfg) (fuel : Nat) (t : Ty) (d m_val : Val) (s : List UInt8) : Res (List UInt8) × Val :=
  match readV g fuel t d s with
  | .ok (v, s') => (.ok s', v)
  | .throw e => (.throw e, m_val)
  | .ub => (.ub, m_val)

/-- The exceptions derived from `IoException`, `IoException.h`. -/
def isIo : Exn → Bool
  | .io | .endOfFile | .corruption | .typeMismatch | .fieldNotFound | .structNotFound => true
  | _ => false

/-- `VersionTolerantSerializable::Read`, `VersionTolerantSerializable.h:43-70`, for a type that cannot be moved: the
old value is written with the plain `Write` first, and if an `IoException` is thrown it is read back into the object,
which then is in the state `mid` (`WriteSnapshot`, `ReadSnapshot`, lines 90-102).  `mid` is a parameter because
`readTy` does not say what is left in an object after an exception. -/
def readRestored (g : Cfg) (fuel : Nat) (t : Ty) (m_val mid : Val) (s : List UInt8) : Res (List UInt8) × Val :=
  match readV g fuel t m_val s with
  | .ok (v, s') => (.ok s', v)
  | .throw e =>
    if isIo e then
      match write ⟨none, g.env.cap⟩ t m_val with
      | .ok b =>
        match read ⟨none, g.env.cap⟩ t mid b with
        | .ok (v, _) => (.throw e, v)
        | _ => (.ub, mid)
      | _ => (.ub, mid)
    else (.throw e, mid)
  | .ub => (.ub, m_val)

/-- The fields of an object when reading them one after another (`TuplizableReadWrite.h:21-24`) has thrown.
Simplified: the field whose reading throws is unchanged. -/
def fieldsAtThrow {σ : Type} : List (Val → Rd σ Val) → List Val → σ → List UInt8 → List Val
  | rd :: rds, v :: vs, c, s =>
    match rd v c s with
    | .ok (v', c', s') => v' :: fieldsAtThrow rds vs c' s'
    | _ => v :: vs
  | _, vs, _, _ => vs

/-! ### Writing values -/

/-- What `Writer::WriteV` writes in front of the fields of a structure, `Writer.h:59-63`. -/
def preV : Option SInfo → List UInt8
  | none => []
  | some si => leBytes 2 si.idx

/-- `awl::io::WriteV(out, val)`, `Vts.h:26-35`. -/
def writeV (env : Env) (nm : Ty → Name) (S : Schema) (t : Ty) (v : Val) : Res (List UInt8) := do
  let a ← writeNewPrototypes env.cap nm S
  let b ← writeTy env preV t v
  .ok (a ++ b)

end Verif.Vts
