import Verif.Storage.Model

/-!
# Settings: `Awl/Io/OptionalStorage.h`, `Awl/Io/OptionalStorage.cpp`, `Awl/Io/PersistentObject.h`

`Storage` (C43–C45) models the files of an `AtomicStorage` that is open.  Here the storage may also be closed: `Files` is then missing and every
operation of the streams, which have the handle -1, throws `PosixException` (NativeStream.h: `Check`).

An operation of the file system may fail: `fail = some k` means that the primitive operation number `k` of the call throws an `IoException` and has
no effect.
-/

namespace Verif.Settings

open Storage

variable {V : Type}

/-- The primitive operations one after the other until one fails (AtomicStorage.cpp:13-62 has no handler of its own but that of `LoadFromFile`). -/
def runProg (fail : Option Nat) (p : Prog) (d : Files) : Files × Res Unit :=
  match fail with
  | none => (exec p d, .ok ())
  | some k => if k < p.length then (exec (p.take k) d, .throw .io) else (exec p d, .ok ())

/-- `AtomicStorage::Open`, AtomicStorage.h:59-77: `m`, `b`: the file can be opened (and its contents, none: it did not exist and is created).  If one cannot be
opened both are closed and the exception is rethrown. -/
def openA (m b : Option (Option Bytes)) : Option Files × Res Bool :=
  match m with
  | none => (none, .throw .io)
  | some m =>
    match b with
    | none => (none, .throw .io)
    | some b => (some (.opened (m.getD []) (b.getD [])), .ok (m.isSome || b.isSome))

/-- `LoadFromFile`, AtomicStorage.cpp:64-101; `Seek` of a closed stream throws an `IoException`, which is caught. -/
def loadFromFileA (fmt : Format V) (old : V) : Option Bytes → V × Res Bool
  | none => (old, .ok false)
  | some c => loadFromFile fmt old c

/-- `AtomicStorage::Load`, AtomicStorage.cpp:13-36; `ClearBackup` of a closed storage throws. -/
def loadA (fmt : Format V) (fail : Option Nat) (old : V) (d : Option Files) : Option Files × V × Res Bool :=
  match loadFromFileA fmt old (d.map (·.backup.cur)) with
  | (v, .ok success) =>
    match d with
    | none => (none, v, .throw .io)
    | some f =>
      match runProg fail (if success then writeToStream .master (fmt.enc v) ++ clearBackup else clearBackup) f with
      | (f, .ok ()) => if success then (some f, v, .ok true) else (some f, loadFromFileA fmt v (some f.master.cur))
      | (f, .throw e) => (some f, v, .throw e)
      | (f, .ub) => (some f, v, .ub)
  | (v, .throw e) => (d, v, .throw e)
  | (v, .ub) => (d, v, .ub)

/-- `AtomicStorage::Save`, AtomicStorage.cpp:38-62. -/
def saveA (fmt : Format V) (fail : Option Nat) (v : V) : Option Files → Option Files × Res Unit
  | none => (none, .throw .io)
  | some f => let r := runProg fail (save fmt v) f; (some r.1, r.2)

/-- `OptionalStorage::Open`, OptionalStorage.cpp:12-29: an `IoException` is logged. -/
def openO (m b : Option (Option Bytes)) : Option Files × Res Bool :=
  match openA m b with
  | (d, .throw e) => (d, if isIo e then .ok false else .throw e)
  | r => r

/-- `OptionalStorage::Load`, OptionalStorage.h:54-57. -/
def loadO (fmt : Format V) (fail : Option Nat) (old : V) (d : Option Files) : Option Files × V × Res Bool := loadA fmt fail old d

/-- `OptionalStorage::Save`, OptionalStorage.cpp:31-45. -/
def saveO (fmt : Format V) (fail : Option Nat) (v : V) (d : Option Files) : Option Files × Res Unit :=
  if d.isSome then
    match saveA fmt fail v d with
    | (d, .throw e) => (d, if isIo e then .ok () else .throw e)
    | r => r
  else (d, .ok ())

/-! ## PersistentObject -/

/-- A `PersistentObject`: `m_val`, the object that `m_serializable` refers to (PersistentObject.h:18-23, 104-108; the references are in
VersionTolerantSerializable.h:112 and HashingSerializable.h:80), and the storage. -/
structure Obj (V : Type) where
  val : V
  target : Nat
  files : Option Files

/-- Objects by address (objects of PersistentObject.h:14-109). -/
abbrev Heap (V : Type) := Nat → Option (Obj V)

/-- An object is constructed, changed or destroyed (PersistentObject.h:14-109). -/
def put (h : Heap V) (a : Nat) (o : Option (Obj V)) : Heap V := fun b => if b = a then o else h b

/-- The calls (PersistentObject.h:18-67). -/
inductive Act (V : Type) where
  | make (a : Nat) (v : V)                          -- PersistentObject.h:18-23
  | moveTo (a b : Nat) (left : V)                   -- implicit move constructor: a from b; b keeps the moved-from value `left`
  | destroy (a : Nat)
  | set (a : Nat) (v : V)                           -- value() = v, :64-67
  | open (a : Nat) (m b : Option (Option Bytes))    -- :25-30
  | load (a : Nat)                                  -- :32-35
  | save (a : Nat)                                  -- :37-40
  | close (a : Nat)                                 -- :42-45

/-- One call, with `AtomicStorage` and no failures of the file system; the result of `open` and `load` (PersistentObject.h:18-67; using an address where there is no object is refused). -/
def step (fmt : Format V) (h : Heap V) : Act V → Res (Heap V × Option Bool)
  | .make a v => match h a with | none => .ok (put h a (some ⟨v, a, none⟩), none) | some _ => .throw .logic
  | .moveTo a b left =>
    match h a, h b with
    -- `m_serializable` is copied with its references; the handles of the storage are moved
    | none, some o => .ok (put (put h a (some ⟨o.val, o.target, o.files⟩)) b (some ⟨left, o.target, none⟩), none)
    | _, _ => .throw .logic
  | .destroy a => match h a with | some _ => .ok (put h a none, none) | none => .throw .logic
  | .set a v => match h a with | some o => .ok (put h a (some { o with val := v }), none) | none => .throw .logic
  | .open a m b =>
    match h a with
    | some o => match openA m b with | (d, r) => r >>= fun x => .ok (put h a (some { o with files := d }), some x)
    | none => .throw .logic
  | .load a =>
    match h a with
    | some o =>
      match h o.target with
      | some t =>
        match loadA fmt none t.val o.files with
        | (d, v, r) => r >>= fun x =>
          let h := put h a (some { o with files := d })
          match h o.target with
          | some t => .ok (put h o.target (some { t with val := v }), some x)
          | none => .ub
      | none => .ub
    | none => .throw .logic
  | .save a =>
    match h a with
    | some o =>
      match h o.target with
      | some t => match saveA fmt none t.val o.files with | (d, r) => r >>= fun _ => .ok (put h a (some { o with files := d }), none)
      | none => .ub
    | none => .throw .logic
  | .close a => match h a with | some o => .ok (put h a (some { o with files := none }), none) | none => .throw .logic

/-- A history of calls (PersistentObject.h:18-67). -/
def run (fmt : Format V) : Heap V → List (Act V) → Res (Heap V)
  | h, [] => .ok h
  | h, a :: l => step fmt h a >>= fun r => run fmt r.1 l

end Verif.Settings
