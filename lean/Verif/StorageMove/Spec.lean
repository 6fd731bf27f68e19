import Verif.StorageMove.Model

/-! # What storages are for their user: two names of files, which move with them -/

namespace Verif.StorageMove

/-- A storage as the user sees it: its logger and the names of its files if it is open. -/
structure Abs where
  logger : Nat
  files : Option (Nat × Nat)
deriving DecidableEq, Repr

/-- The files and the variables. -/
structure Spec where
  disk : Nat → Option Bytes
  vars : Nat → Option Abs

/-- The contents of a file. -/
def Spec.read (s : Spec) (f : Nat) : Bytes := (s.disk f).getD []

/-- A file gets contents. -/
def Spec.write (s : Spec) (f : Nat) (c : Bytes) : Spec := { s with disk := upd s.disk f (some c) }

/-- A file is made if it is not there. -/
def Spec.touch (s : Spec) (f : Nat) : Spec := s.write f (s.read f)

def Spec.set (s : Spec) (v : Nat) (a : Option Abs) : Spec := { s with vars := upd s.vars v a }

/-- What each call means.  Assignment takes the files of the other storage, its own ones are closed; the logger stays. -/
def Spec.exec (good : Bytes → Bool) (opt : Bool) (s : Spec) : Stmt → Res (Spec × Seen)
  | .make v l =>
    match s.vars v with
    | none => .ok (s.set v (some ⟨l, none⟩), done)
    | some _ => .ub
  | .moveNew v u =>
    match s.vars v, s.vars u with
    | none, some a => .ok ((s.set v (some a)).set u (some ⟨a.logger, none⟩), done)
    | _, _ => .ub
  | .assign v u =>
    match s.vars v, s.vars u with
    | some a, some b => if v = u then .ok (s, done) else .ok ((s.set v (some ⟨a.logger, b.files⟩)).set u (some ⟨b.logger, none⟩), done)
    | _, _ => .ub
  | .swap v u =>
    match s.vars v, s.vars u with
    | some a, some b => .ok ((s.set v (some ⟨a.logger, b.files⟩)).set u (some ⟨b.logger, a.files⟩), done)
    | _, _ => .ub
  | .open_ v f b can =>
    match s.vars v with
    | none => .ub
    | some a =>
      if can .master then
        if can .backup then
          .ok (((s.touch f).touch b).set v (some ⟨a.logger, some (f, b)⟩), ⟨.ok (none, (s.disk f).isSome || ((s.touch f).disk b).isSome), []⟩)
        else .ok ((s.touch f).set v (some ⟨a.logger, none⟩), if opt then ⟨.ok (none, false), [(a.logger, .notOpened)]⟩ else ⟨.throw .io, []⟩)
      else .ok (s.set v (some ⟨a.logger, none⟩), if opt then ⟨.ok (none, false), [(a.logger, .notOpened)]⟩ else ⟨.throw .io, []⟩)
  | .close v =>
    match s.vars v with
    | none => .ub
    | some a => .ok (s.set v (some ⟨a.logger, none⟩), done)
  | .destroy v =>
    match s.vars v with
    | none => .ub
    | some _ => .ok (s.set v none, done)
  | .save v c =>
    match s.vars v with
    | none => .ub
    | some ⟨_, some (f, b)⟩ => .ok (((s.write b c).write f c).write b [], done)
    | some ⟨_, none⟩ => .ok (s, if opt then done else ⟨.throw .io, []⟩)
  | .load v =>
    match s.vars v with
    | none => .ub
    | some ⟨l, some (f, b)⟩ =>
      if good (s.read b) then .ok ((s.write f (s.read b)).write b [], ⟨.ok (some (s.read b), true), [(l, .fromBackup)]⟩)
      else if good ((s.write b []).read f) then .ok (s.write b [], ⟨.ok (some ((s.write b []).read f), true), [(l, .notRead true)]⟩)
      else .ok (s.write b [], ⟨.ok (none, false), [(l, .notRead true), (l, .notRead false)]⟩)
    | some ⟨l, none⟩ => .ok (s, ⟨.throw .io, [(l, .notRead true)]⟩)
  | .isOpened v =>
    match s.vars v with
    | none => .ub
    | some a => .ok (s, ⟨.ok (none, a.files.isSome), []⟩)
  | .isEmpty v =>
    match s.vars v with
    | none => .ub
    | some ⟨_, some (f, b)⟩ => .ok (s, ⟨.ok (none, (s.read f).isEmpty && (s.read b).isEmpty), []⟩)
    | some ⟨_, none⟩ => .ok (s, ⟨.throw .io, []⟩)

def Spec.run (good : Bytes → Bool) (opt : Bool) : Spec → List Stmt → Res (Spec × List Seen)
  | s, [] => .ok (s, [])
  | s, p :: ps => do
    let (s, o) ← Spec.exec good opt s p
    let (s, os) ← Spec.run good opt s ps
    .ok (s, o :: os)

/-- No storage exists yet. -/
def Spec.start (disk : Nat → Option Bytes) : Spec := ⟨disk, fun _ => none⟩

end Verif.StorageMove
