import Verif.Common.Res

/-!
# Objects that are destroyed explicitly: `Tests/Experimental/Destructible.h`

A `Destructible<T>` is raw memory with a `T` in it.  Variables of this type are named by numbers, the objects of type `T` are numbered as they are constructed.  `log` is what an
observer inside of `T` sees: its constructors and destructors, last first.
-/

namespace Verif.Destructible

open Verif

/-- What the constructors and the destructor of `T` tell (Destructible.h:23, 29, 34, 39, 44). -/
inductive Event where
  | ctor (n : Nat)
  | dtor (n : Nat)
deriving DecidableEq, Repr

/-- `m_storage` (Destructible.h:74): the object whose bytes it has, and whether an object of type `T` lives in it. -/
structure Cell where
  obj : Nat
  alive : Bool
deriving DecidableEq, Repr

/-- The variables of type `Destructible<T>` (Destructible.h:16-75), and the objects made so far. -/
structure State where
  vars : Nat → Option Cell
  next : Nat
  log : List Event

/-- Before the first variable (Destructible.h:16-75). -/
def init : State := ⟨fun _ => none, 0, []⟩

/-- One variable is replaced (Destructible.h:74). -/
def upd (f : Nat → Option Cell) (i : Nat) (v : Option Cell) : Nat → Option Cell := fun j => if j = i then v else f j

/-- What a program does (Destructible.h:21-59). -/
inductive Op where
  | make (w : Nat) (ok : Bool)    -- the variable is defined; not `ok`: the constructor of `T` throws
  | destroy (w : Nat)             -- `Destroy`
  | use (w : Nat)                 -- `operator ->` or `operator T *`, and the object is used
  | leave (w : Nat)               -- the variable goes out of scope
  | copy (w v : Nat)              -- the variable `w` is defined as a copy of the constant `v`
  | assign (w v : Nat)            -- `w = v`
deriving DecidableEq, Repr

/-- What the program gets (Destructible.h:21-59). -/
inductive Out where
  | done
  | thrown
  | object (n : Nat)
deriving DecidableEq, Repr

/-- The constructors, Destructible.h:21-40 (one argument or none: `std::forward<Args...>` does not compile for more). -/
def make (s : State) (w : Nat) (ok : Bool) : State × Out :=
  if ok then ({ vars := upd s.vars w (some ⟨s.next, true⟩), next := s.next + 1, log := .ctor s.next :: s.log }, .done) else (s, .thrown)

/-- `get()`, Destructible.h:63-66: `std::launder` needs an object that lives. -/
def get (s : State) (w : Nat) : Res Nat :=
  match s.vars w with
  | none => .ub
  | some c => if c.alive then .ok c.obj else .ub

/-- `Destroy`, Destructible.h:42-45. -/
def destroy (s : State) (w : Nat) : Res State :=
  get s w >>= fun n => .ok { s with vars := upd s.vars w (some ⟨n, false⟩), log := .dtor n :: s.log }

/-- The implicit copy constructor and copy assignment (there is none in Destructible.h:16-75; lines 37-40 and the template at 26-30 are chosen only for arguments that are not
constant): the bytes are copied.  An object of a type that is not trivially copyable does not come to life by this, and one that lived where the bytes are written is taken not to
live any more. -/
def copyBytes (trivial : Bool) (s : State) (w : Nat) (c : Cell) : State :=
  { s with vars := upd s.vars w (some ⟨c.obj, trivial && c.alive⟩) }

/-- One step of the program (Destructible.h:16-75).  A variable is defined once and used while it is in scope, otherwise it is not a program (`logic`).  `~Destructible`
(57-59) does nothing. -/
def step (trivial : Bool) (s : State) : Op → Res (State × Out)
  | .make w ok => if s.vars w ≠ none then .throw .logic else .ok (make s w ok)
  | .destroy w => if s.vars w = none then .throw .logic else destroy s w >>= fun s => .ok (s, .done)
  | .use w => if s.vars w = none then .throw .logic else get s w >>= fun n => .ok (s, .object n)
  | .leave w => if s.vars w = none then .throw .logic else .ok ({ s with vars := upd s.vars w none }, .done)
  | .copy w v =>
    match s.vars w, s.vars v with
    | none, some c => .ok (copyBytes trivial s w c, .done)
    | _, _ => .throw .logic
  | .assign w v =>
    match s.vars w, s.vars v with
    | some _, some c => .ok (copyBytes trivial s w c, .done)
    | _, _ => .throw .logic

/-- A program (Destructible.h:16-75); the results are in order. -/
def run (trivial : Bool) : State → List Op → Res (State × List Out)
  | s, [] => .ok (s, [])
  | s, op :: ops => step trivial s op >>= fun r => run trivial r.1 ops >>= fun q => .ok (q.1, r.2 :: q.2)

end Verif.Destructible
