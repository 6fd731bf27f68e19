import Verif.Common.Res

/-!
# Shared handles of Windows

`Platforms/Windows/Awl/Io/SharedHandle.h`.  The table of open handles of the process is a map from handles to kernel objects; `CloseHandle` and `DuplicateHandle`
are modelled after their documentation: a duplicate is a new handle of the same object; `INVALID_HANDLE_VALUE` (-1) given to `DuplicateHandle` is the pseudo
handle of the current process; a handle that is not open, or a lack of resources, makes it fail, and then the target is not written.  A new handle may have the
value of a closed one.  `assert` does nothing (a release build).
-/

namespace Verif.SharedHandle

/-- The value of `m_h` (SharedHandle.h:94, 108; `uninit`: the constructor of 28-31 does not initialize it). -/
inductive Hd where
  | null                 -- INVALID_HANDLE_VALUE
  | h (n : Nat)
  | uninit               -- never written
deriving DecidableEq, Repr

/-- Kernel objects (what `CreateFile` and `GetCurrentProcess`, SharedHandle.h:98, refer to). -/
inductive Obj where
  | process              -- the current process
  | file (f : Nat)
deriving DecidableEq, Repr

/-- Open handles and the `SharedHandle` variables that exist (SharedHandle.h:14-106). -/
structure St where
  tab : Nat → Option Obj := fun _ => none
  vars : Nat → Option Hd := fun _ => none

/-- No handle is open and there are no variables (SharedHandle.h:14-106). -/
def init : St := {}

/-- One entry is replaced (the assignments of SharedHandle.h). -/
def upd {β : Type} (f : Nat → β) (i : Nat) (x : β) : Nat → β := fun j => if j = i then x else f j

/-- `CloseHandle`: what is not open is not closed (the result, an error, is only asserted) (SharedHandle.h:78-81). -/
def closeHandle (s : St) (n : Nat) : St := { s with tab := upd s.tab n none }

/-- `Close`, SharedHandle.h:74-85. -/
def close (s : St) (v : Nat) : Res St :=
  match s.vars v with
  | some .null => .ok s
  | some (.h n) => .ok { closeHandle s n with vars := upd s.vars v (some .null) }
  | _ => .ub

/-- What `DuplicateHandle` of the value `x` refers to (SharedHandle.h:100-101). -/
def target (s : St) : Hd → Option Obj
  | .null => some .process
  | .h n => s.tab n
  | .uninit => none

/-- `Duplicate`, SharedHandle.h:96-105, of the value `x` into the variable `v`; `new`: the new handle, `none` if there are not enough resources. -/
def duplicate (s : St) (v : Nat) (x : Hd) (new : Option Nat) : Res St :=
  match x with
  | .uninit => .ub
  | x =>
    match target s x, new with
    | some o, some n => .ok { s with tab := upd s.tab n (some o), vars := upd s.vars v (some (.h n)) }
    | _, _ => .ok s

/-- The calls (SharedHandle.h:18-85). -/
inductive Op where
  | empty (v : Nat)                             -- :18-21
  | adopt (v n f : Nat)                         -- the handle n of the file f is opened and given to the constructor, :23-26
  | copy (v w : Nat) (new : Option Nat)         -- v is constructed from w, :28-31
  | move (v w : Nat)                            -- :33-37
  | assign (v w : Nat) (new : Option Nat)       -- v = w, :44-51
  | moveAssign (v w : Nat)                      -- :53-62
  | close (v : Nat)                             -- :74-85
  | destroy (v : Nat)                           -- :39-42
deriving Repr

/-- The call is possible: constructed variables do not exist yet, the others do; a new handle is not open (of SharedHandle.h:18-85). -/
def Possible (s : St) : Op → Prop
  | .empty v => s.vars v = none
  | .adopt v n _ => s.vars v = none ∧ s.tab n = none
  | .copy v w new => s.vars v = none ∧ s.vars w ≠ none ∧ ∀ n, new = some n → s.tab n = none
  | .move v w => s.vars v = none ∧ s.vars w ≠ none
  | .assign v w new => s.vars v ≠ none ∧ s.vars w ≠ none ∧ ∀ n, new = some n → s.tab n = none
  | .moveAssign v w => s.vars v ≠ none ∧ s.vars w ≠ none
  | .close v => s.vars v ≠ none
  | .destroy v => s.vars v ≠ none

/-- The value of a variable (`m_h`, SharedHandle.h:94). -/
def val (s : St) (v : Nat) : Hd := (s.vars v).getD .uninit

/-- One call (SharedHandle.h:18-85). -/
def step (s : St) : Op → Res St
  | .empty v => .ok { s with vars := upd s.vars v (some .null) }
  | .adopt v n f => .ok { s with tab := upd s.tab n (some (.file f)), vars := upd s.vars v (some (.h n)) }
  | .copy v w new => duplicate { s with vars := upd s.vars v (some .uninit) } v (val s w) new
  | .move v w =>
    match val s w with
    | .uninit => .ub
    | x => .ok { s with vars := upd (upd s.vars v (some x)) w (some .null) }
  | .assign v w new =>
    (close s v).bind fun s1 => duplicate s1 v (val s1 w) new
  | .moveAssign v w =>
    (close s v).bind fun s1 =>
      match val s1 w with
      | .uninit => .ub
      | x => .ok { s1 with vars := upd (upd s1.vars v (some x)) w (some .null) }
  | .close v => close s v
  | .destroy v => (close s v).bind fun s1 => .ok { s1 with vars := upd s1.vars v none }

/-- A history of possible calls (SharedHandle.h:18-85). -/
def run (s : St) : List Op → Res St
  | [] => .ok s
  | op :: ops => (step s op).bind fun s1 => run s1 ops

/-- All calls of the history are possible when they are made (of SharedHandle.h:18-85). -/
def PossibleAll (s : St) : List Op → Prop
  | [] => True
  | op :: ops => Possible s op ∧ ∀ s1, step s op = .ok s1 → PossibleAll s1 ops

end Verif.SharedHandle
