import Verif.Common.Res

/-!
# `object_pool` with objects that use the pool themselves: `Awl/ObjectPool.h`, `Awl/PooledObject.h`

`Finalize` and the destructors of pooled objects are user code: they may drop pointers to other pooled objects (their members in particular), take objects from the pool and clear it.
The program is a sequence of acts; the stack says which of the functions of the pool and of the objects are running.  Objects are numbers.  A pointer variable belongs to the program
or is a member of an object.  One thread; the constructors of the objects do not use the pool; the pool is not destroyed (`c53_pool_first_violated`), `clear` is what its destructor does.
-/

namespace Verif.ObjectPool.Fin

/-- What is running: `Finalize` of an object (Awl/ObjectPool.h:73), the destructor of an object (58), the loop of `clear` (56-59). -/
inductive Frame where
  | fin (p : Nat)
  | del (p : Nat)
  | clearing
deriving DecidableEq, Repr

/-- A pointer variable: its name, the object it is a member of, the object it points to (the pointers made at Awl/ObjectPool.h:86). -/
structure Var where
  name : Nat
  owner : Option Nat
  obj : Nat
deriving DecidableEq, Repr

/-- What happens to an object: it is taken to be handed out (Awl/ObjectPool.h:26-35), its `Finalize` begins (73). -/
inductive Ev where
  | taken (p : Nat)
  | finalize (p : Nat)
deriving DecidableEq, Repr

/-- The pool (Awl/ObjectPool.h:91-92), the objects, the pointers, what is running (innermost first), and what happened (last first). -/
structure State where
  free : List Nat
  used : List Nat
  next : Nat
  deleted : List Nat
  vars : List Var
  stack : List Frame
  log : List Ev
deriving DecidableEq, Repr

/-- An empty pool (Awl/ObjectPool.h:91-92). -/
def State.init : State := ⟨[], [], 0, [], [], [], []⟩

/-- What user code does, and `ret`: the running function goes on to its next step or returns (Awl/ObjectPool.h:24-75). -/
inductive Act where
  | make (v : Nat) (owner : Option Nat)        -- v = pool.make();
  | makeFail                                   -- pool.make(), no memory for the counter of the shared_ptr (86): it throws
  | share (v : Nat) (owner : Option Nat) (w : Nat)   -- v = w;
  | drop (v : Nat)                             -- v.reset(), or v ends
  | clear                                      -- pool.clear();
  | ret
deriving DecidableEq, Repr

/-- The object `make` takes: a free one or a new one (Awl/ObjectPool.h:26-35). -/
def take (s : State) : Nat × State :=
  match s.free with
  | p :: fr => (p, { s with free := fr, log := .taken p :: s.log })
  | [] => (s.next, { s with next := s.next + 1, log := .taken s.next :: s.log })

/-- `Deleter` (Awl/ObjectPool.h:68-74): erased from `m_used`, put to the end of `m_free`, then `Finalize` begins. -/
def deleter (s : State) (p : Nat) : State :=
  { s with used := s.used.erase p, free := s.free ++ [p], stack := .fin p :: s.stack, log := .finalize p :: s.log }

/-- User code can run: outside, in `Finalize` or in a destructor (Awl/ObjectPool.h:58, 73). -/
def userCode : List Frame → Bool
  | .clearing :: _ => false
  | _ => true

/-- One act, none if it is not possible (no such variable, the name is taken, no user code running; Awl/ObjectPool.h:24-75). -/
def step (s : State) : Act → Option State
  | .make v o =>
    if userCode s.stack ∧ v ∉ s.vars.map (·.name) then
      let (p, s) := take s
      some { s with used := s.used ++ [p], vars := ⟨v, o, p⟩ :: s.vars }
    else none
  | .makeFail =>
    if userCode s.stack then
      let (p, s) := take s
      -- 42, then the constructor of shared_ptr calls the deleter and throws
      some (deleter { s with used := s.used ++ [p] } p)
    else none
  | .share v o w =>
    if userCode s.stack ∧ v ∉ s.vars.map (·.name) then
      match s.vars.find? (·.name == w) with
      | some x => some { s with vars := ⟨v, o, x.obj⟩ :: s.vars }
      | none => none
    else none
  | .drop v =>
    if userCode s.stack then
      match s.vars.find? (·.name == v) with
      | none => none
      | some x =>
        let s := { s with vars := s.vars.filter (·.name != v) }
        if s.vars.any (·.obj == x.obj) then some s else some (deleter s x.obj)
    else none
  | .clear => if userCode s.stack then some { s with stack := .clearing :: s.stack } else none
  | .ret =>
    match s.stack with
    | [] => none
    | .fin _ :: st => some { s with stack := st }
    -- the members have been destroyed before the memory of the object is given back
    | .del p :: st => if s.vars.any (·.owner == some p) then none else some { s with stack := st, deleted := p :: s.deleted }
    | .clearing :: st =>
      match s.free with
      | [] => some { s with stack := st }
      | p :: fr => some { s with free := fr, stack := .del p :: .clearing :: st }

/-- A history (Awl/ObjectPool.h:17-93). -/
def run : State → List Act → Option State
  | s, [] => some s
  | s, a :: l => (step s a).bind fun s => run s l

end Verif.ObjectPool.Fin
