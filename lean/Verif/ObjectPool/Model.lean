import Verif.Common.Res

/-!
# `object_pool`: `Awl/ObjectPool.h`

Objects are numbers.  The two intrusive lists are lists of objects (their own properties are proved for `quick_list`, see
`Verif.QuickList`).  Pointer variables hold `shared_ptr`s; the reference count of an object is the number of variables that
point to it.  One thread; `Finalize` does not use the pool; `assert` is compiled out.
-/

namespace Verif.ObjectPool

/-- The pool (Awl/ObjectPool.h:91-92), the objects and the pointers. -/
structure State where
  free : List Nat             -- m_free
  used : List Nat             -- m_used
  next : Nat                  -- the next object `new` gives
  deleted : List Nat
  pool : Bool                 -- the pool exists
  vars : List (Nat × Nat)     -- pointer variable, object

/-- An empty pool (Awl/ObjectPool.h:91-92). -/
def State.init : State := ⟨[], [], 0, [], true, []⟩

/-- What a program does (Awl/ObjectPool.h:24-60, 84-87). -/
inductive Op where
  | make (v : Nat)            -- auto v = pool.make();
  | share (v w : Nat)         -- auto v = w;
  | drop (v : Nat)            -- v.reset(), or the end of its scope
  | clear                     -- pool.clear();
  | destroy                   -- ~object_pool()
deriving DecidableEq, Repr

/-- The object a variable points to (the pointers made at Awl/ObjectPool.h:86). -/
def State.get (s : State) (v : Nat) : Option Nat := (s.vars.find? (·.1 == v)).map (·.2)

/-- `make` (Awl/ObjectPool.h:24-45), with `add` and `MakePointer` (84-87). -/
def make (s : State) (v : Nat) : State :=
  match s.free with
  | p :: free => { s with free := free, used := s.used ++ [p], vars := (v, p) :: s.vars }
  | [] => { s with next := s.next + 1, used := s.used ++ [s.next], vars := (v, s.next) :: s.vars }

/-- `Deleter` (Awl/ObjectPool.h:64-75): called for the object when its last pointer goes away.  `p_this` dangles if the
pool does not exist any more. -/
def finalize (s : State) (p : Nat) : Res State :=
  if s.pool then .ok { s with used := s.used.erase p, free := s.free ++ [p] } else .ub

/-- `clear` (Awl/ObjectPool.h:54-60). -/
def clear (s : State) : State := { s with free := [], deleted := s.deleted ++ s.free }

/-- One operation.  Using a variable or a pool that does not exist is no C++ program: `.ub` (Awl/ObjectPool.h:24-75). -/
def step (s : State) : Op → Res State
  | .make v =>
    match s.get v with
    | some _ => .ub
    | none => if s.pool then .ok (make s v) else .ub
  | .share v w =>
    match s.get v, s.get w with
    | none, some p => .ok { s with vars := (v, p) :: s.vars }
    | _, _ => .ub
  | .drop v =>
    match s.get v with
    | none => .ub
    | some p =>
      let s' := { s with vars := s.vars.filter (·.1 != v) }
      if s'.vars.any (·.2 == p) then .ok s' else finalize s' p
  | .clear => if s.pool then .ok (clear s) else .ub
  | .destroy => if s.pool then .ok { clear s with pool := false } else .ub    -- Awl/ObjectPool.h:47-52

/-- A history of operations (Awl/ObjectPool.h:17-93). -/
def run : State → List Op → Res State
  | s, [] => .ok s
  | s, op :: ops => step s op >>= fun s => run s ops

end Verif.ObjectPool
