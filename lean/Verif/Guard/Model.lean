import Verif.Common.Res

/-!
# Scope guards and owning pointers: `Awl/ScopeGuard.h`, `Awl/UniquePtr.h`

Objects have names (natural numbers).  Actions and pointees are numbers too.  A program is a list of operations; using a
name that does not exist (or creating one that does) is not a C++ program with a meaning and is `.ub`.
-/

namespace Verif.Guard

/-- A `scope_guard` object (Awl/ScopeGuard.h:53-55).  `free = none`: an empty `std::function`. -/
structure Guard where
  free : Option Nat
  engaged : Bool
deriving DecidableEq, Repr

/-- The guards that exist and the actions run so far, the last one first (Awl/ScopeGuard.h:38-44, 53-55). -/
structure State where
  guards : Nat → Option Guard
  log : List Nat

/-- No guard of Awl/ScopeGuard.h exists and nothing has run. -/
def State.init : State := ⟨fun _ => none, []⟩

/-- The object `g` is created, changed or destroyed (Awl/ScopeGuard.h:53-55, Awl/UniquePtr.h:118). -/
def set {α : Type} (f : Nat → Option α) (g : Nat) (x : Option α) : Nat → Option α := fun i => if i = g then x else f i

/-- What is left in `other.free` after `std::move(other.free)`: a lambda keeps its captures (references, pointers), a
`std::function` is empty (with the common implementations).  `std::function` is the case of `virtual_guard`
(Awl/ScopeGuard.h:75). -/
inductive Kind where
  | lambda
  | function
deriving DecidableEq, Repr

/-- What is left in `other.free` (Awl/ScopeGuard.h:26, 33). -/
def Kind.movedFrom : Kind → Option Nat → Option Nat
  | .lambda, f => f
  | .function, _ => none

/-- Operations on guards (Awl/ScopeGuard.h:18-49; the lines are in `step`). -/
inductive Op where
  | create (g a : Nat) (engaged : Bool)
  | release (g : Nat)
  | moveCtor (g h : Nat)     -- scope_guard g(std::move(h));
  | moveAssign (g h : Nat)   -- g = std::move(h);
  | destroy (g : Nat)
deriving DecidableEq, Repr

/-- One operation (Awl/ScopeGuard.h:18-49). -/
def step (k : Kind) (s : State) : Op → Res State
  | .create g a e =>      -- Awl/ScopeGuard.h:18-20
    match s.guards g with
    | some _ => .ub
    | none => .ok { s with guards := set s.guards g (some ⟨some a, e⟩) }
  | .release g =>         -- Awl/ScopeGuard.h:46-49
    match s.guards g with
    | none => .ub
    | some x => .ok { s with guards := set s.guards g (some { x with engaged := false }) }
  | .moveCtor g h =>      -- Awl/ScopeGuard.h:26-29, `engaged` has its default initializer (line 55)
    match s.guards g, s.guards h with
    | none, some y =>
      .ok { s with guards := set (set s.guards h (some ⟨k.movedFrom y.free, false⟩)) g (some ⟨y.free, true⟩) }
    | _, _ => .ub
  | .moveAssign g h =>    -- Awl/ScopeGuard.h:31-36; moving a function to itself leaves it as it is
    match s.guards g, s.guards h with
    | some x, some y =>
      if g = h then .ok { s with guards := set s.guards g (some { x with engaged := false }) }
      else .ok { s with
        guards := set (set s.guards g (some ⟨y.free, x.engaged⟩)) h (some ⟨k.movedFrom y.free, false⟩) }
    | _, _ => .ub
  | .destroy g =>         -- Awl/ScopeGuard.h:38-44
    match s.guards g with
    | none => .ub
    | some x =>
      if x.engaged then
        match x.free with
        | some a => .ok ⟨set s.guards g none, a :: s.log⟩
        | none => .throw .general     -- std::bad_function_call, in a destructor: std::terminate
      else .ok { s with guards := set s.guards g none }

/-- A program (Awl/ScopeGuard.h:13-56). -/
def run (k : Kind) : State → List Op → Res State
  | s, [] => .ok s
  | s, op :: ops => step k s op >>= fun s => run k s ops

/-! ## `unique_ptr` -/

/-- The pointers that exist (`some p` for a pointer object with `m_p = p`, `none` in it for `nullptr`), the objects alive,
and those deleted, the last one first (Awl/UniquePtr.h:118). -/
structure Ptrs where
  ptrs : Nat → Option (Option Nat)
  alive : List Nat
  deleted : List Nat

/-- No pointer of Awl/UniquePtr.h and no object exists. -/
def Ptrs.init : Ptrs := ⟨fun _ => none, [], []⟩

/-- Operations on pointers; the objects `p` are new ones (Awl/UniquePtr.h:24-124; the lines are at `pstep`). -/
inductive POp where
  | make (u p : Nat)         -- make_unique / unique_ptr(new T)
  | moveCtor (u w : Nat)
  | moveAssign (u w : Nat)
  | reset (u p : Nat)        -- u.reset(new T)
  | clear (u : Nat)          -- u.reset(nullptr)
  | release (u : Nat)        -- the caller now owns the object
  | destroy (u : Nat)
deriving DecidableEq, Repr

/-- `Destroy` (Awl/UniquePtr.h:113-116): `delete m_p`.  Deleting what is not alive is undefined. -/
def del (s : Ptrs) : Option Nat → Res Ptrs
  | none => .ok s
  | some p => if p ∈ s.alive then .ok { s with alive := s.alive.erase p, deleted := p :: s.deleted } else .ub

/-- One operation (Awl/UniquePtr.h: 24-30 constructors, 121-125 `make_unique`, 34-37 move constructor, 39-42 destructor, 66-73 move assignment, 95-100
`reset`, 102-109 `release`). -/
def pstep (s : Ptrs) : POp → Res Ptrs
  | .make u p =>
    match s.ptrs u with
    | some _ => .ub
    | none => if p ∈ s.alive ∨ p ∈ s.deleted then .ub else
      .ok ⟨set s.ptrs u (some (some p)), p :: s.alive, s.deleted⟩
  | .moveCtor u w =>
    match s.ptrs u, s.ptrs w with
    | none, some y => .ok { s with ptrs := set (set s.ptrs u (some y)) w (some none) }
    | _, _ => .ub
  | .moveAssign u w =>
    match s.ptrs u, s.ptrs w with
    | some x, some y => do
      let s ← del s x
      .ok { s with ptrs := set (set s.ptrs u (some y)) w (some none) }
    | _, _ => .ub
  | .reset u p =>
    match s.ptrs u with
    | none => .ub
    | some x => if p ∈ s.alive ∨ p ∈ s.deleted then .ub else do
      let s ← del { s with alive := p :: s.alive } x
      .ok { s with ptrs := set s.ptrs u (some (some p)) }
  | .clear u =>
    match s.ptrs u with
    | none => .ub
    | some x => do
      let s ← del s x
      .ok { s with ptrs := set s.ptrs u (some none) }
  | .release u =>
    match s.ptrs u with
    | none => .ub
    | some _ => .ok { s with ptrs := set s.ptrs u (some none) }
  | .destroy u =>
    match s.ptrs u with
    | none => .ub
    | some x => do
      let s ← del s x
      .ok { s with ptrs := set s.ptrs u none }

/-- A program (Awl/UniquePtr.h:19-119). -/
def prun : Ptrs → List POp → Res Ptrs
  | s, [] => .ok s
  | s, op :: ops => pstep s op >>= fun s => prun s ops

end Verif.Guard
