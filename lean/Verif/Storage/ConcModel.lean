import Verif.Storage.Model

/-!
# `Save` with a mutex while other threads change the value: `Awl/Io/AtomicStorage.cpp`, `Awl/OptionalMutex.h`

Any number of threads change the value, a field at a time, while they hold the mutex; any number of threads save it, each to a storage of
its own, with the same mutex.  A step is one access to the memory, the mutex or a file.  The branch without a mutex
(AtomicStorage.cpp:40-45) is `save` and needs a value nobody changes.
-/

namespace Verif.Storage.Conc

/-- The memory of the value (Awl/Io/EuphoricallySerializable.h:90-91, `vector_vts` and `measure_vts` refer to it). -/
abbrev Mem := Nat → UInt8

/-- `Write` of the value reads its memory; where it reads next, or that it is done, depends on what it has read so far
(Awl/Io/EuphoricallySerializable.h:63, 86). -/
abbrev Next := List UInt8 → Option Nat

/-- Who holds the mutex (AtomicStorage.cpp:48). -/
inductive Who where
  | user (i : Nat)
  | saver (j : Nat)
deriving DecidableEq, Repr

/-- Where a thread is in `Save` (AtomicStorage.cpp:38-62). -/
inductive Phase where
  | idle
  | wants                          -- in the constructor of `unique_lock`, line 48
  | measuring (xs : List UInt8)    -- in `MeasureValue`, line 52 and Awl/Io/EuphoricallySerializable.h:82-89
  | copying (xs : List UInt8)      -- in `vector_vts.Write`, line 52 and Awl/Io/EuphoricallySerializable.h:63
  | writing (rest : Prog)          -- after `lock.unlock()`, lines 56-61
deriving DecidableEq, Repr

/-- The threads, the mutex, the value and the files of the storages (AtomicStorage.h:128-130). -/
structure State where
  mem : Mem
  owner : Option Who
  phase : Nat → Phase
  files : Nat → Files

/-- The value before anybody touches it, and the storages (AtomicStorage.h:27-34). -/
def init (m : Mem) (fs : Nat → Files) : State := ⟨m, none, fun _ => .idle, fs⟩

/-- The steps (AtomicStorage.cpp:38-62): those of the threads that change the value, then those of `Save`. -/
inductive Label where
  | lock (i : Nat)
  | write (i : Nat) (a : Nat) (b : UInt8)
  | unlock (i : Nat)
  | call (j : Nat)
  | acquire (j : Nat)
  | look (j : Nat)
  | measured (j : Nat)
  | read (j : Nat)
  | release (j : Nat)
  | io (j : Nat) (p : Which × Prim)
  | ret (j : Nat)
  | fail (j : Nat)                -- an exception leaves `Save`
deriving DecidableEq, Repr

/-- A thread goes on (AtomicStorage.cpp:38-62). -/
def State.goto (s : State) (j : Nat) (p : Phase) : State :=
  ⟨s.mem, s.owner, fun k => if k = j then p else s.phase k, s.files⟩

/-- `lock` and `unlock` (Awl/OptionalMutex.h:20-28). -/
def State.give (s : State) (w : Option Who) : State := ⟨s.mem, w, s.phase, s.files⟩

/-- One field of the value is changed (by the program that uses AtomicStorage.h:81). -/
def State.set (s : State) (a : Nat) (b : UInt8) : State := ⟨fun x => if x = a then b else s.mem x, s.owner, s.phase, s.files⟩

/-- One operation on a file of a storage (AtomicStorage.h:98-107, 121-126). -/
def State.file (s : State) (j : Nat) (p : Which × Prim) : State :=
  ⟨s.mem, s.owner, s.phase, fun k => if k = j then (s.files k).step p else s.files k⟩

/-- One step, if it is possible (AtomicStorage.cpp:38-62, the branch with a mutex).  An exception thrown while the lock is held is one of
`MeasureValue`, `reserve` or `Write`; the destructor of `unique_lock` unlocks then (AtomicStorage.cpp:48). -/
def step (next : Next) (fmt : Format (List UInt8)) (s : State) : Label → Option State
  | .lock i => if s.owner = none then some (s.give (some (.user i))) else none
  | .write i a b => if s.owner = some (.user i) then some (s.set a b) else none
  | .unlock i => if s.owner = some (.user i) then some (s.give none) else none
  | .call j => if s.phase j = .idle then some (s.goto j .wants) else none
  | .acquire j => if s.phase j = .wants ∧ s.owner = none then some ((s.goto j (.measuring [])).give (some (.saver j))) else none
  | .look j =>
    match s.phase j with
    | .measuring xs =>
      match next xs with
      | some a => some (s.goto j (.measuring (xs ++ [s.mem a])))
      | none => none
    | _ => none
  | .measured j =>
    match s.phase j with
    | .measuring xs => if next xs = none then some (s.goto j (.copying [])) else none
    | _ => none
  | .read j =>
    match s.phase j with
    | .copying xs =>
      match next xs with
      | some a => some (s.goto j (.copying (xs ++ [s.mem a])))
      | none => none
    | _ => none
  | .release j =>
    match s.phase j with
    | .copying xs => if next xs = none then some ((s.goto j (.writing (save fmt xs))).give none) else none
    | _ => none
  | .io j p =>
    match s.phase j with
    | .writing (q :: rest) => if q = p then some ((s.goto j (.writing rest)).file j p) else none
    | _ => none
  | .ret j => if s.phase j = .writing [] then some (s.goto j .idle) else none
  | .fail j =>
    match s.phase j with
    | .idle => none
    | .measuring _ => some ((s.goto j .idle).give none)
    | .copying _ => some ((s.goto j .idle).give none)
    | _ => some (s.goto j .idle)

end Verif.Storage.Conc
