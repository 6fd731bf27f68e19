import Verif.VectorSet.PtrModel

/-!
# `awl::vector_set` with exceptions (Awl/VectorSet.h)

The functions of `PtrModel.lean` that call code of the user: the comparison (`m_comp`), the constructor of an element and
`allocate` of the allocator.  Every such call may throw.  `calls` says how many of them return before one throws;
an exception leaves the function, so there is no other one in the same call.

Simplifications: as in `PtrModel.lean`; destructors and `deallocate` do not throw; the allocator is `std::allocator`, so that
the `std::unique_ptr` of `emplace` frees a node as `DestroyNode` does (C131).
-/

namespace Verif.VectorSet.Heap

open Verif.VectorSet.Spec (Op Out)

/-- The memory, the blocks that have been taken in which there is no object (Awl/VectorSet.h:171, 178, 186), and the number of calls of the
user's code that return. -/
structure TS (α : Type) where
  mem : Mem α
  raw : List Nat
  calls : Nat

/-- Code that may throw: `none` is an exception that leaves it (Awl/VectorSet.h:169-188, 354-369, 614-638, 670-696, 753-806). -/
def T (α β : Type) := TS α → Res (Option β × TS α)

/-- One statement after another, up to an exception (Awl/VectorSet.h:169-188, 354-369, 614-638, 670-696, 753-806). -/
instance (α : Type) : Monad (T α) where
  pure b := fun t => .ok (some b, t)
  bind x f := fun t =>
    match x t with
    | .ok (some b, t') => f b t'
    | .ok (none, t') => .ok (none, t')
    | .throw e => .throw e
    | .ub => .ub

variable {α β : Type}

/-- Code without calls of the user's code (Awl/VectorSet.h:809-1189). -/
def T.lift (x : M α β) : T α β := fun t =>
  match x t.mem with
  | .ok (b, m) => .ok (some b, { t with mem := m })
  | .throw e => .throw e
  | .ub => .ub

/-- A call of the user's code: `m_comp(...)` or `allocate(1)` (Awl/VectorSet.h:171, 621, 626, 677, 682, 780). -/
def T.call : T α Unit := fun t =>
  match t.calls with
  | 0 => .ok (none, t)
  | n + 1 => .ok (some (), { t with calls := n })

/-- A `std::unique_ptr` around `x`: if an exception leaves `x`, the node is freed (Awl/VectorSet.h:359). -/
def T.orElse (x : T α β) (free : M α Unit) : T α β := fun t =>
  match x t with
  | .ok (none, t') =>
    match free t'.mem with
    | .ok (_, m) => .ok (none, { t' with mem := m })
    | .throw e => .throw e
    | .ub => .ub
  | r => r

/-- `FindNodeByKey`, Awl/VectorSet.h:614-638. -/
def findNodeByKeyT (klt elt : α → Bool) : Nat → Ptr → Ptr → T α (Ptr × Ptr)
  | 0, _, _ => T.lift M.ub
  | n + 1, x, par =>
    if x = none then pure (none, par) else do
      let c ← T.lift (rd x)
      T.call
      if klt c.value then findNodeByKeyT klt elt n c.left x
      else do
        T.call
        if elt c.value then findNodeByKeyT klt elt n c.right x else pure (x, par)

/-- `FindBoundByKey`, Awl/VectorSet.h:667-696. -/
def findBoundByKeyT (klt elt : α → Bool) : Nat → Ptr → Ptr → T α (Ptr × Bool)
  | 0, _, _ => T.lift M.ub
  | n + 1, x, greater =>
    if x = none then pure (greater, false) else do
      let c ← T.lift (rd x)
      T.call
      if klt c.value then findBoundByKeyT klt elt n c.left x
      else do
        T.call
        if elt c.value then findBoundByKeyT klt elt n c.right greater else pure (x, true)

/-- `new (node) Node(...)`, Awl/VectorSet.h:172, 179, 187: if the constructor throws, the block stays taken. -/
def construct (v : α) : T α Ptr := fun t =>
  match t.calls with
  | 0 => .ok (none, { t with mem := { t.mem with next := t.mem.next + 1 }, raw := t.mem.next :: t.raw })
  | n + 1 => T.lift (createNode v) { t with calls := n }

/-- `CreateNode`, Awl/VectorSet.h:169-188. -/
def createNodeT (v : α) : T α Ptr := do
  T.call
  construct v

/-- The new node below its parent, Awl/VectorSet.h:773-789: one comparison if there is a parent. -/
def placeNodeT (lt : α → α → Bool) (node parent : Ptr) : T α Unit :=
  if parent = none then T.lift (placeNode lt node parent)
  else do
    T.call
    T.lift (placeNode lt node parent)

/-- `InsertNode`, Awl/VectorSet.h:769-806. -/
def insertNodeT (lt : α → α → Bool) (node parent : Ptr) : T α Unit := do
  T.lift (wr node fun c => { c with parent := parent })
  placeNodeT lt node parent
  T.lift do
    setColor node .red
    balanceAfterInsert node
    setColor (← getRoot) .black
    linkInList (← getPredecessor node) node

/-- `UniversalInsert`, Awl/VectorSet.h:753-766. -/
def insertT (lt : α → α → Bool) (v : α) : T α (Ptr × Bool) := do
  let (node, parent) ← findNodeByKeyT (lt v) (fun u => lt u v) (← T.lift fuel) (← T.lift getRoot) none
  if node ≠ none then return (node, false)
  else
    let node ← createNodeT v
    insertNodeT lt node parent
    return (node, true)

/-- `emplace`, Awl/VectorSet.h:354-369: the node is made first, and freed if its key is there already. -/
def emplaceT (lt : α → α → Bool) (v : α) : T α (Ptr × Bool) := do
  let node ← createNodeT v
  let (found, parent) ← T.orElse (do findNodeByKeyT (lt v) (fun u => lt u v) (← T.lift fuel) (← T.lift getRoot) none) (destroyNode node)
  if found ≠ none then
    T.lift (destroyNode node)
    return (found, false)
  else
    insertNodeT lt node parent
    return (node, true)

/-- `find(key)`, Awl/VectorSet.h:382-391. -/
def findT (klt elt : α → Bool) : T α Ptr := do
  return (← findNodeByKeyT klt elt (← T.lift fuel) (← T.lift getRoot) none).1

/-- `erase(key)`, Awl/VectorSet.h:524-535. -/
def eraseKeyT (klt elt : α → Bool) : T α Nat := do
  let i ← findT klt elt
  if i ≠ none then
    T.lift (erase i)
    return 1
  else return 0

/-- `lower_bound`, Awl/VectorSet.h:430-439. -/
def lowerBoundT (klt elt : α → Bool) : T α Ptr := do
  return (← findBoundByKeyT klt elt (← T.lift fuel) (← T.lift getRoot) none).1

/-- `upper_bound`, Awl/VectorSet.h:442-467. -/
def upperBoundT (klt elt : α → Bool) : T α Ptr := do
  let (node, equal) ← findBoundByKeyT klt elt (← T.lift fuel) (← T.lift getRoot) none
  if equal then T.lift (nextIter node) else return node

/-- The calls of the public interface, Awl/VectorSet.h:343-546. -/
inductive Call (α : Type) where
  | plain (op : Op α)
  | emplace (v : α)

/-- One call (Awl/VectorSet.h:343-546). -/
def stepT (lt : α → α → Bool) : Call α → T α (Out α)
  | .plain (.insert v) => do
    let (p, isNew) ← insertT lt v
    return .inserted (← T.lift (rd p)).value isNew
  | .emplace v => do
    let (p, isNew) ← emplaceT lt v
    return .inserted (← T.lift (rd p)).value isNew
  | .plain (.eraseKey k) => do return .num (← eraseKeyT (lt k) (fun a => lt a k))
  | .plain (.contains k) => do return .bool ((← findT (lt k) (fun a => lt a k)) != none)
  | .plain (.find k) => do return .iter (← T.lift (deref (← findT (lt k) (fun a => lt a k))))
  | .plain (.lowerBound k) => do return .iter (← T.lift (deref (← lowerBoundT (lt k) (fun a => lt a k))))
  | .plain (.upperBound k) => do return .iter (← T.lift (deref (← upperBoundT (lt k) (fun a => lt a k))))
  | .plain op => T.lift (step lt op)

/-- A program that catches the exceptions: the calls, each with the number of calls of the user's code that return
(Awl/VectorSet.h:343-546). -/
def runT (lt : α → α → Bool) : List (Call α × Nat) → Mem α → List Nat → Res (List (Option (Out α)) × Mem α × List Nat)
  | [], m, raw => .ok ([], m, raw)
  | (c, n) :: l, m, raw =>
    match stepT lt c ⟨m, raw, n⟩ with
    | .ok (o, t) => do
      let (os, r) ← runT lt l t.mem t.raw
      .ok (o :: os, r)
    | .throw e => .throw e
    | .ub => .ub

end Verif.VectorSet.Heap
