import Verif.Common.Res

/-!
# The memory of `awl::vector_set` (Awl/VectorSet.h)

Which memory a set takes and gives back, and through which allocator.  The tree and the list are left out: of a node only the key and the address are kept, and a key is found
exactly if there is a node with it (C01).  Allocators are numbers: equal numbers compare equal, the number 0 is `std::allocator`, whose memory `delete` may free.  Taking memory succeeds.  The comparator
does not throw, the constructor of an element does if the key is bad.
-/

namespace Verif.VectorSet.Mem

/-- Awl/VectorSet.h:1207-1211: `m_alloc`, `m_nodeAlloc`, and the nodes in the list (key and address). -/
structure S where
  alloc : Nat
  node : Nat
  nodes : List (Nat × Nat)
deriving DecidableEq, Repr

/-- `get_allocator`, Awl/VectorSet.h:559-562. -/
def getAllocator (s : S) : Nat := s.alloc

/-- The sets that exist, the blocks that have been taken and not given back with the allocator they are from, and an address not used yet (Awl/VectorSet.h:1207-1211). -/
structure W where
  sets : Nat → Option S
  heap : Nat → Option Nat
  next : Nat

/-- No sets, no memory (before any constructor, Awl/VectorSet.h:223-271). -/
def W.init : W := ⟨fun _ => none, fun _ => none, 0⟩

/-- The set `i` becomes `s` (Awl/VectorSet.h:1207-1211). -/
def W.put (w : W) (i : Nat) (s : Option S) : W := { w with sets := fun j => if j = i then s else w.sets j }

/-- `m_nodeAlloc.allocate(1)`, Awl/VectorSet.h:171, 178, 186; the address is `w.next`. -/
def W.take (w : W) (a : Nat) : W := { w with heap := fun p => if p = w.next then some a else w.heap p, next := w.next + 1 }

/-- `deallocate(node, 1)` of the allocator `a`, Awl/VectorSet.h:194: undefined if the block is not taken, or from another allocator. -/
def W.give (w : W) (p a : Nat) : Res W :=
  if w.heap p = some a then .ok { w with heap := fun q => if q = p then none else w.heap q } else .ub

/-- What a step leaves: the world, and whether an exception was thrown (Awl/VectorSet.h:223-546). -/
abbrev Out := Res (W × Bool)

/-- `UniversalInsert`, Awl/VectorSet.h:753-766, with `CreateNode`, 169-181: if the constructor of the value throws, the block stays taken. -/
def insert (bad : Nat → Bool) (w : W) (i k : Nat) : Out :=
  match w.sets i with
  | none => .throw .logic
  | some s =>
    if s.nodes.any (·.1 == k) then .ok (w, false)
    else if bad k then .ok (w.take s.node, true)
    else .ok ((w.take s.node).put i (some { s with nodes := s.nodes ++ [(k, w.next)] }), false)

/-- `emplace`, Awl/VectorSet.h:354-369: the node is made first; if the key is there, `std::unique_ptr` deletes the node with `delete`. -/
def emplace (bad : Nat → Bool) (w : W) (i k : Nat) : Out :=
  match w.sets i with
  | none => .throw .logic
  | some s =>
    if bad k then .ok (w.take s.node, true)
    else if s.nodes.any (·.1 == k) then (w.take s.node).give w.next 0 >>= fun w => .ok (w, false)
    else .ok ((w.take s.node).put i (some { s with nodes := s.nodes ++ [(k, w.next)] }), false)

/-- `erase(key)`, Awl/VectorSet.h:524-535, with `DestroyNode`, 191-195. -/
def erase (w : W) (i k : Nat) : Out :=
  match w.sets i with
  | none => .throw .logic
  | some s =>
    match s.nodes.find? (·.1 == k) with
    | none => .ok (w, false)
    | some x => w.give x.2 s.node >>= fun w => .ok (w.put i (some { s with nodes := s.nodes.filter (fun y => y.2 != x.2) }), false)

/-- The loop of `clear`, Awl/VectorSet.h:539-543. -/
def giveAll (a : Nat) : List (Nat × Nat) → W → Res W
  | [], w => .ok w
  | x :: l, w => w.give x.2 a >>= giveAll a l

/-- `clear`, Awl/VectorSet.h:537-546. -/
def clear (w : W) (i : Nat) : Res W :=
  match w.sets i with
  | none => .throw .logic
  | some s => giveAll s.node s.nodes w >>= fun w => .ok (w.put i (some { s with nodes := [] }))

/-- `insert` of all keys, until one throws: Awl/VectorSet.h:247-250, 264, 1191-1197. -/
def insertAll (bad : Nat → Bool) (i : Nat) : List Nat → W → Out
  | [], w => .ok (w, false)
  | k :: l, w => insert bad w i k >>= fun r => if r.2 then .ok r else insertAll bad i l r.1

/-- The calls, Awl/VectorSet.h:223-546. -/
inductive Op where
  /-- `vector_set(comp, a)`, and `vector_set()` with the default allocator -/
  | new (i a : Nat)
  /-- `vector_set({ keys }, comp, a)` -/
  | newList (i a : Nat) (keys : List Nat)
  /-- `vector_set(first, last, comp, a)` -/
  | newRange (i a : Nat) (keys : List Nat)
  /-- `vector_set(other)`, `vector_set(std::move(other))` -/
  | newCopy (i j : Nat)
  | newMove (i j : Nat)
  | insert (i k : Nat)
  | emplace (i k : Nat)
  | erase (i k : Nat)
  | clear (i : Nat)
  | copy (i j : Nat)
  | move (i j : Nat)
  | destroy (i : Nat)
deriving DecidableEq, Repr

/-- An object that is being constructed exists as long as its constructor runs; if an exception leaves it, there is no object and no destructor runs (Awl/VectorSet.h:231-251). -/
def construct (bad : Nat → Bool) (w : W) (i : Nat) (s : S) (keys : List Nat) : Out :=
  if (w.sets i).isSome then .throw .logic
  else insertAll bad i keys (w.put i (some s)) >>= fun r => .ok (if r.2 then (r.1.put i none, true) else r)

/-- One call; `throw .logic`: the program makes no such call (an object that does not exist, or that exists already).  `d` is a default constructed allocator.
Awl/VectorSet.h:223-546. -/
def step (d : Nat) (bad : Nat → Bool) (w : W) : Op → Out
  -- 223-229
  | .new i a => construct bad w i ⟨a, a, []⟩ []
  -- 242-256: `m_nodeAlloc` has no initializer
  | .newList i a keys => construct bad w i ⟨a, d, []⟩ keys
  -- 258-271: the delegated constructor is through, so if a call of `insert` throws the destructor (273-276) runs
  | .newRange i a keys =>
    if (w.sets i).isSome then .throw .logic
    else
      insertAll bad i keys (w.put i (some ⟨a, a, []⟩)) >>= fun r =>
        if r.2 then clear r.1 i >>= fun w => .ok (w.put i none, true) else .ok r
  -- 231-234
  | .newCopy i j =>
    match w.sets j with
    | none => .throw .logic
    | some t => construct bad w i ⟨t.alloc, t.node, []⟩ (t.nodes.map (·.1))
  -- 236-240
  | .newMove i j =>
    match w.sets j with
    | none => .throw .logic
    | some t => if (w.sets i).isSome then .throw .logic else .ok ((w.put j (some { t with nodes := [] })).put i (some t), false)
  | .insert i k => Mem.insert bad w i k
  | .emplace i k => Mem.emplace bad w i k
  | .erase i k => Mem.erase w i k
  | .clear i => Mem.clear w i >>= fun w => .ok (w, false)
  -- 278-285
  | .copy i j =>
    Mem.clear w i >>= fun w =>
      match w.sets j with
      | none => .throw .logic
      | some t => insertAll bad i (t.nodes.map (·.1)) w
  -- 287-297
  | .move i j =>
    Mem.clear w i >>= fun w =>
      match w.sets j with
      | none => .throw .logic
      | some t => .ok ((w.put i (some t)).put j (some { t with nodes := if i = j then t.nodes else [] }), false)
  -- 273-276
  | .destroy i => Mem.clear w i >>= fun w => .ok (w.put i none, false)

/-- A program: the calls one after another, exceptions are caught (Awl/VectorSet.h:223-546).  The result tells which calls threw. -/
def run (d : Nat) (bad : Nat → Bool) : W → List Op → Res (W × List Bool)
  | w, [] => .ok (w, [])
  | w, op :: l => step d bad w op >>= fun r => run d bad r.1 l >>= fun r' => .ok (r'.1, r.2 :: r'.2)

end Verif.VectorSet.Mem
