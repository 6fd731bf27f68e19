import Verif.Serialize.Model

/-!
# Objects that are linked by `std::shared_ptr`, written and read: `Awl/Io/Rw/PointerReadWrite.h`

The type of the objects is `struct Node { uint32_t value; std::vector<std::shared_ptr<Node>> kids; }`, reflected, written
and read without a context (`Read` and `Write` of all parts of it are those of `Awl/Io/Rw`).

`Read` and `Write` of a pointer call those of the object, which call those of its pointers: each object that is being
written or read takes a part of the stack.  `stack` is the number of objects there is room for; if there is no room the
behaviour is undefined.

Simplifications: the stack that null pointers take is not counted; objects live as long as somebody refers to them, and
nobody looks at the ones that do not, so that they are not removed from the heap; `make_shared` does not fail.
-/

namespace Verif.Graph

open Serialize

/-- `std::shared_ptr<Node>`: null or the address of an object (Awl/Io/Rw/PointerReadWrite.h:18, 38). -/
abbrev Ptr := Option Nat

/-- `Node`, a type of the user (the `T` of Awl/Io/Rw/PointerReadWrite.h:15-47). -/
structure Node where
  value : Nat
  kids : List Ptr
deriving DecidableEq, Repr

/-- The objects that were made by `make_shared`, in the order they were made; the address is the number (Awl/Io/Rw/PointerReadWrite.h:30). -/
abbrev Heap := List Node

/-- The elements of the vector one after another, Awl/Io/Rw/VectorReadWrite.h:48-55. -/
def writeKids (wr : Ptr → Res (List UInt8)) : List Ptr → Res (List UInt8)
  | [] => .ok []
  | k :: ks => do
    let a ← wr k
    let b ← writeKids wr ks
    .ok (a ++ b)

/-- `Write` of a pointer, Awl/Io/Rw/PointerReadWrite.h:36-47, of the object (Awl/Io/Rw/TuplizableReadWrite.h:27-30, 71-83), of
its number (Awl/Io/Rw/ArithmeticReadWrite.h:27-35) and of its vector (Awl/Io/Rw/VectorReadWrite.h:107-117). -/
def writePtr (h : Heap) : Nat → Ptr → Res (List UInt8)
  | _, none => .ok [0]
  | 0, some _ => .ub
  | stack + 1, some a =>
    match h[a]? with
    | none => .ub
    | some n => do
      let ks ← writeKids (writePtr h stack) n.kids
      .ok (1 :: (leBytes 4 n.value ++ (leBytes 8 n.kids.length ++ ks)))

/-- `std::make_shared<T>(val)`, Awl/Io/Rw/PointerReadWrite.h:30. -/
def alloc (n : Node) : Rd Heap Ptr := fun c s => .ok (some c.length, c ++ [n], s)

/-- The elements of the vector one after another (they are null before), Awl/Io/Rw/VectorReadWrite.h:37-45, 102. -/
def readKids (rd : Rd Heap Ptr) : Nat → Rd Heap (List Ptr)
  | 0 => pure []
  | n + 1 => do
    let k ← rd
    let ks ← readKids rd n
    pure (k :: ks)

/-- `Read` of a pointer that is null, Awl/Io/Rw/PointerReadWrite.h:16-32, of the object, its number and its vector.  `cap` is the
number of elements up to which `resize` succeeds (Awl/Io/Rw/VectorReadWrite.h:102). -/
def readPtr (cap : Nat) : Nat → Rd Heap Ptr
  | 0 => do
    let b ← readRaw 1
    if leVal b = 0 then pure none else Rd.ub
  | stack + 1 => do
    let b ← readRaw 1
    if leVal b = 0 then pure none
    else do
      let v ← readRaw 4
      let n ← readSize
      if cap < n then Rd.fail .general
      else do
        let ks ← readKids (readPtr cap stack) n
        alloc ⟨leVal v, ks⟩

end Verif.Graph
