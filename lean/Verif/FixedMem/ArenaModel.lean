import Verif.FixedMem.Model

/-!
# A space that hands out memory: `Tests/Experimental/TrivialAllocator.h`

Only what C++ says is done with the memory counts: a pointer that is moved past the end of the memory is undefined
behaviour, as is `delete` for memory from `new[]`.
-/

namespace Verif.FixedMem

/-- The members of `TrivialSpace` (Tests/Experimental/TrivialAllocator.h:78-80) when there is a memory: the address of
`pBuf`, its bytes (`m_size` of them) and `m_p - pBuf`. -/
structure Space where
  addr : Nat
  bytes : List UInt8
  pos : Nat
deriving DecidableEq, Repr

/-- The constructor and `Reserve` (Tests/Experimental/TrivialAllocator.h:20-23, 41-47) of a space that has no memory yet:
`delete` of the null pointer does nothing. -/
def Space.create (addr size : Nat) : Space := ⟨addr, List.replicate size 0, 0⟩

/-- `GetLength` (Tests/Experimental/TrivialAllocator.h:62-65). -/
def Space.length (s : Space) : Nat := s.pos

/-- `IsFull` (Tests/Experimental/TrivialAllocator.h:67-70). -/
def Space.isFull (s : Space) : Bool := s.length == s.bytes.length

/-- `Allocate` (Tests/Experimental/TrivialAllocator.h:30-39): the place of the block and the space afterwards. -/
def Space.allocate (dbg : Bool) (s : Space) (n : Nat) : Out (Nat × Space) :=
  if dbg ∧ ¬ n ≤ s.bytes.length - s.length then .abort
  else if s.pos + n ≤ s.bytes.length then .ok (s.pos, ⟨s.addr, s.bytes, s.pos + n⟩)
  else .ub

/-- `TrivialAllocator<T>::allocate(n)` (Tests/Experimental/TrivialAllocator.h:101-104), `sz` is `sizeof(T)`; the product
is a `size_t`.  (`deallocate`, :106-108, does nothing.) -/
def Space.allocateObjects (dbg : Bool) (s : Space) (n sz : Nat) : Out (Nat × Space) :=
  s.allocate dbg (n * sz % 2 ^ 64)

/-- `Reset` (Tests/Experimental/TrivialAllocator.h:72-76). -/
def Space.reset (s : Space) : Space := ⟨s.addr, List.replicate s.bytes.length 0, 0⟩

/-- A block of the heap: its address and whether it comes from `new[]` (Tests/Experimental/TrivialAllocator.h:45). -/
structure Block where
  addr : Nat
  array : Bool
deriving DecidableEq, Repr

/-- `delete p` (`array = false`) and `delete[] p` (`array = true`); nothing for the null pointer, undefined for anything
but a block that comes from the `new` of the same form (Tests/Experimental/TrivialAllocator.h:51). -/
def delete (array : Bool) (heap : List Block) : Option Nat → Out (List Block)
  | none => .ok heap
  | some p => if ⟨p, array⟩ ∈ heap then .ok (heap.erase ⟨p, array⟩) else .ub

/-- `Clear` (Tests/Experimental/TrivialAllocator.h:49-55) for the pointer `pBuf`; also the destructor (:25-28). -/
def clear (heap : List Block) (pBuf : Option Nat) : Out (List Block) := delete false heap pBuf

/-- `Reserve` (Tests/Experimental/TrivialAllocator.h:41-47) for the pointer `pBuf`; `fresh` is the address that
`new uint8_t[size]` gives.  The constructor (:20-23) is `Reserve` with no memory yet. -/
def reserve (heap : List Block) (pBuf : Option Nat) (fresh : Nat) : Out (List Block × Option Nat) :=
  (clear heap pBuf).bind fun h => .ok (⟨fresh, true⟩ :: h, some fresh)

/-- A space that is made, gets the given further calls of `Reserve` (with the addresses that `new` gives) and is
destroyed (Tests/Experimental/TrivialAllocator.h:20-28, 41-47). -/
def lifetime (heap : List Block) (fresh : Nat) (more : List Nat) : Out (List Block) :=
  let rec go (heap : List Block) (pBuf : Option Nat) : List Nat → Out (List Block)
    | [] => clear heap pBuf
    | f :: fs => (reserve heap pBuf f).bind fun r => go r.1 r.2 fs
  go heap none (fresh :: more)

/-- A caller stores a byte through a pointer that it got (Tests/Experimental/TrivialAllocator.h:38). -/
def Space.store (s : Space) (i : Nat) (v : UInt8) : Out Space :=
  if i < s.bytes.length then .ok ⟨s.addr, s.bytes.set i v, s.pos⟩ else .ub

/-- A caller loads a byte through a pointer that it got (Tests/Experimental/TrivialAllocator.h:38). -/
def Space.load (s : Space) (i : Nat) : Out UInt8 :=
  if h : i < s.bytes.length then .ok s.bytes[i] else .ub

/-- What a program with one space does.  The blocks are numbered from the last `Reset` on (Tests/Experimental/TrivialAllocator.h:30-39, 72-76). -/
inductive ACmd where
  | alloc (n sz : Nat)                 -- `allocate(n)` for objects of `sz` bytes
  | store (k i : Nat) (v : UInt8)      -- the byte `i` of the block `k`
  | load (k i : Nat)
  | length
  | full
  | reset
deriving DecidableEq, Repr

/-- What it sees (Tests/Experimental/TrivialAllocator.h:30-39, 62-70). -/
inductive Obs where
  | none
  | byte (v : UInt8)
  | number (n : Nat)
  | flag (b : Bool)
deriving DecidableEq, Repr

/-- The space and the places of the blocks that the program has got since the last `Reset` (Tests/Experimental/TrivialAllocator.h:30-39, 72-76). -/
structure AState where
  space : Space
  blocks : List Nat
deriving DecidableEq, Repr

/-- One call (Tests/Experimental/TrivialAllocator.h:30-39, 62-76); a block that there is not is a mistake of the program. -/
def astep (dbg : Bool) (s : AState) : ACmd → Out (AState × Obs)
  | .alloc n sz => (s.space.allocateObjects dbg n sz).bind fun r => .ok (⟨r.2, s.blocks ++ [r.1]⟩, .none)
  | .store k i v =>
    match s.blocks[k]? with
    | some p => (s.space.store (p + i) v).bind fun sp => .ok (⟨sp, s.blocks⟩, .none)
    | none => .ub
  | .load k i =>
    match s.blocks[k]? with
    | some p => (s.space.load (p + i)).bind fun v => .ok (s, .byte v)
    | none => .ub
  | .length => .ok (s, .number s.space.length)
  | .full => .ok (s, .flag s.space.isFull)
  | .reset => .ok (⟨s.space.reset, []⟩, .none)

/-- A program (Tests/Experimental/TrivialAllocator.h:13-83). -/
def arun (dbg : Bool) (s : AState) : List ACmd → Out (AState × List Obs)
  | [] => .ok (s, [])
  | c :: cs => (astep dbg s c).bind fun r => (arun dbg r.1 cs).bind fun q => .ok (q.1, r.2 :: q.2)

end Verif.FixedMem
