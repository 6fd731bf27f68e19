import Verif.Common.Res

/-!
# Model of `awl::ring` (Awl/Ring.h)

Pointers into the buffer are modelled as offsets from `m_buf`.  A slot of the buffer is `some x` when it holds a
constructed element and `none` when it is raw memory.  Reading or destroying raw memory, or accessing an offset
outside of the buffer, is undefined behaviour (`Res.ub`).

Simplifications: element copy/move constructors do not throw and a moved-from element is not distinguished from the
original until it is destroyed (nobody reads it); allocation does not fail; `size_t` is unbounded; addresses are numbers, so that
forming a pointer far behind the buffer is no undefined behaviour here (Ring/PtrProps.lean is about that).
-/

namespace Verif.Ring

/-- Awl/Ring.h:576-582, the members of `ring`.  `buf = none` is `m_buf == nullptr`; `data` is `m_data - m_buf`. -/
structure Ring (α : Type) where
  buf : Option (Nat → Option α)
  cap : Nat
  data : Nat
  size : Nat

variable {α : Type}

/-- One slot of the buffer is overwritten (the placement new and the destructor calls of Awl/Ring.h:255, 293-308, 315, 326, 506, 526). -/
def setSlot (s : Nat → Option α) (p : Nat) (v : Option α) : Nat → Option α :=
  fun q => if q = p then v else s q

/-- Awl/Ring.h:184-189, `ring(size_type cap)`: raw buffer, no elements. -/
def make (cap : Nat) : Ring α := ⟨some (fun _ => none), cap, 0, 0⟩

namespace Ring

/-- Dereferencing a pointer to an element: the buffer must exist, the offset must be inside of it and the slot must
hold a constructed element (Awl/Ring.h:52-54, 285-289, 353, 358). -/
def deref (r : Ring α) (p : Nat) : Res α :=
  match r.buf with
  | none => .ub
  | some s => if p < r.cap then (match s p with | some x => .ok x | none => .ub) else .ub

/-- `p->~T()`: the same precondition as dereferencing, the slot becomes raw memory (Awl/Ring.h:315, 326, 506, 526). -/
def destroy (r : Ring α) (p : Nat) : Res (Ring α) :=
  match r.buf with
  | none => .ub
  | some s =>
    if p < r.cap then
      match s p with
      | some _ => .ok { r with buf := some (setSlot s p none) }
      | none => .ub
    else .ub

/-- `new (p) T(val)`: the pointer must be inside of the buffer.  Constructing over a live element would leak it; the
code never does, and the model makes that `ub` so that the theorems cover it (Awl/Ring.h:255, 293, 298, 303, 308). -/
def construct (r : Ring α) (p : Nat) (x : α) : Res (Ring α) :=
  match r.buf with
  | none => .ub
  | some s =>
    if p < r.cap then
      match s p with
      | none => .ok { r with buf := some (setSlot s p (some x)) }
      | some _ => .ub
    else .ub

/-- Awl/Ring.h:442-450 with adjust_overflow 427-440: `m_data + pos`, minus the capacity if beyond the end. -/
def address (r : Ring α) (pos : Nat) : Nat :=
  let p := r.data + pos
  if p ≥ r.cap then p - r.cap else p

/-- Awl/Ring.h:470-482. -/
def next (r : Ring α) (p : Nat) : Nat := if p + 1 = r.cap then 0 else p + 1

/-- Awl/Ring.h:484-496. -/
def prev (r : Ring α) (p : Nat) : Nat := (if p = 0 then r.cap else p) - 1

/-- Awl/Ring.h:341-344. -/
def empty (r : Ring α) : Bool := r.size == 0

/-- Awl/Ring.h:346-349. -/
def full (r : Ring α) : Bool := r.size == r.cap

/-- Awl/Ring.h:336-339. -/
def capacity (r : Ring α) : Nat := r.cap

/-- Awl/Ring.h:498-516: returns the address to construct the new last element at. -/
def allocateNext (r : Ring α) : Res (Ring α × Nat) :=
  let pWrite := r.address r.size
  if r.full then do
    let r' ← r.destroy r.data
    .ok ({ r' with data := r'.next r'.data }, pWrite)
  else
    .ok ({ r with size := r.size + 1 }, pWrite)

/-- Awl/Ring.h:518-534: returns the address to construct the new first element at. -/
def allocatePrev (r : Ring α) : Res (Ring α × Nat) :=
  let savedFull := r.full
  let r1 := { r with data := r.prev r.data }
  if savedFull then do
    let r2 ← r1.destroy r1.data
    .ok (r2, r2.data)
  else
    .ok ({ r1 with size := r1.size + 1 }, r1.data)

/-- Awl/Ring.h:301-309 for an argument that does not live in the ring. -/
def pushBack (r : Ring α) (x : α) : Res (Ring α) := do
  let (r', p) ← r.allocateNext
  r'.construct p x

/-- Awl/Ring.h:291-299 for an argument that does not live in the ring. -/
def pushFront (r : Ring α) (x : α) : Res (Ring α) := do
  let (r', p) ← r.allocatePrev
  r'.construct p x

/-- Awl/Ring.h:301-304 `push_back(const T& val)` where `val` refers to the element of this ring in slot `q`: the
argument is read after `allocate_next` has run. -/
def pushBackSelf (r : Ring α) (q : Nat) : Res (Ring α) := do
  let (r', p) ← r.allocateNext
  let x ← r'.deref q
  r'.construct p x

/-- Awl/Ring.h:291-294 `push_front(const T& val)` where `val` refers to the element of this ring in slot `q`. -/
def pushFrontSelf (r : Ring α) (q : Nat) : Res (Ring α) := do
  let (r', p) ← r.allocatePrev
  let x ← r'.deref q
  r'.construct p x

/-- Awl/Ring.h:311-320.  `--m_size` of an empty ring wraps around; destroying the (raw) slot is `ub` before that. -/
def popFront (r : Ring α) : Res (Ring α) := do
  let r' ← r.destroy r.data
  .ok { r' with data := r'.next r'.data, size := r'.size - 1 }

/-- Awl/Ring.h:457-461 `last()`, for a non-empty ring; with size 0 `size() - 1` wraps around and the resulting
pointer is far outside of the buffer. -/
def last (r : Ring α) : Option Nat :=
  if r.size = 0 then none else some (r.address (r.size - 1))

/-- Awl/Ring.h:322-329. -/
def popBack (r : Ring α) : Res (Ring α) :=
  match r.last with
  | none => .ub
  | some p => do
    let r' ← r.destroy p
    .ok { r' with size := r'.size - 1 }

/-- The loop of Awl/Ring.h:276-279, `while (!empty()) pop_front();`.  The loop runs as many times as there are
elements: `n` is the size at the start. -/
def popAll (r : Ring α) : Nat → Res (Ring α)
  | 0 => .ok r
  | n + 1 => do
    let r' ← r.popFront
    r'.popAll n

/-- Awl/Ring.h:272-283. -/
def clear (r : Ring α) : Res (Ring α) :=
  match r.buf with
  | none => .ub
  | some _ => do
    let r' ← r.popAll r.size
    .ok { r' with data := 0, size := 0 }

/-- The deallocation in Awl/Ring.h:542.  Deallocating while an element is alive would leak it; the code never does, and
the model makes that `ub` so that the theorems cover it. -/
def dealloc (r : Ring α) : Res (Ring α) :=
  match r.buf with
  | none => .ub
  | some s => if (List.range r.cap).all (fun p => (s p).isNone) then .ok { r with buf := none } else .ub

/-- Awl/Ring.h:536-546. -/
def free (r : Ring α) : Res (Ring α) :=
  match r.buf with
  | none => .ok r
  | some _ => do
    let r' ← r.clear
    r'.dealloc

/-- Awl/Ring.h:351-359. -/
def get (r : Ring α) (i : Nat) : Res α := r.deref (r.address i)

/-- Awl/Ring.h:361-373 with check_index 393-399 (`index > size()` is the only rejected case). -/
def at_ (r : Ring α) (i : Nat) : Res α :=
  if i > r.size then .throw .outOfRange else r.get i

/-- Awl/Ring.h:285, 288. -/
def front (r : Ring α) : Res α := r.deref r.data

/-- Awl/Ring.h:286, 289. -/
def back (r : Ring α) : Res α :=
  match r.last with
  | none => .ub
  | some p => r.deref p

/-- The copying loop of Awl/Ring.h:253-256: move `n` elements starting with logical index `from` of the old buffer to
the slots `i, i+1, ...` of the new buffer. -/
def moveLoop (r : Ring α) (start : Nat) (i : Nat) (dst : Nat → Option α) : Nat → Res (Nat → Option α)
  | 0 => .ok dst
  | n + 1 => do
    let x ← r.get (start + i)
    r.moveLoop start (i + 1) (setSlot dst i (some x)) n

/-- Awl/Ring.h:241-270. -/
def reserve (r : Ring α) (cap : Nat) : Res (Ring α) :=
  match r.buf with
  | none => .ok ⟨some (fun _ => none), cap, 0, 0⟩
  | some _ => do
    let minSize := min cap r.size
    let dst ← r.moveLoop (r.size - minSize) 0 (fun _ => none) minSize
    let _ ← r.free
    .ok ⟨some dst, cap, 0, minSize⟩

/-- A pass over an iterator range, Awl/Ring.h:33-170, 375-389: the iterator is the pair of the ring and a logical
position; `n` positions starting with `i` are dereferenced in increasing order. -/
def iterate (r : Ring α) (i : Nat) : Nat → Res (List α)
  | 0 => .ok []
  | n + 1 => do
    let x ← r.get i
    let xs ← r.iterate (i + 1) n
    .ok (x :: xs)

/-- The elements visited from `begin()` to `end()`, Awl/Ring.h:375-381. -/
def elems (r : Ring α) : Res (List α) := r.iterate 0 r.size

/-- The elements visited from `rbegin()` to `rend()`, Awl/Ring.h:383-389: `std::reverse_iterator` decrements before
it dereferences, so the positions are size-1, ..., 0. -/
def iterateBack (r : Ring α) : Nat → Res (List α)
  | 0 => .ok []
  | n + 1 => do
    let x ← r.get n
    let xs ← r.iterateBack n
    .ok (x :: xs)

/-- See `iterateBack` (Awl/Ring.h:383-389). -/
def relems (r : Ring α) : Res (List α) := r.iterateBack r.size

/-- The loop of Awl/Ring.h:570-573: push_back of each element. -/
def pushAll (r : Ring α) : List α → Res (Ring α)
  | [] => .ok r
  | x :: xs => do
    let r' ← r.pushBack x
    r'.pushAll xs

/-- Awl/Ring.h:562-574 `copy(other)`, used by the copy constructor 191-194.  Reading the members of a default
constructed ring (uninitialised) is not modelled: `Ring` values are initialised. -/
def copyOf (other : Ring α) : Res (Ring α) := do
  let xs ← other.elems
  (make other.cap).pushAll xs

/-- `std::ranges::equal(*this, other)` of Awl/Ring.h:231-234: both ranges are sized, so different sizes give false at
once, otherwise the elements are compared one by one. -/
def eqLoop [DecidableEq α] (a b : Ring α) (i : Nat) : Nat → Res Bool
  | 0 => .ok true
  | n + 1 => do
    let x ← a.get i
    let y ← b.get i
    if x = y then eqLoop a b (i + 1) n else .ok false

/-- Awl/Ring.h:231-234. -/
def beq [DecidableEq α] (a b : Ring α) : Res Bool :=
  if a.size = b.size then eqLoop a b 0 a.size else .ok false

end Ring

/-- Awl/Ring.h:203-214, copy assignment between two different objects.  `sameBuf` is the test `m_buf == other.m_buf`;
two different initialised rings have different buffers unless both are null.  The result is the new value of the target
and what became of its old storage (`none` if it stays in use). -/
def copyAssign (a b : Ring α) (sameBuf : Bool) : Res (Ring α × Option (Ring α)) :=
  if sameBuf then .ok (a, none)
  else do
    let old ← a.free
    let q ← b.copyOf
    .ok (q, some old)

/-- Awl/Ring.h:216-229 with attach 553-560 and release 548-551: the target and the source after a move assignment, and
what became of the target's old storage. -/
def moveAssign (a b : Ring α) (sameBuf : Bool) : Res (Ring α × Ring α × Option (Ring α)) :=
  if sameBuf then .ok (a, b, none)
  else do
    let old ← a.free
    .ok (b, { b with buf := none }, some old)

/-- Awl/Ring.h:196-201, move constructor: the new ring and the source afterwards. -/
def moveCtor (b : Ring α) : Ring α × Ring α := (b, { b with buf := none })

/-- The calls that change a ring (Awl/Ring.h:241-329). -/
inductive Op (α : Type) where
  | pushBack (x : α)
  | pushFront (x : α)
  | popBack
  | popFront
  | clear
  | reserve (n : Nat)

/-- One call (Awl/Ring.h:241-329). -/
def step (r : Ring α) : Op α → Res (Ring α)
  | .pushBack x => r.pushBack x
  | .pushFront x => r.pushFront x
  | .popBack => r.popBack
  | .popFront => r.popFront
  | .clear => r.clear
  | .reserve n => r.reserve n

/-- A history of calls (of Awl/Ring.h:241-329). -/
def run (r : Ring α) : List (Op α) → Res (Ring α)
  | [] => .ok r
  | o :: os => do
    let r' ← step r o
    run r' os

end Verif.Ring
