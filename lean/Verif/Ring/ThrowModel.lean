import Verif.Ring.Model

/-!
# `awl::ring` with exceptions (Awl/Ring.h)

The functions of `Model.lean` that call code of the user: the constructor of an element and `allocate` of the allocator.  `k`
says how many of these calls return before one throws; an exception leaves the function.

`husk x` is what a moved-from element holds; it is `x` itself if the elements are copied because they cannot be moved.

Simplifications: as in `Model.lean` otherwise; destructors and `deallocate` do not throw; the constructor that throws leaves
the element that it should have moved from as it was.
-/

namespace Verif.Ring

variable {α : Type}

/-- A ring (Awl/Ring.h:576-582), the buffers that belong to nobody any more, and the elements in them, which will never be destroyed. -/
structure W (α : Type) where
  ring : Ring α
  lostBlocks : Nat
  lostElems : List α

namespace Ring

/-- The elements in a buffer, Awl/Ring.h:578 (`m_buf`). -/
def live (s : Nat → Option α) (cap : Nat) : List α := (List.range cap).filterMap s

/-- Awl/Ring.h:301-309: `true` if the constructor has thrown, which is after `allocate_next()`. -/
def pushBackT (r : Ring α) (x : α) (k : Nat) : Res (Bool × Ring α) := do
  let (r', p) ← r.allocateNext
  if k = 0 then .ok (true, r') else do
    let r'' ← r'.construct p x
    .ok (false, r'')

/-- Awl/Ring.h:291-299: `true` if the constructor has thrown, which is after `allocate_prev()`. -/
def pushFrontT (r : Ring α) (x : α) (k : Nat) : Res (Bool × Ring α) := do
  let (r', p) ← r.allocatePrev
  if k = 0 then .ok (true, r') else do
    let r'' ← r'.construct p x
    .ok (false, r'')

/-- `T(std::move(*p))` seen from the element that is moved from, Awl/Ring.h:255. -/
def movedFrom (husk : α → α) (r : Ring α) (p : Nat) : Res (Ring α) :=
  match r.buf with
  | none => .ub
  | some s =>
    if p < r.cap then
      match s p with
      | some x => .ok { r with buf := some (setSlot s p (some (husk x))) }
      | none => .ub
    else .ub

/-- The loop of Awl/Ring.h:253-256: whether it has thrown, the old ring, the new buffer. -/
def moveLoopT (husk : α → α) (start : Nat) : Nat → Ring α → Nat → (Nat → Option α) → Nat → Res (Bool × Ring α × (Nat → Option α))
  | 0, r, _, dst, _ => .ok (false, r, dst)
  | n + 1, r, i, dst, k => do
    let x ← r.get (start + i)
    if k = 0 then .ok (true, r, dst) else do
      let r' ← r.movedFrom husk (r.address (start + i))
      moveLoopT husk start n r' (i + 1) (setSlot dst i (some x)) (k - 1)

/-- Awl/Ring.h:247-269, behind `m_alloc.allocate(cap)`: if a constructor throws, the new buffer and what it holds are lost. -/
def reserveMove (husk : α → α) (w : W α) (cap : Nat) (k : Nat) : Res (Bool × W α) :=
  match w.ring.buf with
  | none => .ok (false, { w with ring := ⟨some (fun _ => none), cap, 0, 0⟩ })
  | some _ => do
    let minSize := min cap w.ring.size
    let (thrown, r, dst) ← moveLoopT husk (w.ring.size - minSize) minSize w.ring 0 (fun _ => none) k
    if thrown then .ok (true, ⟨r, w.lostBlocks + 1, w.lostElems ++ live dst cap⟩) else do
      let _ ← r.free
      .ok (false, { w with ring := ⟨some dst, cap, 0, minSize⟩ })

/-- Awl/Ring.h:241-270. -/
def reserveT (husk : α → α) (w : W α) (cap : Nat) (k : Nat) : Res (Bool × W α) :=
  if k = 0 then .ok (true, w) else reserveMove husk w cap (k - 1)

/-- The loop of Awl/Ring.h:570-573. -/
def pushAllT (r : Ring α) : List α → Nat → Res (Bool × Ring α)
  | [], _ => .ok (false, r)
  | x :: xs, k => do
    let (thrown, r') ← r.pushBackT x k
    if thrown then .ok (true, r') else r'.pushAllT xs (k - 1)

/-- Awl/Ring.h:191-194 with `copy(other)` 562-574: the new ring, or `none` if an exception has left the constructor: then the destructor does not run,
and the buffer is lost with the elements that have been made; the numbers of them. -/
def copyT (other : Ring α) (k : Nat) : Res (Option (Ring α) × Nat × List α) := do
  let xs ← other.elems
  if k = 0 then .ok (none, 0, []) else do
    let (thrown, r) ← (make other.cap).pushAllT xs (k - 1)
    if thrown then
      match r.buf with
      | none => .ub
      | some s => .ok (none, 1, live s r.cap)
    else .ok (some r, 0, [])

/-- Awl/Ring.h:203-214, copy assignment between two rings with different buffers: whether it has thrown, and the target. -/
def copyAssignT (a b : Ring α) (k : Nat) : Res (Bool × Ring α) := do
  let old ← a.free
  let xs ← b.elems
  if k = 0 then .ok (true, { old with cap := b.cap }) else (make b.cap).pushAllT xs (k - 1)

end Ring

/-- One call (Awl/Ring.h:241-329). -/
def stepT (husk : α → α) (w : W α) : Op α → Nat → Res (Bool × W α)
  | .pushBack x, k => do
    let (thrown, r) ← w.ring.pushBackT x k
    .ok (thrown, { w with ring := r })
  | .pushFront x, k => do
    let (thrown, r) ← w.ring.pushFrontT x k
    .ok (thrown, { w with ring := r })
  | .reserve n, k => Ring.reserveT husk w n k
  | op, _ => do
    let r ← step w.ring op
    .ok (false, { w with ring := r })

/-- A program that catches the exceptions of its calls (Awl/Ring.h:241-329). -/
def runT (husk : α → α) : W α → List (Op α × Nat) → Res (List Bool × W α)
  | w, [] => .ok ([], w)
  | w, (op, k) :: l => do
    let (thrown, w') ← stepT husk w op k
    let (ts, w'') ← runT husk w' l
    .ok (thrown :: ts, w'')

end Verif.Ring
