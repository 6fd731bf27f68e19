import Verif.VectorSet.Spec
import Verif.QuickList.Model

/-!
# `awl::vector_set` with pointers (Awl/VectorSet.h)

The same functions as in `Verif/VectorSet/Model.lean`, but statement by statement on a heap: a node is an address with
the fields `parent`, `left`, `right`, `color`, `count` and `value`, every one of which is read and written as in the
code, and with a `quick_link` that is linked and unlinked with the operations of `Verif/QuickList/Model.lean`.
Following a null pointer or the pointer to a node that has been freed is `Res.ub`, and so is freeing a node twice.

A loop or recursion that goes around more often than there have ever been nodes is `Res.ub`, too (`fuel`): a theorem
that says that a function returns says that its loops end.

Simplifications: the memory is that of one set; the allocator and element constructors do not throw; assertions are
not evaluated; counters are unbounded; `value` is not changed through iterators; a new node gets an
address that has never been used before.  The address of the `quick_link` of
the node at `p` is `p + 1`, the sentinel of `m_list` is at 0.
-/

namespace Verif.VectorSet.Heap

/-- `Node *`; `none` is `nullptr` (Awl/VectorSet.h:35-37). -/
abbrev Ptr := Option Nat

/-- The members of a node but for its `quick_link`, Awl/VectorSet.h:33-41, 105, 164. -/
structure Cell (α : Type) where
  parent : Ptr
  left : Ptr
  right : Ptr
  color : Color
  count : Nat
  value : α
deriving DecidableEq, Repr

/-- The memory: the nodes that are allocated, `m_root`, the links of the nodes and of `m_list` (Awl/VectorSet.h:1210-1211),
and the address of the next node. -/
structure Mem (α : Type) where
  node : Nat → Option (Cell α)
  root : Ptr
  links : QuickList.Heap
  next : Nat

/-- A piece of code that reads and writes the memory (the bodies of the functions of Awl/VectorSet.h:33-1205). -/
def M (α β : Type) := Mem α → Res (β × Mem α)

/-- One statement after another (Awl/VectorSet.h:33-1205). -/
instance (α : Type) : Monad (M α) where
  pure b := fun m => .ok (b, m)
  bind x f := fun m =>
    match x m with
    | .ok (b, m') => f b m'
    | .throw e => .throw e
    | .ub => .ub

variable {α β : Type}

/-- Undefined behaviour, or a loop that does not end (Awl/VectorSet.h:54-75, 619, 853, 969, 1089). -/
def M.ub : M α β := fun _ => .ub

/-- An exception leaves the function (Awl/VectorSet.h:1203). -/
def M.throw (e : Exn) : M α β := fun _ => .throw e

/-- All members of `*p` (Awl/VectorSet.h:33-41). -/
def rd (p : Ptr) : M α (Cell α) := fun m =>
  match p with
  | none => .ub
  | some a =>
    match m.node a with
    | none => .ub
    | some c => .ok (c, m)

/-- The memory with `c` at the address `a` (Awl/VectorSet.h:33-41). -/
def Mem.set (m : Mem α) (a : Nat) (c : Cell α) : Mem α := { m with node := QuickList.upd m.node a (some c) }

/-- `p->member = ...;` (Awl/VectorSet.h:33-41). -/
def wr (p : Ptr) (f : Cell α → Cell α) : M α Unit := fun m =>
  match p with
  | none => .ub
  | some a =>
    match m.node a with
    | none => .ub
    | some c => .ok ((), m.set a (f c))

/-- `m_root` (Awl/VectorSet.h:1210). -/
def getRoot : M α Ptr := fun m => .ok (m.root, m)

/-- `m_root = p;` (Awl/VectorSet.h:1210). -/
def setRoot (p : Ptr) : M α Unit := fun m => .ok ((), { m with root := p })

/-- How often a loop may go around (see above; Awl/VectorSet.h:619, 969, 1089). -/
def fuel : M α Nat := fun m => .ok (2 * m.next + 3, m)

/-- An operation of `m_list` or of the link of a node (Awl/VectorSet.h:1211, 105). -/
def onLinks (f : QuickList.Heap → Res QuickList.Heap) : M α Unit := fun m =>
  match f m.links with
  | .ok h => .ok ((), { m with links := h })
  | .throw e => .throw e
  | .ub => .ub

/-- Reading the links of `m_list` and the nodes (Awl/VectorSet.h:1211, 105). -/
def ofLinks (f : QuickList.Heap → Res β) : M α β := fun m =>
  match f m.links with
  | .ok b => .ok (b, m)
  | .throw e => .throw e
  | .ub => .ub

/-! ## Nodes -/

/-- `p->color = c;` (Awl/VectorSet.h:790, 979). -/
def setColor (p : Ptr) (c : Color) : M α Unit := wr p fun x => { x with color := c }

/-- `p != nullptr && p->color == Color::Red`, Awl/VectorSet.h:976, 1010. -/
def isRed (p : Ptr) : M α Bool :=
  if p = none then pure false else do return (← rd p).color == .red

/-- `GetLeftCount`, Awl/VectorSet.h:43-46. -/
def getLeftCount (p : Ptr) : M α Nat := do
  if (← rd p).left ≠ none then return (← rd (← rd p).left).count + 1 else return 0

/-- `UpdateCount`, Awl/VectorSet.h:54-75. -/
def updateCount : Nat → Ptr → M α Unit
  | 0, _ => M.ub
  | n + 1, x => do
    let old := (← rd x).count
    wr x fun c => { c with count := 0 }
    if (← rd x).left ≠ none then
      let k := (← rd (← rd x).left).count
      wr x fun c => { c with count := k + 1 }
    if (← rd x).right ≠ none then
      let k := (← rd (← rd x).right).count
      wr x fun c => { c with count := c.count + (k + 1) }
    if (← rd x).count ≠ old ∧ (← rd x).parent ≠ none then
      updateCount n (← rd x).parent

/-- `SetParent`, Awl/VectorSet.h:77-85. -/
def setParent (x p : Ptr) : M α Unit := do
  wr x fun c => { c with parent := p }
  if (← rd x).parent ≠ none then
    updateCount (← fuel) (← rd x).parent

/-- `SetLeft`, Awl/VectorSet.h:87-91. -/
def setLeft (x l : Ptr) : M α Unit := do
  wr x fun c => { c with left := l }
  updateCount (← fuel) x

/-- `SetRight`, Awl/VectorSet.h:93-97. -/
def setRight (x r : Ptr) : M α Unit := do
  wr x fun c => { c with right := r }
  updateCount (← fuel) x

/-- `if (x != nullptr) x->parent = p;`, Awl/VectorSet.h:133-136, 140-143, 883-884, 931-932. -/
def reparent (x p : Ptr) : M α Unit := if x ≠ none then wr x fun c => { c with parent := p } else pure ()

/-- The parent of `other` gets `this` as its child, Awl/VectorSet.h:146-157. -/
def replaceBelow (this other : Ptr) : M α Unit := do
  if (← rd other).parent ≠ none then
    if (← rd (← rd other).parent).left = other then
      setLeft (← rd other).parent this
    else
      setRight (← rd other).parent this

/-- `this->CopyFrom(other)`, Awl/VectorSet.h:129-162. -/
def copyFrom (this other : Ptr) : M α Unit := do
  let n := (← rd other).count
  wr this fun c => { c with count := n }
  reparent (← rd other).left this
  let l := (← rd other).left
  wr this fun c => { c with left := l }
  reparent (← rd other).right this
  let r := (← rd other).right
  wr this fun c => { c with right := r }
  replaceBelow this other
  let col := (← rd other).color
  setColor this col
  setParent this (← rd other).parent

/-- `CreateNode`, Awl/VectorSet.h:169-181, with the constructors 107-113: `Link{}` is all zeros, and `Color::Red` is zero. -/
def createNode (v : α) : M α Ptr := fun m =>
  match QuickList.newElem m.links (m.next + 1) with
  | .ok h => .ok (some m.next, { m.set m.next ⟨none, none, none, .red, 0, v⟩ with links := h, next := m.next + 1 })
  | .throw e => .throw e
  | .ub => .ub

/-- `m_nodeAlloc.deallocate(node, 1)`, Awl/VectorSet.h:194. -/
def deallocate (p : Ptr) : M α Unit := fun m =>
  match p with
  | none => .ub
  | some a =>
    match m.node a with
    | none => .ub
    | some _ => .ok ((), { m with node := QuickList.upd m.node a none })

/-- `DestroyNode`, Awl/VectorSet.h:191-195, with the destructor 120-126. -/
def destroyNode (p : Ptr) : M α Unit :=
  match p with
  | none => M.ub
  | some a => do
    onLinks fun h => QuickList.safeExclude h (a + 1)
    onLinks fun h => QuickList.kill h (a + 1)
    deallocate p

/-! ## Rotations -/

/-- `y` takes the place of `x` below the parent of `x`, or becomes the root, Awl/VectorSet.h:889-899, 937-947. -/
def replaceChild (x y : Ptr) : M α Unit := do
  if (← rd x).parent = none then
    setRoot y
  else
    if x = (← rd (← rd x).parent).left then
      wr (← rd x).parent fun c => { c with left := y }
    else
      wr (← rd x).parent fun c => { c with right := y }

/-- `RotateLeft`, Awl/VectorSet.h:875-908. -/
def rotateLeft (x : Ptr) : M α Unit := do
  let y := (← rd x).right
  let b := (← rd y).left
  wr x fun c => { c with right := b }
  reparent (← rd y).left x
  let p := (← rd x).parent
  wr y fun c => { c with parent := p }
  replaceChild x y
  wr y fun c => { c with left := x }
  wr x fun c => { c with parent := y }
  updateCount (← fuel) x

/-- `RotateRight`, Awl/VectorSet.h:923-956. -/
def rotateRight (y : Ptr) : M α Unit := do
  let x := (← rd y).left
  let b := (← rd x).right
  wr y fun c => { c with left := b }
  reparent (← rd x).right y
  let p := (← rd y).parent
  wr x fun c => { c with parent := p }
  replaceChild y x
  wr x fun c => { c with right := y }
  wr y fun c => { c with parent := x }
  updateCount (← fuel) y

/-! ## Searching -/

/-- The loop of `FindNodeByKey` with the accumulator of 602-605, Awl/VectorSet.h:614-638: the node found and the last node
visited before it. -/
def findNodeByKey (klt elt : α → Bool) : Nat → Ptr → Ptr → M α (Ptr × Ptr)
  | 0, _, _ => M.ub
  | n + 1, x, par => do
    if x = none then return (none, par)
    else if klt (← rd x).value then findNodeByKey klt elt n (← rd x).left x
    else if elt (← rd x).value then findNodeByKey klt elt n (← rd x).right x
    else return (x, par)

/-- The loop of `FindBoundByKey`, Awl/VectorSet.h:670-696. -/
def findBoundByKey (klt elt : α → Bool) : Nat → Ptr → Ptr → M α (Ptr × Bool)
  | 0, _, _ => M.ub
  | n + 1, x, greater => do
    if x = none then return (greater, false)
    else if klt (← rd x).value then findBoundByKey klt elt n (← rd x).left x
    else if elt (← rd x).value then findBoundByKey klt elt n (← rd x).right greater
    else return (x, true)

/-- The loop of `FindNodeByIndex`, Awl/VectorSet.h:698-724. -/
def findNodeByIndex : Nat → Ptr → Nat → M α Ptr
  | 0, _, _ => M.ub
  | n + 1, x, i => do
    if x = none then return none
    else
      let rank ← getLeftCount x
      if i < rank then findNodeByIndex n (← rd x).left i
      else if i > rank then findNodeByIndex n (← rd x).right (i - (rank + 1))
      else return x

/-- The loop of `IndexOfNode`, Awl/VectorSet.h:732-747. -/
def indexUp : Nat → Ptr → Nat → M α Nat
  | 0, _, _ => M.ub
  | n + 1, x, index => do
    let parent := (← rd x).parent
    if parent = none then return index
    else if x = (← rd parent).right then
      indexUp n parent (index + ((← getLeftCount parent) + 1))
    else indexUp n parent index

/-- `IndexOfNode`, Awl/VectorSet.h:726-750. -/
def indexOfNode (p : Ptr) : M α Nat := do
  indexUp (← fuel) p (← getLeftCount p)

/-- `for (y = ...; y->right != nullptr; y = y->right);`, Awl/VectorSet.h:845. -/
def goRightmost : Nat → Ptr → M α Ptr
  | 0, _ => M.ub
  | n + 1, y => do
    if (← rd y).right ≠ none then goRightmost n (← rd y).right else return y

/-- `for (y = ...; y->left != nullptr; y = y->left);`, Awl/VectorSet.h:818. -/
def goLeftmost : Nat → Ptr → M α Ptr
  | 0, _ => M.ub
  | n + 1, y => do
    if (← rd y).left ≠ none then goLeftmost n (← rd y).left else return y

/-- The upward loop of `GetPredecessor`, Awl/VectorSet.h:852-857. -/
def climbLeft : Nat → Ptr → Ptr → M α Ptr
  | 0, _, _ => M.ub
  | n + 1, x, y => do
    if y = none then return none
    else if x = (← rd y).left then climbLeft n y (← rd y).parent
    else return y

/-- The upward loop of `GetSuccessor`, Awl/VectorSet.h:825-830. -/
def climbRight : Nat → Ptr → Ptr → M α Ptr
  | 0, _, _ => M.ub
  | n + 1, x, y => do
    if y = none then return none
    else if x = (← rd y).right then climbRight n y (← rd y).parent
    else return y

/-- `GetPredecessor`, Awl/VectorSet.h:836-860. -/
def getPredecessor (x : Ptr) : M α Ptr := do
  if (← rd x).left ≠ none then goRightmost (← fuel) (← rd x).left
  else climbLeft (← fuel) x (← rd x).parent

/-- `GetSuccessor`, Awl/VectorSet.h:809-833. -/
def getSuccessor (x : Ptr) : M α Ptr := do
  if (← rd x).right ≠ none then goLeftmost (← fuel) (← rd x).right
  else climbRight (← fuel) x (← rd x).parent

/-! ## Insertion -/

/-- The loop of `BalanceAfterInsert`, Awl/VectorSet.h:969-1031. -/
def insertLoop : Nat → Ptr → M α Unit
  | 0, _ => M.ub
  | n + 1, x => do
    if x = (← getRoot) then return ()
    else if (← rd (← rd x).parent).color ≠ .red then return ()
    else
      let g := (← rd (← rd x).parent).parent
      if (← rd x).parent = (← rd g).left then
        let y := (← rd g).right
        if (← isRed y) then
          setColor (← rd x).parent .black
          setColor y .black
          setColor (← rd (← rd x).parent).parent .red
          insertLoop n (← rd (← rd x).parent).parent
        else
          let x' ← (do
            if x = (← rd (← rd x).parent).right then
              let x' := (← rd x).parent
              rotateLeft x'
              return x'
            else return x)
          setColor (← rd x').parent .black
          setColor (← rd (← rd x').parent).parent .red
          rotateRight (← rd (← rd x').parent).parent
          insertLoop n x'
      else
        let y := (← rd g).left
        if (← isRed y) then
          setColor (← rd x).parent .black
          setColor y .black
          setColor (← rd (← rd x).parent).parent .red
          insertLoop n (← rd (← rd x).parent).parent
        else
          let x' ← (do
            if x = (← rd (← rd x).parent).left then
              let x' := (← rd x).parent
              rotateRight x'
              return x'
            else return x)
          setColor (← rd x').parent .black
          setColor (← rd (← rd x').parent).parent .red
          rotateLeft (← rd (← rd x').parent).parent
          insertLoop n x'

/-- `BalanceAfterInsert`, Awl/VectorSet.h:959-1033. -/
def balanceAfterInsert (z : Ptr) : M α Unit := do
  insertLoop (← fuel) z
  setColor (← getRoot) .black

/-- `m_list.insert(pred, node)` or `m_list.push_front(node)`, Awl/VectorSet.h:794-805, Awl/QuickList.h:114, 124. -/
def linkInList (pred node : Ptr) : M α Unit :=
  match node with
  | none => M.ub
  | some a =>
    match pred with
    | some p => onLinks fun h => QuickList.insertAfter h (p + 1) (a + 1)
    | none => onLinks fun h => QuickList.pushFront h 0 (a + 1)

/-- The new node below its parent, Awl/VectorSet.h:773-789. -/
def placeNode (lt : α → α → Bool) (node parent : Ptr) : M α Unit := do
  if parent = none then setRoot node
  else if lt (← rd node).value (← rd parent).value then setLeft parent node
  else setRight parent node

/-- `InsertNode`, Awl/VectorSet.h:769-806. -/
def insertNode (lt : α → α → Bool) (node parent : Ptr) : M α Unit := do
  wr node fun c => { c with parent := parent }
  placeNode lt node parent
  setColor node .red
  balanceAfterInsert node
  setColor (← getRoot) .black
  linkInList (← getPredecessor node) node

/-- `UniversalInsert`, Awl/VectorSet.h:753-766: the node and whether it is new. -/
def insert (lt : α → α → Bool) (v : α) : M α (Ptr × Bool) := do
  let (node, parent) ← findNodeByKey (lt v) (fun u => lt u v) (← fuel) (← getRoot) none
  if node ≠ none then return (node, false)
  else
    let node ← createNode v
    insertNode lt node parent
    return (node, true)

/-! ## Removal -/

/-- `w->left == nullptr || w->left->color == Color::Black`, Awl/VectorSet.h:1114-1115, 1122, 1162-1163, 1170. -/
def isBlack (p : Ptr) : M α Bool :=
  if p = none then pure true else do return (← rd p).color == .black

/-- `if (p != nullptr) p->color = Color::Black;`, Awl/VectorSet.h:1124-1125, 1133-1134, 1172-1173, 1181-1182. -/
def blackenIfAny (p : Ptr) : M α Unit := if p ≠ none then setColor p .black else pure ()

/-- The loop of `BalanceAfterRemove`, Awl/VectorSet.h:1089-1187; the last value of `x`. -/
def removeLoop : Nat → Ptr → M α Ptr
  | 0, _ => M.ub
  | n + 1, x => do
    if x = (← getRoot) then return x
    else if (← rd x).color ≠ .black then return x
    else if x = (← rd (← rd x).parent).left then
      let w := (← rd (← rd x).parent).right
      if w = none then removeLoop n (← rd x).parent
      else
        let w ← (do
          if (← rd w).color = .red then
            setColor w .black
            setColor (← rd x).parent .red
            rotateLeft (← rd x).parent
            return (← rd (← rd x).parent).right
          else return w)
        if w = none then removeLoop n (← rd x).parent
        else if (← isBlack (← rd w).left) && (← isBlack (← rd w).right) then
          setColor w .red
          removeLoop n (← rd x).parent
        else
          let w ← (do
            if (← isBlack (← rd w).right) then
              blackenIfAny (← rd w).left
              setColor w .red
              rotateRight w
              return (← rd (← rd x).parent).right
            else return w)
          let c := (← rd (← rd x).parent).color
          setColor w c
          setColor (← rd x).parent .black
          blackenIfAny (← rd w).right
          rotateLeft (← rd x).parent
          removeLoop n (← getRoot)
    else
      let w := (← rd (← rd x).parent).left
      if w = none then removeLoop n (← rd x).parent
      else
        let w ← (do
          if (← rd w).color = .red then
            setColor w .black
            setColor (← rd x).parent .red
            rotateRight (← rd x).parent
            return (← rd (← rd x).parent).left
          else return w)
        if w = none then removeLoop n (← rd x).parent
        else if (← isBlack (← rd w).right) && (← isBlack (← rd w).left) then
          setColor w .red
          removeLoop n (← rd x).parent
        else
          let w ← (do
            if (← isBlack (← rd w).left) then
              blackenIfAny (← rd w).right
              setColor w .red
              rotateLeft w
              return (← rd (← rd x).parent).left
            else return w)
          let c := (← rd (← rd x).parent).color
          setColor w c
          setColor (← rd x).parent .black
          blackenIfAny (← rd w).left
          rotateRight (← rd x).parent
          removeLoop n (← getRoot)

/-- `BalanceAfterRemove`, Awl/VectorSet.h:1085-1189. -/
def balanceAfterRemove (x : Ptr) : M α Unit := do
  let x ← removeLoop (← fuel) x
  setColor x .black

/-- The node `y` that leaves its place, Awl/VectorSet.h:1040-1044. -/
def leaving (z : Ptr) : M α Ptr := do
  if (← rd z).left = none ∨ (← rd z).right = none then return z else getSuccessor z

/-- The only child `x` of `y`, Awl/VectorSet.h:1046-1049. -/
def childOf (y : Ptr) : M α Ptr := do
  if (← rd y).left ≠ none then return (← rd y).left else return (← rd y).right

/-- `if (x != nullptr) x->SetParent(y->parent);`, Awl/VectorSet.h:1051-1054. -/
def liftChild (x y : Ptr) : M α Unit := do
  if x ≠ none then setParent x (← rd y).parent

/-- `x` takes the place of `y`, Awl/VectorSet.h:1055-1062. -/
def detach (x y : Ptr) : M α Unit := do
  if (← rd y).parent = none then
    setRoot x
  else
    if y = (← rd (← rd y).parent).left then setLeft (← rd y).parent x
    else setRight (← rd y).parent x

/-- `y` takes the place of `z`, Awl/VectorSet.h:1064-1075. -/
def takePlace (y z : Ptr) : M α Unit := do
  if y ≠ z then
    copyFrom y z
    if z = (← getRoot) then setRoot y

/-- Awl/VectorSet.h:1077-1078. -/
def rebalance (x y : Ptr) : M α Unit := do
  if (← rd y).color = .black ∧ x ≠ none then
    balanceAfterRemove x

/-- `RemoveNode`, Awl/VectorSet.h:1036-1082. -/
def removeNode (z : Ptr) : M α Unit := do
  let y ← leaving z
  let x ← childOf y
  liftChild x y
  detach x y
  takePlace y z
  rebalance x y
  destroyNode z

/-! ## The public functions -/

/-- `m_list.front()`, the node of the first link; `none`: the list is empty (Awl/QuickList.h:92, 98). -/
def linkNode : QuickList.Ptr → Res Ptr
  | none => .ub
  | some 0 => .ok none
  | some (a + 1) => .ok (some a)

/-- `begin()`, Awl/VectorSet.h:331: `none` is `end()`. -/
def begin : M α Ptr := ofLinks fun h => QuickList.front h 0 >>= linkNode

/-- `++i`, Awl/DoubleNodeIterator.h:53-58: undefined for `end()`. -/
def nextIter (p : Ptr) : M α Ptr :=
  match p with
  | none => M.ub
  | some a => ofLinks fun h => QuickList.successor h (a + 1) >>= linkNode

/-- `begin()` advanced `i` times (Awl/VectorSet.h:331, Awl/DoubleNodeIterator.h:53-58). -/
def iterAt : Nat → M α Ptr
  | 0 => begin
  | i + 1 => do nextIter (← iterAt i)

/-- `erase(iterator)`, Awl/VectorSet.h:517-520. -/
def erase (p : Ptr) : M α Unit := removeNode p

/-- `find(key)` and `contains(key)`, Awl/VectorSet.h:382-391, 424-427, 587-592. -/
def find (klt elt : α → Bool) : M α Ptr := do
  return (← findNodeByKey klt elt (← fuel) (← getRoot) none).1

/-- `erase(key)`, Awl/VectorSet.h:524-535. -/
def eraseKey (klt elt : α → Bool) : M α Nat := do
  let i ← find klt elt
  if i ≠ none then
    erase i
    return 1
  else return 0

/-- The loop of `clear`, Awl/VectorSet.h:539-543. -/
def clearLoop : Nat → M α Unit
  | 0 => M.ub
  | n + 1 => do
    if (← ofLinks fun h => QuickList.isEmpty h 0) then return ()
    else
      destroyNode (← begin)
      clearLoop n

/-- `clear()` and the destructor, Awl/VectorSet.h:537-546, 273-276. -/
def clear : M α Unit := do
  clearLoop (← fuel)
  setRoot none

/-- `size()`, Awl/VectorSet.h:376-379. -/
def size : M α Nat := do
  if (← getRoot) = none then return 0 else return (← rd (← getRoot)).count + 1

/-- `lower_bound`, Awl/VectorSet.h:430-439. -/
def lowerBound (klt elt : α → Bool) : M α Ptr := do
  return (← findBoundByKey klt elt (← fuel) (← getRoot) none).1

/-- `upper_bound`, Awl/VectorSet.h:442-467. -/
def upperBound (klt elt : α → Bool) : M α Ptr := do
  let (node, equal) ← findBoundByKey klt elt (← fuel) (← getRoot) none
  if equal then nextIter node else return node

/-- `operator[]`, Awl/VectorSet.h:469-477. -/
def get (i : Nat) : M α α := do
  return (← rd (← findNodeByIndex (← fuel) (← getRoot) i)).value

/-- `at`, Awl/VectorSet.h:479-489, 1199-1205. -/
def at_ (i : Nat) : M α α := do
  if i < (← size) then get i else M.throw .outOfRange

/-- `*i`, Awl/DoubleNodeIterator.h:43-46: what an iterator points to; `none` is `end()`. -/
def deref (p : Ptr) : M α (Option α) :=
  if p = none then pure none else do return some (← rd p).value

/-- A new set, Awl/VectorSet.h:223-225, Awl/QuickList.h:59-61. -/
def Mem.empty : Mem α :=
  { node := fun _ => none, root := none
    links := { alive := fun a => a == 0, fwd := fun a => if a = 0 then some 0 else none, bwd := fun a => if a = 0 then some 0 else none }
    next := 0 }

open Spec in
/-- The operations of the public interface (Awl/VectorSet.h:343-546), with what they return. -/
def step (lt : α → α → Bool) : Op α → M α (Out α)
  | .insert v => do
    let (p, isNew) ← insert lt v
    return .inserted (← rd p).value isNew
  | .eraseKey k => do return .num (← eraseKey (lt k) (fun a => lt a k))
  | .eraseAt i => do
    erase (← iterAt i)
    return .unit
  | .clear => do
    clear
    return .unit
  | .size => do return .num (← size)
  | .empty => do return .bool ((← getRoot) == none)
  | .contains k => do return .bool ((← find (lt k) (fun a => lt a k)) != none)
  | .find k => do return .iter (← deref (← find (lt k) (fun a => lt a k)))
  | .lowerBound k => do return .iter (← deref (← lowerBound (lt k) (fun a => lt a k)))
  | .upperBound k => do return .iter (← deref (← upperBound (lt k) (fun a => lt a k)))

open Spec in
/-- A history of operations (Awl/VectorSet.h:343-546). -/
def run (lt : α → α → Bool) : List (Op α) → M α (List (Out α))
  | [] => pure []
  | op :: ops => do
    let o ← step lt op
    let os ← run lt ops
    return o :: os

end Verif.VectorSet.Heap
