import Verif.Common.Res

/-!
# Model of `awl::vector_set` (Awl/VectorSet.h)

The set is a red-black tree whose nodes store the number of their descendants, plus a doubly linked list through the
same nodes.

Pointers: a node is identified by its address (`Elem.id`).  A pointer into the tree is a *cursor*: the subtree the
pointer points to, together with the path of ancestors up to the root (so `x->parent` is the head of the path,
`x == x->parent->left` is the side recorded there, and `x->parent == nullptr` is the empty path).  Dereferencing a
null pointer is `Res.ub`.  Colours and counters are stored values, exactly as in the code: nothing in the model
recomputes a counter except where the code does.

Simplifications: parent pointers are implied by the path and the intrusive list is a `List` of nodes in which a node is
found by address (`PtrModel.lean` is the model with parent pointers and links, and `PtrProps.lean` proves that it does the
same); element constructors and the comparator do not throw; counters are unbounded.
-/

namespace Verif.VectorSet

/-- Awl/VectorSet.h:29. -/
inductive Color where
  | red
  | black
deriving DecidableEq, Repr

/-- A node's identity (address) and its value, Awl/VectorSet.h:105-165. -/
structure Elem (α : Type) where
  id : Nat
  val : α
deriving DecidableEq, Repr

/-- Awl/VectorSet.h:33-103: `color`, `count` (the number of descendants), children; `nil` is `nullptr`. -/
inductive Tree (α : Type) where
  | nil
  | node (color : Color) (count : Nat) (left : Tree α) (elem : Elem α) (right : Tree α)
deriving DecidableEq, Repr

/-- Which child of its parent a node is (Awl/VectorSet.h:35-37, 741, 972). -/
inductive Side where
  | left
  | right
deriving DecidableEq, Repr

/-- One ancestor: which child we came from, the ancestor's stored fields, and its other child (Awl/VectorSet.h:33-40). -/
structure Frame (α : Type) where
  side : Side
  color : Color
  count : Nat
  elem : Elem α
  sibling : Tree α
deriving DecidableEq, Repr

/-- A `Node *` that points into the tree: the subtree and the ancestors, nearest first (Awl/VectorSet.h:33-40). -/
abbrev Cursor (α : Type) := Tree α × List (Frame α)

variable {α : Type}

/-- Awl/VectorSet.h:43-52, GetLeftCount / GetRightCount of the parent of this subtree: `count + 1`, or 0 for null. -/
def Tree.cnt : Tree α → Nat
  | .nil => 0
  | .node _ n _ _ _ => n + 1

/-- The parent with this subtree as its child (`x->parent` as a tree) (Awl/VectorSet.h:35). -/
def plug (t : Tree α) (f : Frame α) : Tree α :=
  match f.side with
  | .left => .node f.color f.count t f.elem f.sibling
  | .right => .node f.color f.count f.sibling f.elem t

/-- The whole tree (`m_root`) (Awl/VectorSet.h:1210). -/
def zip : Tree α → List (Frame α) → Tree α
  | t, [] => t
  | t, f :: fs => zip (plug t f) fs

/-- `x->left`, as a pointer that may be null (Awl/VectorSet.h:36). -/
def goLeft : Cursor α → Res (Cursor α)
  | (.nil, _) => .ub
  | (.node c n l e r, fs) => .ok (l, ⟨.left, c, n, e, r⟩ :: fs)

/-- `x->right`, as a pointer that may be null (Awl/VectorSet.h:37). -/
def goRight : Cursor α → Res (Cursor α)
  | (.nil, _) => .ub
  | (.node c n l e r, fs) => .ok (r, ⟨.right, c, n, e, l⟩ :: fs)

/-- `x->color = c` (Awl/VectorSet.h:38, 790). -/
def setColor (c : Color) : Tree α → Res (Tree α)
  | .nil => .ub
  | .node _ n l e r => .ok (.node c n l e r)

/-- `x != nullptr && x->color == Color::Red` (Awl/VectorSet.h:976, 1010). -/
def isRed : Tree α → Bool
  | .node .red _ _ _ _ => true
  | _ => false

/-- Awl/VectorSet.h:54-75 `UpdateCount` called for the nearest ancestor when the child we came from has `n` elements:
recompute, and go on to the parent only if the counter changed. -/
def updPath (n : Nat) : List (Frame α) → List (Frame α)
  | [] => []
  | f :: fs =>
    let c := n + f.sibling.cnt
    if c ≠ f.count then { f with count := c } :: updPath (c + 1) fs else f :: fs

/-- Awl/VectorSet.h:54-75 `x->UpdateCount()`. -/
def updateCount : Cursor α → Res (Cursor α)
  | (.nil, _) => .ub
  | (.node c n l e r, fs) =>
    let n' := l.cnt + r.cnt
    if n' ≠ n then .ok (.node c n' l e r, updPath (n' + 1) fs) else .ok (.node c n l e r, fs)

/-- Awl/VectorSet.h:875-908.  The cursor points to X; the result points to Y, which took the place of X.  After the
link surgery (884-905) X and Y still have their old counters; `x->UpdateCount()` (907) starts at X. -/
def rotateLeft : Cursor α → Res (Cursor α)
  | (.node cx nx a ex (.node cy ny b ey c), fs) => do
    -- X is now the left child of Y
    let (x, fs') ← updateCount (.node cx nx a ex b, ⟨.left, cy, ny, ey, c⟩ :: fs)
    match fs' with
    | y :: fs'' => .ok (plug x y, fs'')
    | [] => .ub
  | _ => .ub

/-- Awl/VectorSet.h:923-956.  The cursor points to Y; the result points to X, which took the place of Y. -/
def rotateRight : Cursor α → Res (Cursor α)
  | (.node cy ny (.node cx nx a ex b) ey c, fs) => do
    let (y, fs') ← updateCount (.node cy ny b ey c, ⟨.right, cx, nx, ex, a⟩ :: fs)
    match fs' with
    | x :: fs'' => .ok (plug y x, fs'')
    | [] => .ub
  | _ => .ub

/-- Awl/VectorSet.h:1032 and 792, `m_root->color = Color::Black`. -/
def blackenRoot (t : Tree α) : Res (Tree α) := setColor .black t

/-- Awl/VectorSet.h:959-1033.  The cursor is `x`; the result is the whole tree. -/
def balanceAfterInsert : Tree α → List (Frame α) → Res (Tree α)
  -- x == m_root
  | x, [] => blackenRoot x
  -- x->parent is the root: if it were red, x->parent->parent->left would dereference null
  | x, [p] => if p.color = .red then .ub else blackenRoot (zip x [p])
  | x, p :: g :: fs =>
    if p.color = .red then
      match g.side with
      | .left =>
        if isRed g.sibling then do
          let y ← setColor .black g.sibling
          balanceAfterInsert (plug (plug x { p with color := .black }) { g with color := .red, sibling := y }) fs
        else do
          let (x', fs') ←
            (if p.side = .right then do goLeft (← rotateLeft (plug x p, g :: fs))
             else .ok (x, p :: g :: fs))
          match fs' with
          | p' :: g' :: fs'' => do
            let (r, rs) ← rotateRight (plug (plug x' { p' with color := .black }) { g' with color := .red }, fs'')
            -- x->parent is black now, the loop ends
            blackenRoot (zip r rs)
          | _ => .ub
      | .right =>
        if isRed g.sibling then do
          let y ← setColor .black g.sibling
          balanceAfterInsert (plug (plug x { p with color := .black }) { g with color := .red, sibling := y }) fs
        else do
          let (x', fs') ←
            (if p.side = .left then do goRight (← rotateRight (plug x p, g :: fs))
             else .ok (x, p :: g :: fs))
          match fs' with
          | p' :: g' :: fs'' => do
            let (r, rs) ← rotateLeft (plug (plug x' { p' with color := .black }) { g' with color := .red }, fs'')
            blackenRoot (zip r rs)
          | _ => .ub
    else blackenRoot (zip x (p :: g :: fs))

/-- Awl/VectorSet.h:614-638, with the accumulator of 602-605 that remembers the last visited node as the parent.
`klt v` is `m_comp(key, v)` and `elt v` is `m_comp(v, key)`.  Returns the found node and the parent, either may be
null. -/
def findNode (klt elt : α → Bool) : Tree α → List (Frame α) → Option (Cursor α) →
    Option (Cursor α) × Option (Cursor α)
  | .nil, _, par => (none, par)
  | .node c n l e r, fs, par =>
    if klt e.val then findNode klt elt l (⟨.left, c, n, e, r⟩ :: fs) (some (.node c n l e r, fs))
    else if elt e.val then findNode klt elt r (⟨.right, c, n, e, l⟩ :: fs) (some (.node c n l e r, fs))
    else (some (.node c n l e r, fs), par)

/-- The number of iterations of the loop of Awl/VectorSet.h:618-635 (every iteration visits one node and makes at most
two comparisons); `find`, `contains`, `index_of(key)`, `lower_bound`, `upper_bound`, `insert` and `erase(key)` all walk
this way. -/
def searchSteps (klt elt : α → Bool) : Tree α → Nat
  | .nil => 0
  | .node _ _ l e r =>
    if klt e.val then searchSteps klt elt l + 1
    else if elt e.val then searchSteps klt elt r + 1
    else 1

/-- The number of iterations of the loop of Awl/VectorSet.h:704-723 (`operator[]`, `at`, `find_by_index`). -/
def indexSteps : Tree α → Nat → Nat
  | .nil, _ => 0
  | .node _ _ l _ r, i =>
    if i < l.cnt then indexSteps l i + 1
    else if i > l.cnt then indexSteps r (i - (l.cnt + 1)) + 1
    else 1

/-- Awl/VectorSet.h:641-666.  `rank` is `parent_rank`; `none` is `(nullptr, -1)`. -/
def findIndexByKey (klt elt : α → Bool) : Tree α → Nat → Option (Elem α × Nat)
  | .nil, _ => none
  | .node _ _ l e r, rank =>
    if klt e.val then findIndexByKey klt elt l rank
    else if elt e.val then findIndexByKey klt elt r (rank + (l.cnt + 1))
    else some (e, l.cnt + rank)

/-- Awl/VectorSet.h:670-696; the second component is the flag `equal`. -/
def findBoundByKey (klt elt : α → Bool) : Tree α → Option (Elem α) → Option (Elem α) × Bool
  | .nil, greater => (greater, false)
  | .node _ _ l e r, greater =>
    if klt e.val then findBoundByKey klt elt l (some e)
    else if elt e.val then findBoundByKey klt elt r greater
    else (some e, true)

/-- Awl/VectorSet.h:698-724. -/
def findNodeByIndex : Tree α → Nat → Option (Elem α)
  | .nil, _ => none
  | .node _ _ l e r, i =>
    let rank := l.cnt
    if i < rank then findNodeByIndex l i
    else if i > rank then findNodeByIndex r (i - (rank + 1))
    else some e

/-- The upward loop of Awl/VectorSet.h:732-747. -/
def indexUp (index : Nat) : List (Frame α) → Nat
  | [] => index
  | f :: fs => indexUp (if f.side = .right then index + (f.sibling.cnt + 1) else index) fs

/-- Awl/VectorSet.h:726-750. -/
def indexOfNode : Cursor α → Res Nat
  | (.nil, _) => .ub
  | (.node _ _ l _ _, fs) => .ok (indexUp l.cnt fs)

/-- Awl/VectorSet.h:845, the rightmost node of a non-empty subtree. -/
def rightmost : Tree α → Option (Elem α)
  | .nil => none
  | .node _ _ _ e .nil => some e
  | .node _ _ _ _ r => rightmost r

/-- Awl/VectorSet.h:852-857, the nearest ancestor that has us in its right subtree. -/
def climbPred : List (Frame α) → Option (Elem α)
  | [] => none
  | f :: fs => if f.side = .left then climbPred fs else some f.elem

/-- Awl/VectorSet.h:836-860. -/
def getPredecessor : Cursor α → Res (Option (Elem α))
  | (.nil, _) => .ub
  | (.node _ _ .nil _ _, fs) => .ok (climbPred fs)
  | (.node _ _ l _ _, _) => .ok (rightmost l)

/-- The node with the given address, as a cursor.  (In the code a pointer is just there; the model looks the node up.) (Awl/VectorSet.h:495, 519). -/
def locate (p : Nat) : Tree α → List (Frame α) → Option (Cursor α)
  | .nil, _ => none
  | .node c n l e r, fs =>
    if e.id = p then some (.node c n l e r, fs)
    else match locate p l (⟨.left, c, n, e, r⟩ :: fs) with
      | some x => some x
      | none => locate p r (⟨.right, c, n, e, l⟩ :: fs)

/-- `quick_list::insert(iterator(pred), node)`, Awl/QuickList.h:114: insert after the node with address `p`, which
must be in the list. -/
def insertAfterId (p : Nat) (x : Elem α) : List (Elem α) → Res (List (Elem α))
  | [] => .ub
  | e :: es =>
    if e.id = p then .ok (e :: x :: es)
    else match insertAfterId p x es with
      | .ok r => .ok (e :: r)
      | .throw ex => .throw ex
      | .ub => .ub

/-- Unlinking the node with address `p`, Awl/VectorSet.h:120-126 `~Node` (safe_exclude: no effect if not included). -/
def removeId (p : Nat) : List (Elem α) → List (Elem α)
  | [] => []
  | e :: es => if e.id = p then es else e :: removeId p es

/-- Awl/VectorSet.h:1207-1211.  `nextId` stands for the allocator: an address that is not in use. -/
structure VSet (α : Type) where
  root : Tree α
  list : List (Elem α)
  nextId : Nat

/-- Awl/VectorSet.h:223-225. -/
def VSet.empty : VSet α := ⟨.nil, [], 0⟩

/-- Awl/VectorSet.h:769-792, the tree part of InsertNode: link the node (`SetLeft`/`SetRight`, 87-97) and rebalance.
Whatever child was there before is overwritten. -/
def linkNode (lt : α → α → Bool) (e : Elem α) : Option (Cursor α) → Res (Tree α)
  | none => do
    let t ← balanceAfterInsert (.node .red 0 .nil e .nil) []
    blackenRoot t
  | some (.nil, _) => .ub
  | some (.node c n l pe r, fs) =>
    if lt e.val pe.val then do
      let p ← updateCount (.node c n (.node .red 0 .nil e .nil) pe r, fs)
      let x ← goLeft p
      let t ← balanceAfterInsert x.1 x.2
      blackenRoot t
    else do
      let p ← updateCount (.node c n l pe (.node .red 0 .nil e .nil), fs)
      let x ← goRight p
      let t ← balanceAfterInsert x.1 x.2
      blackenRoot t

/-- Awl/VectorSet.h:794-805, the list part of InsertNode. -/
def linkList (e : Elem α) (root : Tree α) (list : List (Elem α)) : Res (List (Elem α)) :=
  match locate e.id root [] with
  | none => .ub
  | some c => do
    match ← getPredecessor c with
    | some pred => insertAfterId pred.id e list
    | none => .ok (e :: list)

/-- Awl/VectorSet.h:753-766 (insert 343-351; emplace 354-369 differs only in constructing the node first).  Returns
the new set, the iterator and the flag. -/
def VSet.insert (lt : α → α → Bool) (s : VSet α) (v : α) : Res (VSet α × Elem α × Bool) :=
  match findNode (lt v) (fun u => lt u v) s.root [] none with
  | (some (.node _ _ _ e _, _), _) => .ok (s, e, false)
  | (some (.nil, _), _) => .ub
  | (none, parent) => do
    let e : Elem α := ⟨s.nextId, v⟩
    let root ← linkNode lt e parent
    let list ← linkList e root s.list
    .ok (⟨root, list, s.nextId + 1⟩, e, true)

/-- `if (w->left != nullptr) w->left->color = Color::Black;` (1124-1125, 1133-1134, 1172-1173, 1181-1182) (Awl/VectorSet.h). -/
def blackenIfAny : Tree α → Res (Tree α)
  | .nil => .ok .nil
  | .node _ n l e r => .ok (.node .black n l e r)

/-- The loop body and loop of Awl/VectorSet.h:1085-1189.  The cursor is `x`, the result is the whole tree.  `fuel`
bounds the number of iterations; running out of it is `ub` (an infinite loop). -/
def balanceAfterRemove : Nat → Tree α → List (Frame α) → Res (Tree α)
  | 0, _, _ => .ub
  -- x == m_root: leave the loop, x->color = Black (1188)
  | _ + 1, x, [] => setColor .black x
  | fuel + 1, x, p :: fs =>
    match x with
    | .nil => .ub
    | .node .red n l e r => .ok (zip (.node .black n l e r) (p :: fs))
    | x =>
      match p.side with
      | .left =>
        match p.sibling with
        | .nil => balanceAfterRemove fuel (plug x p) fs          -- 1094-1098
        | .node cw nw wl we wr => do
          -- 1100-1106: the sibling is red
          let (x, fs1) ←
            (if cw = .red then do
               let t := plug x { p with color := .red, sibling := .node .black nw wl we wr }
               goLeft (← goLeft (← rotateLeft (t, fs)))
             else .ok (x, p :: fs))
          match fs1 with
          | [] => .ub
          | p :: fs =>
            match p.sibling with
            | .nil => balanceAfterRemove fuel (plug x p) fs      -- 1108-1112
            | .node cw nw wl we wr =>
              if !isRed wl && !isRed wr then                      -- 1114-1119
                balanceAfterRemove fuel (plug x { p with sibling := .node .red nw wl we wr }) fs
              else do
                -- 1122-1129
                let (w, p, fs) ←
                  (if !isRed wr then do
                     let wl' ← blackenIfAny wl
                     -- RotateRight(w): w is the right child of x->parent
                     let (w, ws) ← rotateRight (.node .red nw wl' we wr, ⟨.right, p.color, p.count, p.elem, x⟩ :: fs)
                     match ws with
                     | q :: fs' => .ok (w, { p with color := q.color, count := q.count, elem := q.elem }, fs')
                     | [] => .ub
                   else .ok (.node cw nw wl we wr, p, fs))
                match w with
                | .nil => .ub
                | .node _ nw wl we wr => do
                  -- 1131-1136
                  let wr' ← blackenIfAny wr
                  let t := plug x { p with color := .black, sibling := .node p.color nw wl we wr' }
                  let (r, rs) ← rotateLeft (t, fs)
                  -- x = m_root
                  setColor .black (zip r rs)
      | .right =>
        match p.sibling with
        | .nil => balanceAfterRemove fuel (plug x p) fs          -- 1142-1146
        | .node cw nw wl we wr => do
          let (x, fs1) ←
            (if cw = .red then do
               let t := plug x { p with color := .red, sibling := .node .black nw wl we wr }
               goRight (← goRight (← rotateRight (t, fs)))
             else .ok (x, p :: fs))
          match fs1 with
          | [] => .ub
          | p :: fs =>
            match p.sibling with
            | .nil => balanceAfterRemove fuel (plug x p) fs      -- 1156-1160
            | .node cw nw wl we wr =>
              if !isRed wr && !isRed wl then                      -- 1162-1167
                balanceAfterRemove fuel (plug x { p with sibling := .node .red nw wl we wr }) fs
              else do
                let (w, p, fs) ←
                  (if !isRed wl then do
                     let wr' ← blackenIfAny wr
                     let (w, ws) ← rotateLeft (.node .red nw wl we wr', ⟨.left, p.color, p.count, p.elem, x⟩ :: fs)
                     match ws with
                     | q :: fs' => .ok (w, { p with color := q.color, count := q.count, elem := q.elem }, fs')
                     | [] => .ub
                   else .ok (.node cw nw wl we wr, p, fs))
                match w with
                | .nil => .ub
                | .node _ nw wl we wr => do
                  let wl' ← blackenIfAny wl
                  let t := plug x { p with color := .black, sibling := .node p.color nw wl' we wr }
                  let (r, rs) ← rotateRight (t, fs)
                  setColor .black (zip r rs)

/-- Awl/VectorSet.h:818 within RemoveNode: the leftmost node of the right subtree, as a cursor whose path ends in the
frames given. -/
def leftmostCursor : Tree α → List (Frame α) → Res (Cursor α)
  | .nil, _ => .ub
  | .node c n .nil e r, fs => .ok (.node c n .nil e r, fs)
  | .node c n l e r, fs => leftmostCursor l (⟨.left, c, n, e, r⟩ :: fs)

/-- `x != nullptr ? x : other`, Awl/VectorSet.h:1046-1049: the only child of `y`. -/
def onlyChild (l r : Tree α) : Tree α :=
  match l with
  | .nil => r
  | l => l

/-- Awl/VectorSet.h:1051-1062: unlink `y` (whose subtree has `ny` elements) from its parent, `x` takes its place.  If
`x` is not null `x->SetParent(y->parent)` updates the counters of the parent once before the relinking. -/
def unlink (ny : Nat) (x : Tree α) (fs : List (Frame α)) : Cursor α :=
  let fs1 := match x with
    | .nil => fs
    | _ => updPath ny fs
  (x, updPath x.cnt fs1)

/-- Awl/VectorSet.h:1064-1070 with CopyFrom 129-162: in the path from the root to `x` the node `z` (the frame at
distance `k`) is replaced by `y`: it takes z's colour, counter and children; the parent's counters are recomputed
(SetLeft/SetRight 152-156, SetParent 161). -/
def replaceFrame (y : Elem α) : Nat → List (Frame α) → Res (List (Frame α))
  | _, [] => .ub
  | 0, f :: fs => .ok ({ f with elem := y } :: updPath (f.count + 1) (updPath (f.count + 1) fs))
  | k + 1, f :: fs => do
    let fs' ← replaceFrame y k fs
    .ok (f :: fs')

/-- Awl/VectorSet.h:1077-1078, the end of RemoveNode; `cy` is the tested colour. -/
def removeEnd (cy : Color) (x : Tree α) (xs : List (Frame α)) : Res (Tree α) :=
  match x with
  | .nil => .ok (zip x xs)
  | x => if cy = .black then balanceAfterRemove (2 * xs.length + 2) x xs else .ok (zip x xs)

/-- Awl/VectorSet.h:1036-1078, RemoveNode without destroying the node. -/
def removeTree : Cursor α → Res (Tree α)
  | (.nil, _) => .ub
  | (.node cz nz lz ez rz, fs) => do
    -- (cursor to x, colour of y as tested in 1077)
    let ((x, xs), cy) ←
      (match lz, rz with
       | .nil, _ => .ok (unlink (nz + 1) (onlyChild lz rz) fs, cz)
       | _, .nil => .ok (unlink (nz + 1) (onlyChild lz rz) fs, cz)
       | _, _ => do
         let (y, ys) ← leftmostCursor rz (⟨.right, cz, nz, ez, lz⟩ :: fs)
         match y with
         | .nil => .ub
         | .node _ ny ly ey ry => do
           let (x, xs) := unlink (ny + 1) (onlyChild ly ry) ys
           let xs' ← replaceFrame ey (ys.length - fs.length - 1) xs
           .ok ((x, xs'), cz))
    removeEnd cy x xs

/-- Awl/VectorSet.h:517-520 `erase(iterator)` and 1036-1082: the node with address `p`. -/
def VSet.eraseNode (s : VSet α) (p : Nat) : Res (VSet α) :=
  match locate p s.root [] with
  | none => .ub
  | some c => do
    let root ← removeTree c
    .ok { s with root := root, list := removeId p s.list }

/-- Awl/VectorSet.h:524-535 `erase(key)`; returns the number of removed elements. -/
def VSet.eraseKey (klt elt : α → Bool) (s : VSet α) : Res (VSet α × Nat) :=
  match (findNode klt elt s.root [] none).1 with
  | some (.node _ _ _ e _, _) => do
    let s' ← s.eraseNode e.id
    .ok (s', 1)
  | some (.nil, _) => .ub
  | none => .ok (s, 0)

/-- Awl/VectorSet.h:537-546: the nodes are destroyed one by one from the front of the list. -/
def VSet.clear (s : VSet α) : VSet α := { s with root := .nil, list := [] }

/-- Awl/VectorSet.h:371-374. -/
def VSet.isEmpty (s : VSet α) : Bool := match s.root with | .nil => true | _ => false

/-- Awl/VectorSet.h:376-379. -/
def VSet.size (s : VSet α) : Nat := s.root.cnt

/-- Awl/VectorSet.h:382-391 `find`, 587-592: the iterator, `none` is `end()`. -/
def VSet.find (klt elt : α → Bool) (s : VSet α) : Res (Option (Elem α)) :=
  match (findNode klt elt s.root [] none).1 with
  | none => .ok none
  | some (.nil, _) => .ub
  | some (.node _ _ _ e _, _) => .ok (some e)

/-- Awl/VectorSet.h:424-427. -/
def VSet.contains (klt elt : α → Bool) (s : VSet α) : Bool := (findNode klt elt s.root [] none).1.isSome

/-- Awl/VectorSet.h:397-410 `find2`. -/
def VSet.find2 (klt elt : α → Bool) (s : VSet α) : Option (Elem α × Nat) := findIndexByKey klt elt s.root 0

/-- Awl/VectorSet.h:430-439. -/
def VSet.lowerBound (klt elt : α → Bool) (s : VSet α) : Option (Elem α) := (findBoundByKey klt elt s.root none).1

/-- `++` of a list iterator, Awl/DoubleIterator.h: the node after the one with address `p`; `none` is `end()`. -/
def nextOf (p : Nat) : List (Elem α) → Res (Option (Elem α))
  | [] => .ub
  | e :: es => if e.id = p then .ok es.head? else nextOf p es

/-- Awl/VectorSet.h:442-467. -/
def VSet.upperBound (klt elt : α → Bool) (s : VSet α) : Res (Option (Elem α)) :=
  match findBoundByKey klt elt s.root none with
  | (some e, true) => nextOf e.id s.list
  | (o, _) => .ok o

/-- Awl/VectorSet.h:413-421. -/
def VSet.findByIndex (s : VSet α) (i : Nat) : Option (Elem α) := findNodeByIndex s.root i

/-- Awl/VectorSet.h:469-477: dereferences null when there is no such index. -/
def VSet.get (s : VSet α) (i : Nat) : Res α :=
  match findNodeByIndex s.root i with
  | some e => .ok e.val
  | none => .ub

/-- Awl/VectorSet.h:479-489 with CheckPosition 1199-1205. -/
def VSet.at_ (s : VSet α) (i : Nat) : Res α :=
  if i < s.size then s.get i else .throw .outOfRange

/-- Awl/VectorSet.h:493-501 `index_of(iterator)`. -/
def VSet.indexOfIter (s : VSet α) (p : Nat) : Res Nat :=
  match locate p s.root [] with
  | none => .ub
  | some c => indexOfNode c

/-- Awl/VectorSet.h:504-514 `index_of(key)`. -/
def VSet.indexOfKey (klt elt : α → Bool) (s : VSet α) : Res Nat :=
  match findIndexByKey klt elt s.root 0 with
  | some (_, i) => .ok i
  | none => .throw .outOfRange

/-- Iteration from `begin()` to `end()`, Awl/VectorSet.h:331-335. -/
def VSet.forward (s : VSet α) : List α := s.list.map Elem.val

/-- Iteration from `rbegin()` to `rend()`, Awl/VectorSet.h:337-341. -/
def VSet.backward (s : VSet α) : List α := (s.list.map Elem.val).reverse

/-- The loop of Awl/VectorSet.h:304-312: compare element by element while walking both lists. -/
def eqLoop (lt : α → α → Bool) : List α → List α → Res Bool
  | [], _ => .ok true
  | _ :: _, [] => .ub                 -- dereferencing end()
  | v :: vs, i :: is => if lt v i || lt i v then .ok false else eqLoop lt vs is

/-- Awl/VectorSet.h:299-318. -/
def VSet.eq (lt : α → α → Bool) (a b : VSet α) : Res Bool :=
  if a.size = b.size then eqLoop lt b.forward a.forward else .ok false

/-- Awl/VectorSet.h:1191-1197 CopyElements. -/
def VSet.insertAll (lt : α → α → Bool) (s : VSet α) : List α → Res (VSet α)
  | [] => .ok s
  | v :: vs => do
    let (s', _, _) ← s.insert lt v
    s'.insertAll lt vs

/-- Awl/VectorSet.h:278-285, copy assignment `a = b` for two different objects. -/
def VSet.copyAssign (lt : α → α → Bool) (a b : VSet α) : Res (VSet α) := a.clear.insertAll lt b.forward

/-- Awl/VectorSet.h:278-285, copy assignment `a = a`: the source is cleared before it is copied. -/
def VSet.selfCopyAssign (lt : α → α → Bool) (a : VSet α) : Res (VSet α) :=
  let a' := a.clear
  a'.insertAll lt a'.forward

/-- Awl/VectorSet.h:287-297, move assignment for two different objects: the target and the source. -/
def VSet.moveAssign (a b : VSet α) : VSet α × VSet α :=
  ({ b with nextId := max a.nextId b.nextId }, { b with root := .nil, list := [] })

/-- Awl/VectorSet.h:287-297, `a = std::move(a)`: `m_list` keeps itself (Awl/QuickList.h:82), `m_root` becomes null. -/
def VSet.selfMoveAssign (a : VSet α) : VSet α := a.clear

end Verif.VectorSet
