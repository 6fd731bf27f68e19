import Verif.ForeignSet.Model

/-!
# A `foreign_set` and exceptions: `Awl/ForeignSet.h`, `Awl/ObservableSet.h`, `Awl/Observable.h`

A source and its observers in the order of subscription: `foreign_set`s, each with its own keys, and other observers that touch nothing.  Each operation comes
with the observers that throw when it calls them.  A `foreign_set` throws only when it needs memory, in `OnAdded`: the allocation of a node comes before any
change (C146), and a new group that could not be put in its place ends with its scope.  The exceptions are caught by the program, which goes on using the sets.

Simplification: a `foreign_set` and its groups have no observers of their own here.
-/

namespace Verif.ForeignSet.Throw

open Verif.VectorSet
open Verif.ObservableSet

variable {α κ φ : Type}

/-- An observer of the source: a `foreign_set` with its keys and groups (ForeignSet.h:17-18, 229-232), or another one (ObservableSet.h:15-20). -/
inductive Watcher (α κ φ : Type) where
  | foreign (K : Keys α κ φ) (gs : List (OSet α))
  | other

/-- The source and its observers (ObservableSet.h:329-331). -/
structure Net (α κ φ : Type) where
  src : OSet α
  ws : List (Watcher α κ φ)

/-- Whether a `foreign_set` that would run out of memory does so at this event: only `OnAdded` allocates (ForeignSet.h:173-228). -/
def fails (short : Bool) : Event α → Bool
  | .added _ => short
  | .removing _ => false
  | .clearing => false

/-- `Notify` (Observable.h:108-117) with the handlers of the `foreign_set`s (ForeignSet.h:173-228), beginning with observer number `i`: the observers are called
in order until one throws.  `t i` says that observer `i` throws; its exception is `.user i`. -/
def notifyAll (t : Nat → Bool) (e : Event α) : Nat → List (Watcher α κ φ) → List (Watcher α κ φ) × Res Unit
  | _, [] => ([], .ok ())
  | i, .foreign K gs :: ws =>
    if fails (t i) e then (.foreign K gs :: ws, .throw (.user i))
    else
      match foreignOn K gs e with
      | .ok (gs', _) =>
        let r := notifyAll t e (i + 1) ws
        (.foreign K gs' :: r.1, r.2)
      | .throw x => (.foreign K gs :: ws, .throw x)
      | .ub => (.foreign K gs :: ws, .ub)
  | i, .other :: ws =>
    if t i then (.other :: ws, .throw (.user i))
    else
      let r := notifyAll t e (i + 1) ws
      (.other :: r.1, r.2)

/-- `insert` (ObservableSet.h:143-155, 301-307): the element is in the set before the observers are called. -/
def insert (lt : α → α → Bool) (n : Net α κ φ) (v : α) (t : Nat → Bool) : Net α κ φ × Res Bool :=
  match n.src.insert lt v with
  | .ok (o, .inserted x true, _) =>
    let r := notifyAll t (.added x) 0 n.ws
    (⟨o, r.1⟩, r.2 >>= fun _ => .ok true)
  | .ok (o, _, _) => (⟨o, n.ws⟩, .ok false)
  | .throw x => (n, .throw x)
  | .ub => (n, .ub)

/-- `erase(key)` (ObservableSet.h:244-262): the observers are called before the element is removed. -/
def erase (lt : α → α → Bool) (n : Net α κ φ) (k : α) (t : Nat → Bool) : Net α κ φ × Res Bool :=
  match n.src.set.find (lt k) (fun a => lt a k) with
  | .ok (some e) =>
    match notifyAll t (.removing e.val) 0 n.ws with
    | (ws, .ok _) =>
      match n.src.eraseIter e with
      | .ok (o, _) => (⟨o, ws⟩, .ok true)
      | .throw x => (⟨n.src, ws⟩, .throw x)
      | .ub => (⟨n.src, ws⟩, .ub)
    | (ws, .throw x) => (⟨n.src, ws⟩, .throw x)
    | (ws, .ub) => (⟨n.src, ws⟩, .ub)
  | .ok none => (n, .ok false)
  | .throw x => (n, .throw x)
  | .ub => (n, .ub)

/-- `clear` (ObservableSet.h:264-271): nothing if the set is empty, the observers are called before it is cleared. -/
def clear (n : Net α κ φ) (t : Nat → Bool) : Net α κ φ × Res Bool :=
  if !n.src.set.isEmpty then
    match notifyAll t .clearing 0 n.ws with
    | (ws, .ok _) => (⟨n.src.clear.1, ws⟩, .ok true)
    | (ws, .throw x) => (⟨n.src, ws⟩, .throw x)
    | (ws, .ub) => (⟨n.src, ws⟩, .ub)
  else (n, .ok false)

/-- The loop of the constructor (ForeignSet.h:80-83), beginning with element number `j`: `t j` says that there is no memory for it. -/
def build (K : Keys α κ φ) (t : Nat → Bool) : Nat → List (OSet α) → List α → Res (List (OSet α))
  | _, gs, [] => .ok gs
  | j, gs, v :: L =>
    if t j then .throw (.user j)
    else do
      let (gs', _) ← onAdded K gs v
      build K t (j + 1) gs' L

/-- A new `foreign_set` of the source (ForeignSet.h:76-87): if an element cannot be added, it is not subscribed and ends. -/
def attach (n : Net α κ φ) (K : Keys α κ φ) (t : Nat → Bool) : Net α κ φ × Res Bool :=
  match build K t 0 [] n.src.set.forward with
  | .ok gs => (⟨n.src, n.ws ++ [.foreign K gs]⟩, .ok true)
  | .throw x => (n, .throw x)
  | .ub => (n, .ub)

/-- What the program does (ObservableSet.h:143-297, ForeignSet.h:76-87, Observable.h:47-50).  The predicate of an operation says which observers throw, the one of `attach`
for which elements there is no memory. -/
inductive Op (α κ φ : Type) where
  | insert (v : α) (t : Nat → Bool)
  | erase (k : α) (t : Nat → Bool)
  | clear (t : Nat → Bool)
  | attach (K : Keys α κ φ) (t : Nat → Bool)
  | subscribe
  | detach (i : Nat)

/-- One operation (ObservableSet.h:143-297, ForeignSet.h:76-87). -/
def step (lt : α → α → Bool) (n : Net α κ φ) : Op α κ φ → Net α κ φ × Res Bool
  | .insert v t => insert lt n v t
  | .erase k t => erase lt n k t
  | .clear t => clear n t
  | .attach K t => attach n K t
  | .subscribe => (⟨n.src, n.ws ++ [.other]⟩, .ok true)
  | .detach i => (⟨n.src, n.ws.eraseIdx i⟩, .ok true)

/-- A history: exceptions are caught; the state at the end and the results (ObservableSet.h:143-297). -/
def run (lt : α → α → Bool) : Net α κ φ → List (Op α κ φ) → Net α κ φ × List (Res Bool)
  | n, [] => (n, [])
  | n, op :: ops =>
    let r := step lt n op
    let q := run lt r.1 ops
    (q.1, r.2 :: q.2)

/-- A new set (ObservableSet.h:49). -/
def Net.init : Net α κ φ := ⟨OSet.empty, []⟩

end Verif.ForeignSet.Throw
