import Verif.ObservableSet.Model

/-!
# A set with observers that throw: `Awl/ObservableSet.h`, `Awl/MirrorSet.h`, `Awl/Observable.h`

A source and its observers in the order of subscription: mirrors, each with its own order, and other observers that throw at some events and touch nothing.
The exceptions are caught by the program, which goes on using the set.  A mirror has no observers of its own here.
-/

namespace Verif.ObservableSet.Throw

open Verif.VectorSet

variable {α : Type}

/-- An observer: a mirror (MirrorSet.h:12-204) or another one, with the events it throws at (ObservableSet.h:15-20). -/
inductive Watcher (α : Type) where
  | mirror (lt : α → α → Bool) (m : OSet α)
  | other (throws : Event α → Bool)

/-- The source and its observers (ObservableSet.h:329-331). -/
structure Net (α : Type) where
  src : OSet α
  ws : List (Watcher α)

/-- `Notify` (Observable.h:108-117) with the handlers of mirrors (MirrorSet.h:183-202): the observers are called in order until one throws.
A handler of a mirror that throws has changed nothing, because its `insert` found the element or its `erase` did not. -/
def notifyAll (e : Event α) : List (Watcher α) → List (Watcher α) × Res Unit
  | [] => ([], .ok ())
  | .mirror lt m :: ws =>
    match mirrorOn lt m e with
    | .ok (m', _) =>
      let r := notifyAll e ws
      (.mirror lt m' :: r.1, r.2)
    | .throw x => (.mirror lt m :: ws, .throw x)
    | .ub => (.mirror lt m :: ws, .ub)
  | .other t :: ws =>
    if t e then (.other t :: ws, .throw (.user 0))
    else
      let r := notifyAll e ws
      (.other t :: r.1, r.2)

/-- `insert` (ObservableSet.h:143-155, 301-307): the element is in the set before the observers are called. -/
def insert (lt : α → α → Bool) (n : Net α) (v : α) : Net α × Res Bool :=
  match n.src.insert lt v with
  | .ok (o, .inserted x true, _) =>
    let r := notifyAll (.added x) n.ws
    (⟨o, r.1⟩, r.2 >>= fun _ => .ok true)
  | .ok (o, _, _) => (⟨o, n.ws⟩, .ok false)
  | .throw x => (n, .throw x)
  | .ub => (n, .ub)

/-- `erase(key)` (ObservableSet.h:244-262): the observers are called before the element is removed. -/
def erase (lt : α → α → Bool) (n : Net α) (k : α) : Net α × Res Bool :=
  match n.src.set.find (lt k) (fun a => lt a k) with
  | .ok (some e) =>
    match notifyAll (.removing e.val) n.ws with
    | (ws, .ok _) =>
      match n.src.eraseIter e with
      | .ok (o, _) => (⟨o, ws⟩, .ok true)
      | .throw x => (⟨n.src, ws⟩, .throw x)
      | .ub => (⟨n.src, ws⟩, .ub)
    | (ws, .throw x) => (⟨n.src, ws⟩, .throw x)
    | (ws, .ub) => (⟨n.src, ws⟩, .ub)
  | .ok none => (n, .ok false)
  | .throw x => (n, .throw x)
  | .ub => (n, .ub)

/-- `clear` (ObservableSet.h:264-271): nothing if the set is empty, the observers are called before it is cleared. -/
def clear (n : Net α) : Net α × Res Bool :=
  if !n.src.set.isEmpty then
    match notifyAll .clearing n.ws with
    | (ws, .ok _) => (⟨n.src.clear.1, ws⟩, .ok true)
    | (ws, .throw x) => (⟨n.src, ws⟩, .throw x)
    | (ws, .ub) => (⟨n.src, ws⟩, .ub)
  else (n, .ok false)

/-- A new mirror reflects the set (MirrorSet.h:62-72): if an element cannot be added, the mirror is not subscribed (and ends with its scope). -/
def attach (n : Net α) (lt' : α → α → Bool) : Net α × Res Bool :=
  match reflect lt' OSet.empty n.src.set with
  | .ok (m, _) => (⟨n.src, n.ws ++ [.mirror lt' m]⟩, .ok true)
  | .throw x => (n, .throw x)
  | .ub => (n, .ub)

/-- What the program does (ObservableSet.h:143-297, MirrorSet.h:62-72). -/
inductive Op (α : Type) where
  | insert (v : α)
  | erase (k : α)
  | clear
  | attach (lt' : α → α → Bool)
  | subscribe (throws : Event α → Bool)

/-- One operation (ObservableSet.h:143-297). -/
def step (lt : α → α → Bool) (n : Net α) : Op α → Net α × Res Bool
  | .insert v => insert lt n v
  | .erase k => erase lt n k
  | .clear => clear n
  | .attach lt' => attach n lt'
  | .subscribe t => (⟨n.src, n.ws ++ [.other t]⟩, .ok true)

/-- A history: exceptions are caught; the state at the end and the results (ObservableSet.h:143-297). -/
def run (lt : α → α → Bool) : Net α → List (Op α) → Net α × List (Res Bool)
  | n, [] => (n, [])
  | n, op :: ops =>
    let r := step lt n op
    let q := run lt r.1 ops
    (q.1, r.2 :: q.2)

/-- A new set (ObservableSet.h:49). -/
def Net.init : Net α := ⟨OSet.empty, []⟩

end Verif.ObservableSet.Throw
