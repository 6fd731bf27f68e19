import Verif.QuickList.Spec

/-!
# `Awl/Observable.h`

`Observer` is a movable list element whose destructor calls `safe_exclude`; `Observable` is a `quick_list` of
observers.  The model uses the link-level heap of `Verif.QuickList`: an observer is the address of its link, an
observable the address of the sentinel of its list.  What a callback does to observers and observables is arbitrary:
it is a history of operations of the same kind, chosen from the calls made so far.
-/

namespace Verif.Observable

open Verif.QuickList

/-! ## Members of `Observer` and `Observable` -/

/-- `Observer::IsSubscribed` (`Awl/Observable.h` 29-32). -/
def isSubscribed (h : Heap) (a : Nat) : Res Bool := included h a

/-- `Observer::UnsubscribeSelf` (34-37) and `Observable::Unsubscribe(a)` (89-92) (Awl/Observable.h). -/
def unsubscribeSelf (h : Heap) (a : Nat) : Res Heap := exclude h a

/-- `Observer::UnsubscribeSafe` (39-45) (Awl/Observable.h). -/
def unsubscribeSafe (h : Heap) (a : Nat) : Res Heap := do
  let b ← isSubscribed h a
  if b then unsubscribeSelf h a else return h

/-- `~Observer` (47-50) and the end of the object's lifetime (Awl/Observable.h). -/
def destroyObserver (h : Heap) (a : Nat) : Res Heap := do
  let h ← safeExclude h a
  kill h a

/-- `Observable::Subscribe` (84-87) (Awl/Observable.h). -/
def subscribe (h : Heap) (s a : Nat) : Res Heap := pushBack h s a

/-- `Observable::ClearObservers` (143-149): `while (!Observers.empty()) Observers.pop_front();`.  `none` in the outcome
means that the loop has not ended after `fuel` tests of the condition (Awl/Observable.h). -/
def clearObservers : Nat → Heap → Nat → Res (Option Heap)
  | 0, _, _ => .ok none
  | fuel + 1, h, s => do
    let e ← isEmpty h s
    if e then return some h else
      let (h, _) ← popFront h s
      clearObservers fuel h s

/-- `~Observable` (64-67) and the end of the object's lifetime (Awl/Observable.h). -/
def destroyObservable (fuel : Nat) (h : Heap) (s : Nat) : Res (Option Heap) := do
  match ← clearObservers fuel h s with
  | none => return none
  | some h => return some (← kill h s)

/-- Move assignment of an observable (77-82) (Awl/Observable.h). -/
def moveAssignObservable (fuel : Nat) (h : Heap) (s t : Nat) : Res (Option Heap) := do
  match ← clearObservers fuel h s with
  | none => return none
  | some h => return some (← moveAssignList h s t)

/-! ## Histories -/

/-- Operations of a program on observers and observables.  `subscribe s a` etc. are the list operations they
consist of (Awl/Observable.h:29-102). -/
inductive OOp where
  | newObserver (a : Nat)
  | newObservable (s : Nat)
  | subscribe (s a : Nat)
  | unsubscribe (a : Nat)
  | unsubscribeSafe (a : Nat)
  | isSubscribed (a : Nat)
  | destroyObserver (a : Nat)
  | destroyObservable (s : Nat)
  | moveConstructObserver (b a : Nat)
  | moveAssignObserver (b a : Nat)
  | moveConstructObservable (s t : Nat)
  | moveAssignObservable (s t : Nat)
deriving DecidableEq, Repr

/-- The loops of `ClearObservers` run with the given fuel; running out of fuel is reported as `none` (Awl/Observable.h:29-102, 143-149). -/
def ostep (fuel : Nat) (h : Heap) : OOp → Res (Option (Heap × Out))
  | .newObserver a => do return some (← newElem h a, .unit)
  | .newObservable s => do return some (← newList h s, .unit)
  | .subscribe s a => do return some (← subscribe h s a, .unit)
  | .unsubscribe a => do return some (← unsubscribeSelf h a, .unit)
  | .unsubscribeSafe a => do return some (← unsubscribeSafe h a, .unit)
  | .isSubscribed a => do return some (h, .bool (← isSubscribed h a))
  | .destroyObserver a => do return some (← destroyObserver h a, .unit)
  | .destroyObservable s => do return (← destroyObservable fuel h s).map (·, .unit)
  | .moveConstructObserver b a => do return some (← moveConstruct h b a, .unit)
  | .moveAssignObserver b a => do return some (← moveAssign h b a, .unit)
  | .moveConstructObservable s t => do return some (← moveConstructList h s t, .unit)
  | .moveAssignObservable s t => do return (← moveAssignObservable fuel h s t).map (·, .unit)

/-- A history of operations (Awl/Observable.h:29-102, 143-149). -/
def orun (fuel : Nat) (h : Heap) : List OOp → Res (Option (Heap × List Out))
  | [] => .ok (some (h, []))
  | op :: ops => do
    match ← ostep fuel h op with
    | none => return none
    | some (h, o) =>
      match ← orun fuel h ops with
      | none => return none
      | some (h, os) => return some (h, o :: os)

/-! ## Notifications -/

/-- What the callbacks do: the history of operations that the last of the calls made so far performs (Awl/Observable.h:116, 128). -/
abbrev Script := List Nat → List OOp

/-- The loop of `Observable::Notify` (`Awl/Observable.h` 111-117).  `i` is the iterator, `calls` the observers called
so far.  `*(i++)` reads the link of the observer before the call.  `Observers.end()` of a destroyed observable is
undefined behaviour, and so is calling a destroyed observer.  `none`: the loop has not ended within `fuel` tests. -/
def notifyLoop (script : Script) (s : Nat) : Nat → Heap → Ptr → List Nat → Res (Option (Heap × List Nat))
  | 0, _, _, _ => .ok none
  | fuel + 1, h, i, calls =>
    if h.alive s then
      if i = some s then .ok (some (h, calls)) else
        match i with
        | none => .ub
        | some x => do
          let n ← rd h.alive h.fwd (some x)
          match ← orun fuel h (script (calls ++ [x])) with
          | none => return none
          | some (h, _) => notifyLoop script s fuel h n (calls ++ [x])
    else .ub

/-- `Observable::Notify` (Awl/Observable.h:108-118). -/
def notify (script : Script) (fuel : Nat) (h : Heap) (s : Nat) : Res (Option (Heap × List Nat)) := do
  let i ← rd h.alive h.fwd (some s)
  notifyLoop script s fuel h i []

/-- The loop of `Observable::NotifyWhileTrue` (123-134); `ret calls` is what the last of the calls returns (Awl/Observable.h). -/
def notifyWhileLoop (script : Script) (ret : List Nat → Bool) (s : Nat) :
    Nat → Heap → Ptr → List Nat → Res (Option (Heap × List Nat × Bool))
  | 0, _, _, _ => .ok none
  | fuel + 1, h, i, calls =>
    if h.alive s then
      if i = some s then .ok (some (h, calls, true)) else
        match i with
        | none => .ub
        | some x => do
          let n ← rd h.alive h.fwd (some x)
          match ← orun fuel h (script (calls ++ [x])) with
          | none => return none
          | some (h, _) =>
            if ret (calls ++ [x]) then notifyWhileLoop script ret s fuel h n (calls ++ [x])
            else return some (h, calls ++ [x], false)
    else .ub

/-- `Observable::NotifyWhileTrue` (Awl/Observable.h:120-135). -/
def notifyWhileTrue (script : Script) (ret : List Nat → Bool) (fuel : Nat) (h : Heap) (s : Nat) :
    Res (Option (Heap × List Nat × Bool)) := do
  let i ← rd h.alive h.fwd (some s)
  notifyWhileLoop script ret s fuel h i []

end Verif.Observable
