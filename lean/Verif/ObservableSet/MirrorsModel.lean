import Verif.ObservableSet.Model

/-!
# Programs with several sets and several mirrors of them: `Awl/MirrorSet.h`, `Awl/ObservableSet.h`

The subscribers of the sets are mirrors.  Mirrors are constructed, attached to sets, moved and destroyed, as the sets are.  A mirror is an `Observer`
(its place in the list of a set) and an `observable_set` of its own.

Simplifications: the mirrors have no subscribers of their own (C20 is about those), and all of them have the same order, all the sets another one; if a mirror throws the state is lost (C140 is about that).
-/

namespace Verif.ObservableSet

open Verif.VectorSet

variable {α : Type}

/-- The sets and the mirrors that exist (objects of Awl/ObservableSet.h:22-332 and Awl/MirrorSet.h:12-206). -/
structure MState (α : Type) where
  sets : State α
  mirrors : Nat → Option (VSet α)

/-- One mirror is replaced (a notion of the model; objects of Awl/MirrorSet.h:12-206). -/
def setMirror (ms : Nat → Option (VSet α)) (k : Nat) (v : Option (VSet α)) : Nat → Option (VSet α) := fun l => if l = k then v else ms l

/-- The handlers of one mirror (Awl/MirrorSet.h:183-202). -/
def onEvent (lt' : α → α → Bool) (v : VSet α) (e : Event α) : Res (VSet α) := do
  let (m, _) ← mirrorOn lt' ⟨v, []⟩ e
  .ok m.set

/-- The calls that a set makes (Awl/Observable.h:111-117); a mirror that does not exist cannot be called. -/
def deliverAll (lt' : α → α → Bool) : List (Note α) → (Nat → Option (VSet α)) → Res (Nat → Option (VSet α))
  | [], ms => .ok ms
  | n :: ns, ms =>
    match ms n.observer with
    | none => .ub
    | some v => do
      let v' ← onEvent lt' v n.event
      deliverAll lt' ns (setMirror ms n.observer (some v'))

/-- The calls among what happened (Awl/ObservableSet.h:301-327). -/
def notesOf (items : List (Item α)) : List (Note α) := items.filterMap (fun | .note n => some n | .started _ _ => none)

/-- The lists of subscribers change (Awl/QuickLink.h:167-190, through Awl/Observable.h:23-27, 47-50). -/
def State.mapSubs (st : State α) (f : List Nat → List Nat) : State α :=
  { st with sets := fun i => (st.sets i).map (fun o => { o with subs := f o.subs }) }

/-- The link is excluded from the list it is in, if any (Awl/Observable.h:47-50, Awl/QuickLink.h:174). -/
def State.leave (st : State α) (k : Nat) : State α := st.mapSubs (fun l => l.filter (· ≠ k))

/-- The link `k` takes the place of `l`, if that is in a list (Awl/QuickLink.h:182-190). -/
def State.takePlace (st : State α) (k l : Nat) : State α := st.mapSubs (fun s => s.map (fun a => if a = l then k else a))

/-- The operations of a program (Awl/MirrorSet.h:38-85 and Awl/ObservableSet.h:49-287). -/
inductive MOp (α : Type) where
  | source (op : Op α)
  | newMirror (k : Nat)
  | reflect (k i : Nat)
  | moveMirror (k l : Nat)
  | assignMirror (k l : Nat)
  | destroyMirror (k : Nat)
  /-- `UnsubscribeSelf`, a public member of the base class -/
  | detach (k : Nat)

/-- One operation.  `source` is anything but subscribing and unsubscribing, which is done by the mirrors (Awl/MirrorSet.h:38-85, Awl/ObservableSet.h:49-287). -/
def MState.step (lt lt' : α → α → Bool) (st : MState α) : MOp α → Res (MState α)
  | .source op =>
    match op with
    | .subscribe _ _ => .ub
    | .unsubscribe _ _ => .ub
    | op => do
      let (s, _, items) ← st.sets.step lt op
      let ms ← deliverAll lt' (notesOf items) st.mirrors
      .ok ⟨s, ms⟩
  | .newMirror k =>
    match st.mirrors k with
    | some _ => .ub
    | none => .ok ⟨st.sets, setMirror st.mirrors k (some VSet.empty)⟩
  | .reflect k i =>
    -- 62-72
    match st.mirrors k, st.sets.sets i with
    | some v, some o => do
      let (m, _) ← reflect lt' ⟨v, []⟩ o.set
      let (s, _, _) ← st.sets.step lt (.subscribe i k)
      .ok ⟨s, setMirror st.mirrors k (some m.set)⟩
    | _, _ => .ub
  | .moveMirror k l =>
    -- 47: the base `Observer` and the set
    match st.mirrors k, st.mirrors l with
    | none, some v =>
      let m := VSet.empty.moveAssign v
      .ok ⟨st.sets.takePlace k l, setMirror (setMirror st.mirrors k (some m.1)) l (some m.2)⟩
    | _, _ => .ub
  | .assignMirror k l =>
    -- 51: the base `Observer` and the set
    match st.mirrors k, st.mirrors l with
    | some u, some v =>
      if k = l then .ok ⟨st.sets.leave k, setMirror st.mirrors k (some u.selfMoveAssign)⟩
      else
        let m := u.moveAssign v
        .ok ⟨(st.sets.leave k).takePlace k l, setMirror (setMirror st.mirrors k (some m.1)) l (some m.2)⟩
    | _, _ => .ub
  | .destroyMirror k =>
    match st.mirrors k with
    | none => .ub
    | some _ => .ok ⟨st.sets.leave k, setMirror st.mirrors k none⟩
  | .detach k =>
    -- Awl/Observable.h:34-37
    match st.mirrors k with
    | none => .ub
    | some _ => if st.sets.subscribed k then .ok ⟨st.sets.leave k, st.mirrors⟩ else .ub

/-- A history (Awl/MirrorSet.h:38-85, Awl/ObservableSet.h:49-287). -/
def MState.run (lt lt' : α → α → Bool) (st : MState α) : List (MOp α) → Res (MState α)
  | [] => .ok st
  | op :: ops => do
    let st' ← st.step lt lt' op
    st'.run lt lt' ops

/-- Before any object is constructed (Awl/MirrorSet.h:38, Awl/ObservableSet.h:49). -/
def MState.init : MState α := ⟨State.init, fun _ => none⟩

end Verif.ObservableSet
