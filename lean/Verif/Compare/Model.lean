import Verif.Common.Res
import Verif.Common.Order

/-!
# Comparators: `Awl/CompositeCompare.h`, `Awl/TransparentCompositeCompare.h`, `Awl/ReverseCompare.h`, `Awl/KeyCompare.h`,
and `position_changed` (`Awl/RangeUtil.h`)

A comparator is a function with values true and false; that it throws is not modelled.
-/

namespace Verif.Compare

/-- A transparent comparator of elements: its `key_type` and its three `operator()`: elements, element and key, key and
element (as in Awl/KeyCompare.h:30, 44-57, and Awl/TransparentCompositeCompare.h:28, 51-64). -/
structure Comp (α : Type) where
  Key : Type
  tt : α → α → Bool
  tk : α → Key → Bool
  kt : Key → α → Bool

/-- `CompositeCompare::Compare<Index>` (Awl/CompositeCompare.h:36-61), for the comparators from `Index` on. -/
def composite {α : Type} : List (α → α → Bool) → α → α → Bool
  | [], _, _ => false
  | c :: cs, l, r => if c l r then true else if c r l then false else composite cs l r

/-- `TransparentCompositeCompare::key_type` (Awl/TransparentCompositeCompare.h:28): a tuple with a key for each
comparator. -/
def KeyTuple {α : Type} : List (Comp α) → Type
  | [] => Unit
  | c :: cs => c.Key × KeyTuple cs

/-- `Compare<Index>(const T&, const key_type&)` (Awl/TransparentCompositeCompare.h:72-99). -/
def compareTK {α : Type} : (cs : List (Comp α)) → α → KeyTuple cs → Bool
  | [], _, _ => false
  | c :: cs, l, r => if c.tk l r.1 then true else if c.kt r.1 l then false else compareTK cs l r.2

/-- `Compare<Index>(const key_type&, const T&)` (Awl/TransparentCompositeCompare.h:101-128). -/
def compareKT {α : Type} : (cs : List (Comp α)) → KeyTuple cs → α → Bool
  | [], _, _ => false
  | c :: cs, l, r => if c.kt l.1 r then true else if c.tk r l.1 then false else compareKT cs l.2 r

/-- `TransparentCompositeCompare` (Awl/TransparentCompositeCompare.h:51-64). -/
def transparent {α : Type} (cs : List (Comp α)) : Comp α :=
  ⟨KeyTuple cs, composite (cs.map (·.tt)), compareTK cs, compareKT cs⟩

/-- `ReverseCompare` (Awl/ReverseCompare.h:22-25). -/
def reverse {α : Type} (c : α → α → Bool) : α → α → Bool := fun l r => c r l

/-- `TransparentReverseCompare` (Awl/ReverseCompare.h:47-60). -/
def transparentReverse {α : Type} (c : Comp α) : Comp α :=
  ⟨c.Key, fun l r => c.tt r l, fun v k => c.kt k v, fun k v => c.tk v k⟩

/-- `KeyCompare` of values (Awl/KeyCompare.h:44-57); `comp` is `Compare`. -/
def key {α κ : Type} (getKey : α → κ) (comp : κ → κ → Bool) : Comp α :=
  ⟨κ, fun l r => comp (getKey l) (getKey r), fun v k => comp (getKey v) k, fun k v => comp k (getKey v)⟩

/-- `KeyCompare` of pointers (Awl/KeyCompare.h:89-102, and 132-145, 170-183 for smart pointers): `heap p = none` when the
pointer is null or dangling; dereferencing it is undefined. -/
def ptrTT {α κ : Type} (heap : Nat → Option α) (getKey : α → κ) (comp : κ → κ → Bool) (l r : Nat) : Res Bool :=
  match heap l, heap r with
  | some a, some b => .ok (comp (getKey a) (getKey b))
  | _, _ => .ub

/-- `KeyCompare` of a pointer and a key (Awl/KeyCompare.h:94-97, 137-140, 175-178). -/
def ptrTK {α κ : Type} (heap : Nat → Option α) (getKey : α → κ) (comp : κ → κ → Bool) (v : Nat) (k : κ) : Res Bool :=
  match heap v with
  | some a => .ok (comp (getKey a) k)
  | none => .ub

/-- `KeyCompare` of a key and a pointer (Awl/KeyCompare.h:99-102, 142-145, 180-183). -/
def ptrKT {α κ : Type} (heap : Nat → Option α) (getKey : α → κ) (comp : κ → κ → Bool) (k : κ) (v : Nat) : Res Bool :=
  match heap v with
  | some a => .ok (comp k (getKey a))
  | none => .ub

/-- `*iter` for the position `i` of the range `r` (used by Awl/RangeUtil.h:27, 40). -/
def deref {α : Type} (r : List α) (i : Nat) : Res α :=
  match r[i]? with
  | some x => .ok x
  | none => .ub

/-- `position_changed` (Awl/RangeUtil.h:18-48); `i` is `old_iter`. -/
def positionChanged {α : Type} (comp : α → α → Bool) (r : List α) (i : Nat) : Res Bool := do
  let changed ←
    if i ≠ 0 then do
      let prev ← deref r (i - 1)
      let old ← deref r i
      .ok (!comp prev old)
    else .ok false
  if !changed then
    if i + 1 > r.length then .ub          -- incrementing the end iterator
    else if i + 1 ≠ r.length then do
      let old ← deref r i
      let next ← deref r (i + 1)
      .ok (!comp old next)
    else .ok false
  else .ok true

end Verif.Compare
