import Verif.Graph.Model

/-!
# What a program sees of linked objects

A program starts at a pointer and follows others: a path is the list of the numbers of the pointers that it follows.
-/

namespace Verif.Graph

/-- The pointer at the end of a path; `none` if there is no such path. -/
def at_ (h : Heap) : Ptr → List Nat → Option Ptr
  | p, [] => some p
  | none, _ :: _ => none
  | some a, i :: is =>
    match h[a]? with
    | none => none
    | some n =>
      match n.kids[i]? with
      | none => none
      | some q => at_ h q is

/-- What there is at the end of a path: nothing, a null pointer, or an object with a value and a number of pointers. -/
def look (h : Heap) (p : Ptr) (path : List Nat) : Option (Option (Nat × Nat)) :=
  match at_ h p path with
  | none => none
  | some none => some none
  | some (some a) => (h[a]?).map (fun n => some (n.value, n.kids.length))

/-- The object at the end of a path. -/
def obj (h : Heap) (p : Ptr) (path : List Nat) : Option Nat := (at_ h p path).join

/-- All paths from the pointer end after at most `d` objects; the values fit into their types. -/
def Fits (h : Heap) (cap : Nat) : Nat → Ptr → Prop
  | _, none => True
  | 0, some _ => False
  | d + 1, some a => ∃ n, h[a]? = some n ∧ n.value < 2 ^ 32 ∧ n.kids.length < 2 ^ 64 ∧ n.kids.length ≤ cap ∧ ∀ k ∈ n.kids, Fits h cap d k

/-- The number of paths that end at an object. -/
def paths (h : Heap) : Nat → Ptr → Nat
  | _, none => 0
  | 0, some _ => 0
  | d + 1, some a =>
    match h[a]? with
    | none => 0
    | some n => (n.kids.map (paths h d)).sum + 1

/-- No pointer of the structure points to an object to which another pointer of it points. -/
def Unshared (h : Heap) (p : Ptr) : Prop := ∀ x y a, obj h p x = some a → obj h p y = some a → x = y

end Verif.Graph
