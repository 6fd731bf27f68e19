import Verif.Common.Res

/-!
# Functions on tuples: `Awl/TupleHelpers.h`

A tuple is the list of its elements.  Simplification: the elements have one type `α` in the model (the functions are generic lambdas, called with each element), an element that a call changes is part of the state.  A function object may
have a state, or change something else; `σ` is all it can change.  A call gives its outcome and the state after it, also if it throws.
-/

namespace Verif.Tuples

variable {σ α β : Type}

/-- A function object (the `Func && f` of Awl/TupleHelpers.h:40-207). -/
abbrev Fn (σ α β : Type) := σ → α → Res β × σ

/-- `(f(std::get<index>(t)), ...)`: a fold over the comma operator, from left to right (`for_each`, Awl/TupleHelpers.h:39-49, 65-75). -/
def forEach (f : Fn σ α Unit) : σ → List α → Res Unit × σ
  | s, [] => (.ok (), s)
  | s, a :: t =>
    match f s a with
    | (.ok _, s) => forEach f s t
    | r => r

/-- `for_each_index`: the same with the position (Awl/TupleHelpers.h:51-61, 77-87). -/
def forEachIndex (f : Nat → Fn σ α Unit) : Nat → σ → List α → Res Unit × σ
  | _, s, [] => (.ok (), s)
  | i, s, a :: t =>
    match f i s a with
    | (.ok _, s) => forEachIndex f (i + 1) s t
    | r => r

/-- The calls `f(std::get<index>(t)) ...` in the given order of the positions; the results with their positions.  A position that does not exist does not compile (Awl/TupleHelpers.h:92, 104, 164, 200). -/
def calls (f : Fn σ α β) (t : List α) : σ → List Nat → List (Nat × β) → Res (List (Nat × β)) × σ
  | s, [], acc => (.ok acc, s)
  | s, i :: o, acc =>
    match t[i]? with
    | none => (.ub, s)
    | some a =>
      match f s a with
      | (.ok b, s) => calls f t s o (acc ++ [(i, b)])
      | (.throw e, s) => (.throw e, s)
      | (.ub, s) => (.ub, s)

/-- The results at their positions (Awl/TupleHelpers.h:92, 164). -/
def inOrder (n : Nat) (rs : List (Nat × β)) : List β := (List.range n).filterMap fun i => rs.lookup i

/-- `std::make_tuple(f(std::get<index>(t)) ...)`: the arguments of a call are evaluated in an order the compiler chooses, `order` (`transform_tuple`, Awl/TupleHelpers.h:89-111). -/
def transformTuple (order : List Nat) (f : Fn σ α β) (s : σ) (t : List α) : Res (List β) × σ :=
  match calls f t s order [] with
  | (.ok rs, s) => (.ok (inOrder t.length rs), s)
  | (.throw e, s) => (.throw e, s)
  | (.ub, s) => (.ub, s)

/-- `std::array{ f(std::get<index>(t)) ... }`: the elements of a braced list are evaluated from left to right (`tuple_to_array`, Awl/TupleHelpers.h:161-171, 197-207; `tuple_cast` is the same with a conversion of addresses for `f`,
173-195).  The array of an empty tuple has no element type and does not compile: the theorems for it say nothing about a program. -/
def tupleToArray (f : Fn σ α β) (s : σ) (t : List α) : Res (List β) × σ :=
  match calls f t s (List.range t.length) [] with
  | (.ok rs, s) => (.ok (inOrder t.length rs), s)
  | (.throw e, s) => (.throw e, s)
  | (.ub, s) => (.ub, s)

/-- A type, and whether it is a reference to it (the template arguments of Awl/TupleHelpers.h:210-257). -/
structure Ty where
  id : Nat
  ref : Bool
deriving DecidableEq, Repr

/-- `find_tuple_type_v<T, U>` and `find_variant_type_v<T, U>`: `none` does not compile (Awl/TupleHelpers.h:210-230).  The greatest of the positions of the matches and zeros. -/
def findType (x : Ty) (u : List Ty) : Option Nat :=
  let m := u.map fun y => decide (({ x with ref := false } : Ty) = y)
  if m.count true = 1 then some ((m.zipIdx.map fun p => if p.1 then p.2 else 0).foldl max 0) else none

/-- `map_types_t2t<U, T>()` and `map_types_t2v<U, T>()`: `none` does not compile (Awl/TupleHelpers.h:232-257). -/
def mapTypes (u t : List Ty) : Option (List Nat) := u.mapM fun x => findType x t

end Verif.Tuples
