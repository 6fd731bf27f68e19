import Verif.Common.Res

/-!
# Indices of types: `Awl/Io/TypeIndex.h`

A type is a structure with fields (`is_tuplizable_v`) or any other type.  The functions run in the compiler; `none` means that the call does not compile (a fold or
`std::min` of nothing).  The compiler instantiates both `indexof_type` of all elements and, for the elements before the one found, `countof_fields`.  Overflow of `size_t` is left out.
-/

namespace Verif.TypeIndex

/-- A type: not a structure, or a structure with its name and the types of its fields (`is_tuplizable_v`, Awl/Io/TypeIndex.h:25, 75). -/
inductive Ty where
  | prim (n : Nat)
  | struct (id : Nat) (fields : List Ty)
deriving Repr

mutual
/-- Equality of types (`std::is_same_v`, Awl/Io/TypeIndex.h:82). -/
def Ty.same : Ty → Ty → Bool
  | .prim a, .prim b => a == b
  | .struct a fs, .struct b gs => a == b && sameList fs gs
  | _, _ => false
/-- Equality of the types of the fields, element by element, Awl/Io/TypeIndex.h:82. -/
def sameList : List Ty → List Ty → Bool
  | [], [] => true
  | a :: as, b :: bs => a.same b && sameList as bs
  | _, _ => false
end

mutual
/-- `countof_fields<T>()`, Awl/Io/TypeIndex.h:22-34. -/
def countof : Ty → Option Nat
  | .prim _ => some 1
  | .struct _ fs => if fs.isEmpty then none else countofTuple fs
/-- `countof_tuple_fields`, Awl/Io/TypeIndex.h:16-20, for a sequence that is not empty (the callers' business). -/
def countofTuple : List Ty → Option Nat
  | [] => some 0
  | f :: fs => match countof f, countofTuple fs with
    | some a, some b => some (a + b)
    | _, _ => none
end

/-- `element_index`, Awl/Io/TypeIndex.h:44-45: the first element that has the type, by the results for the elements. -/
def elementIndex : List (Option Nat) → Option Nat
  | [] => none
  | some _ :: _ => some 0
  | none :: rs => (elementIndex rs).map (· + 1)

/-- The rest of `indexof_tuple_type`, Awl/Io/TypeIndex.h:47-69. -/
def tupleIndex (fs : List Ty) (rs : List (Option Nat)) : Option (Option Nat) :=
  match elementIndex rs with
  | none => some none
  | some k =>
    match rs[k]? with
    | some (some l) =>
      if k ≠ 0 then
        match countofTuple (fs.take k) with
        | some p => some (some (p + l))
        | none => none
      else some (some l)
    | _ => none

mutual
/-- `indexof_type<Struct, Field>()`, Awl/Io/TypeIndex.h:72-84: `some none` is `no_type_index`. -/
def indexof (field : Ty) : Ty → Option (Option Nat)
  | .prim n => some (if (Ty.prim n).same field then some 0 else none)
  | .struct _ fs =>
    if fs.isEmpty then none else
      match indexofAll field fs with
      | none => none
      | some rs => tupleIndex fs rs
/-- The results for the elements, Awl/Io/TypeIndex.h:44. -/
def indexofAll (field : Ty) : List Ty → Option (List (Option Nat))
  | [] => some []
  | f :: fs => match indexof field f, indexofAll field fs with
    | some a, some b => some (a :: b)
    | _, _ => none
end

end Verif.TypeIndex
