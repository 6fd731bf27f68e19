import Verif.Common.Res

/-!
# Values, pointers and smart pointers (Awl/TypeTraits.h, and their use in Awl/ForeignSet.h)

Types are terms, templates are functions on them; a partial specialization is chosen if its pattern matches exactly, cv-qualifiers included, as the language says.
Left out: references, arrays of unknown bound outside of smart pointers, deleters that define a `pointer` type of their own.
-/

namespace Verif.Traits

mutual
/-- A C++ type: its cv-qualifiers and the rest (the `T` of TypeTraits.h 33-39). -/
inductive Ty where
  | cv (const volatile : Bool) (c : Core)
/-- A type without its cv-qualifiers: a class or fundamental type, `T*`, `T[n]` (`T[]` if there is no `n`), `std::shared_ptr<T>`, `std::unique_ptr<T, D>` (TypeTraits.h 33-39). -/
inductive Core where
  | named (n : Nat)
  | ptr (t : Ty)
  | array (t : Ty) (n : Option Nat)
  | shared (t : Ty)
  | unique (t d : Ty)
end

/-- A type without qualifiers (TypeTraits.h 33). -/
def Core.plain (c : Core) : Ty := .cv false false c

/-- TypeTraits.h 31-42; the patterns for plain pointers have all qualifiers, those for smart pointers have none. -/
def removePointer : Ty → Ty
  | .cv _ _ (.ptr t) => t
  | .cv false false (.shared t) => t
  | .cv false false (.unique t _) => t
  | t => t

/-- TypeTraits.h 44-53 -/
def isPlainPointer : Ty → Bool
  | .cv false false (.ptr _) => true
  | _ => false

/-- TypeTraits.h 13-22 with `std::shared_ptr` -/
def isShared : Ty → Bool
  | .cv false false (.shared _) => true
  | _ => false

/-- TypeTraits.h 13-22 with `std::unique_ptr` -/
def isUnique : Ty → Bool
  | .cv false false (.unique _ _) => true
  | _ => false

/-- TypeTraits.h 57-58 -/
def isSmartPointer (t : Ty) : Bool := isShared t || isUnique t

/-- TypeTraits.h 60-61 -/
def isPointer (t : Ty) : Bool := isPlainPointer t || isSmartPointer t

/-- TypeTraits.h 63-64 -/
def isCopyablePointer (t : Ty) : Bool := isPlainPointer t || isShared t

/-- `std::decay_t` of a type that is no function (TypeTraits.h 70). -/
def decay : Ty → Ty
  | .cv _ _ (.array t _) => .cv false false (.ptr t)
  | .cv _ _ c => .cv false false c

/-- The type of the object a smart pointer to `t` gives with `get()` (`element_type`, TypeTraits.h 78): the element if `t` is an array. -/
def element : Ty → Ty
  | .cv c v (.array (.cv c' v' t) _) => .cv (c || c') (v || v') t
  | t => t

/-- A variable: where it is, and the address it holds if it is a pointer or a smart pointer (0 for `nullptr`); the `val` of TypeTraits.h 67. -/
structure Var where
  addr : Nat
  held : Nat
deriving DecidableEq

/-- TypeTraits.h 66-84: the type that the result points to, and the address.  (A `val` that is an array converts to a pointer to its first element.) -/
def objectAddress (t : Ty) (x : Var) : Ty × Nat :=
  let dT := decay t
  if isPlainPointer dT then
    match t with
    | .cv _ _ (.ptr p) => (p, x.held)
    | .cv _ _ (.array e _) => (e, x.addr)
    | t => (t, x.addr)
  else if isSmartPointer dT then
    match dT with
    | .cv _ _ (.shared p) => (element p, x.held)
    | .cv _ _ (.unique p _) => (element p, x.held)
    | t => (t, x.addr)
  else (t, x.addr)

/-- The type with `const` added (`const T & val`, ForeignSet.h 154). -/
def addConst : Ty → Ty
  | .cv _ v c => .cv true v c

/-- ForeignSet.h 25: what a group holds for a value of type `T` -/
def groupPointer (t : Ty) : Ty :=
  if isCopyablePointer t then t else .cv false false (.ptr (addConst (removePointer t)))

/-- ForeignSet.h 154-170, called with `const T & val` (the variable `x`): the variable that is the result, which is at the address `a`.  `none`: does not compile. -/
def valueToPointer (t : Ty) (x : Var) (a : Nat) : Option Var :=
  if isCopyablePointer t then some ⟨a, x.held⟩
  else if isUnique t then
    match t with
    | .cv _ _ (.unique (.cv _ _ (.array _ _)) _) => none
    | _ => some ⟨a, x.held⟩
  else some ⟨a, x.addr⟩

end Verif.Traits
