import Verif.Vts.Model

/-!
# The compile-time tables of version tolerant serialization

`Awl/Mp/TypeDescriptor.h` (names of types), `Awl/Mp/TypeCollector.h`, `Awl/Mp/TupleToVariant.h`, `Awl/Mp/VariantFromStructs.h` (the types inside of a type),
`Awl/TupleHelpers.h:205-231` (`find_variant_type_v`), `Awl/Prototype.h` and `Awl/Io/PrototypeContainer.h` (the prototypes of the structures).  A C++ type
is a tree; `std::is_same` is equality of trees.  That a program does not compile is `none`.  Simplifications: of the types with a `type_descriptor`
those are left out that have no `Read` and `Write` (raw pointers) or need a library (multiprecision numbers); a range is one of the containers the library reads and writes.
-/

namespace Verif.Mp

open Verif.Serialize Verif.Vts

/-- The outermost part of a type.  `v`, `id`: whatever distinguishes types of the same representation, e.g. `int32_t` and `uint32_t` (the specializations of `type_descriptor`, TypeDescriptor.h:92-294). -/
inductive Kind where
  | int (n v : Nat)             -- integral type of n bytes, not bool
  | bool
  | flt (n : Nat)
  | dec (n e : Nat)             -- decimal<UInt, e> with UInt of n bytes
  | enu (n id : Nat)            -- enumeration with an underlying type of n bytes, not AWL_SEQUENTIAL_ENUM
  | enm (n count id : Nat)      -- AWL_SEQUENTIAL_ENUM
  | time (p q id : Nat)         -- time_point, one tick is p/q nanoseconds
  | str (c : Nat)               -- basic_string
  | vec
  | arr (n : Nat)
  | opt
  | ptr (shared : Bool)         -- std::shared_ptr, std::unique_ptr
  | atomic
  | deque
  | ring (cap : Nat)
  | set (cmp : Nat)             -- std::set, awl::vector_set
  | uset (eq : Nat)
  | map (cmp : Nat)             -- the arguments are the types of the keys and of the values
  | umap (eq : Nat)
  | pair
  | var
  | refl (id : Nat) (names : List Name)   -- AWL_REFLECT; the arguments are the types of the fields
deriving DecidableEq, Repr

/-- A type (as TypeDescriptor.h:83-84 is specialized by it; the arguments are `inner_tuple`). -/
inductive CTy where
  | node (k : Kind) (args : List CTy)
deriving Repr

mutual
/-- `std::is_same` can be decided (TupleToVariant.h:17, TupleHelpers.h:225). -/
def CTy.decEq : (a b : CTy) → Decidable (a = b)
  | .node k as, .node l bs =>
    if h : k = l then
      match CTy.decEqs as bs with
      | isTrue h' => isTrue (by rw [h, h'])
      | isFalse h' => isFalse (fun e => h' (by cases e; rfl))
    else isFalse (fun e => h (by cases e; rfl))
/-- The same for argument lists (TupleToVariant.h:17, TupleHelpers.h:225). -/
def CTy.decEqs : (a b : List CTy) → Decidable (a = b)
  | [], [] => isTrue rfl
  | [], _ :: _ => isFalse (fun e => by cases e)
  | _ :: _, [] => isFalse (fun e => by cases e)
  | a :: as, b :: bs =>
    match CTy.decEq a b, CTy.decEqs as bs with
    | isTrue h, isTrue h' => isTrue (by rw [h, h'])
    | isFalse h, _ => isFalse (fun e => h (by cases e; rfl))
    | _, isFalse h => isFalse (fun e => h (by cases e; rfl))
end

instance : DecidableEq CTy := CTy.decEq

/-! ### Names -/

/-- The characters of a string literal (as in TypeDescriptor.h:99-104). -/
def chars (l : List Char) : Name := l.map fun c => UInt8.ofNat c.toNat

/-- `FormatNumber` for numbers other than zero, TypeDescriptor.h:28-41, 56-66: the last digit is `n % 10 + 48`, those before it are those of `n / 10`. -/
def digits : Nat → Nat → Name
  | 0, _ => []
  | fuel + 1, n => if n = 0 then [] else digits fuel (n / 10) ++ [UInt8.ofNat (n % 10 + 48)]

/-- `FormatNumber`, TypeDescriptor.h:47-68. -/
def formatNumber (n : Nat) : Name := if n = 0 then chars ['0'] else digits n n

/-- `type_descriptor<T>::name()` of an integral type of `n` bytes, signed or not, TypeDescriptor.h:92-118. -/
def intName (n : Nat) : Name := chars ['i', 'n', 't'] ++ (formatNumber (n * 8) ++ chars ['_', 't'])

/-- The name of a floating point type, TypeDescriptor.h:108-111. -/
def fltName (n : Nat) : Name := chars ['f', 'l', 'o', 'a', 't'] ++ (formatNumber (n * 8) ++ chars ['_', 't'])

/-- TypeDescriptor.h:220-237: `decimal<uint64_t, 4>` has the name it had in an earlier version. -/
def decName (n e : Nat) : Name :=
  if n = 8 ∧ e = 4 then chars ['d', 'e', 'c', 'i', 'm', 'a', 'l']
  else chars ['d', 'e', 'c', 'i', 'm', 'a', 'l', '<'] ++ intName n ++ chars [',', ' '] ++ formatNumber e ++ chars ['>']

/-- The name of a range, TypeDescriptor.h:131. -/
def seqName (a : Name) : Name := chars ['s', 'e', 'q', 'u', 'e', 'n', 'c', 'e', '<'] ++ a ++ chars ['>']

/-- The name of a pair, TypeDescriptor.h:142. -/
def pairName (a b : Name) : Name := chars ['p', 'a', 'i', 'r', '<'] ++ a ++ chars [',', ' '] ++ b ++ chars ['>']

/-- The name of a type from the names of its arguments, TypeDescriptor.h:92-294. -/
def nameOf : Kind → List Name → Name
  | .int n _, _ => intName n                                                                      -- :92-118
  | .bool, _ => intName 1
  | .flt n, _ => fltName n
  | .dec n e, _ => decName n e
  | .enu n _, _ => intName n                                                                      -- :285-294
  | .enm n _ _, _ => intName n
  | .time _ _ _, _ => intName 8                                                                   -- :146-155
  | .str c, _ => seqName (intName c)                                                              -- :124-133, a string is a range
  | .vec, [a] | .deque, [a] | .ring _, [a] | .set _, [a] | .uset _, [a] => seqName a
  | .map _, [a, b] | .umap _, [a, b] => seqName (pairName a b)                                    -- a range of pairs
  | .pair, [a, b] => pairName a b                                                                 -- :135-144
  | .arr n, [a] => chars ['a', 'r', 'r', 'a', 'y', '<'] ++ a ++ chars [',', ' '] ++ formatNumber n ++ chars ['>']  -- :183-192
  | .opt, [a] => chars ['o', 'p', 't', 'i', 'o', 'n', 'a', 'l', '<'] ++ a ++ chars ['>']          -- :159-168
  | .ptr _, [a] => chars ['p', 'o', 'i', 'n', 't', 'e', 'r', '<'] ++ a ++ chars ['>']             -- :243-283
  | .atomic, [a] => a                                                                             -- :170-179
  | .var, as => chars ['v', 'a', 'r', 'i', 'a', 'n', 't', '<'] ++ as.flatMap (· ++ chars [',', ' ']) ++ chars ['>'] -- :207-216
  | .refl _ _, _ => chars ['s', 't', 'r', 'u', 'c', 't']                                          -- :196-205
  | _, _ => []

mutual
/-- `make_type_name<T>()`, TypeDescriptor.h:86-90. -/
def typeName : CTy → Name
  | .node k args => nameOf k (typeNames args)
/-- The names of the arguments (`make_type_name<Ts>() ...`, TypeDescriptor.h:214). -/
def typeNames : List CTy → List Name
  | [] => []
  | t :: ts => typeName t :: typeNames ts
end

/-! ### The types inside of a type -/

/-- `std::is_arithmetic` (used by TypeCollector.h:59, 66, 74). -/
def isArith : CTy → Bool
  | .node (.int _ _) _ => true
  | .node .bool _ => true
  | .node (.flt _) _ => true
  | _ => false

/-- `is_reflectable_v` (used by TypeCollector.h:32, Prototype.h:50, PrototypeContainer.h:30). -/
def isRefl : CTy → Bool
  | .node (.refl _ _) _ => true
  | _ => false

/-- The types with a `type_collector` of their own: vectors and arrays of arithmetic types, TypeCollector.h:58-78 (strings have no arguments here). -/
def isFinal : Kind → List CTy → Bool
  | .vec, [t] => isArith t
  | .arr _, [t] => isArith t
  | _, _ => false

/-- `int64_t`, TypeDescriptor.h:149. -/
def int64 : CTy := .node (.int 8 0) []

/-- What is put in front of the types of the arguments: the type itself, except a pair (TypeCollector.h:49-56); the value type of a time point, TypeDescriptor.h:149. -/
def selfTypes (k : Kind) (args : List CTy) : List CTy :=
  match k with
  | .pair => []
  | .time _ _ _ => [.node k args, int64]
  | _ => [.node k args]

/-- `type_converter<T>::extra_tuple` of a structure, TypeConverter.h:12-18, TypeCollector.h:30-38; a parameter, by structure. -/
abbrev Extra := Nat → List CTy

/-- The extra types of a structure, TypeCollector.h:30-39. -/
def extraOf (ex : Extra) : Kind → List CTy
  | .refl id _ => ex id
  | _ => []

mutual
/-- `type_collector<T>::Tuple`, TypeCollector.h:22-78; the value type of a map is a pair, which is not included itself. -/
def collect (ex : Extra) : CTy → List CTy
  | .node k args => if isFinal k args then [.node k args] else selfTypes k args ++ (collectAll ex args ++ extraOf ex k)
/-- The types of the elements of a tuple, TypeCollector.h:41-47. -/
def collectAll (ex : Extra) : List CTy → List CTy
  | [] => []
  | t :: ts => collect ex t ++ collectAll ex ts
end

/-- `tuple_to_variant`, TupleToVariant.h:14-21, 85-107: a type is appended unless it is there. -/
def toVariant (acc : List CTy) : List CTy → List CTy
  | [] => acc
  | t :: ts => if acc.any (· == t) then toVariant acc ts else toVariant (acc ++ [t]) ts

/-- `split_variant`, TupleToVariant.h:45-63. -/
def split (p : CTy → Bool) (a b : List CTy) : List CTy → List CTy × List CTy
  | [] => (a, b)
  | t :: ts => if p t then split p (a ++ [t]) b ts else split p a (b ++ [t]) ts

/-- `find_variant_type_v`, TupleHelpers.h:221-230: does not compile unless there is exactly one match; the maximum of the index, or 0 if it does not match. -/
def findType (t : CTy) (l : List CTy) : Option Nat :=
  if (l.map fun u => if u = t then 1 else 0).sum = 1 then some ((l.mapIdx fun i u => if u = t then i else 0).foldl max 0) else none

/-! ### The tables -/

/-- `variant_from_struct<T>`, VariantFromStructs.h:13-14. -/
def variantOf (ex : Extra) (t : CTy) : List CTy := toVariant [] (collect ex t)

/-- `StructV`, PrototypeContainer.h:30-32. -/
def structV (V : List CTy) : List CTy := (split isRefl [] [] V).1

/-- `FieldV`, PrototypeContainer.h:30, 33. -/
def fieldV (V : List CTy) : List CTy := (split isRefl [] [] V).2

/-- The type of a field in a prototype, Prototype.h:45-58: `NoType` for a structure; `none`: does not compile. -/
def fieldType (F : List CTy) (t : CTy) : Option (Option Nat) :=
  if isRefl t then some none
  else match findType t F with
    | some k => some (some k)
    | none => none

/-- The fields of a prototype (the array of Prototype.h:60-71, 84 and the names of 92). -/
def protoFields (F : List CTy) : List Name → List CTy → Option Proto
  | [], [] => some []
  | n :: ns, t :: ts =>
    match fieldType F t, protoFields F ns ts with
    | some k, some p => some ((n, k) :: p)
    | _, _ => none
  | _, _ => none     -- the assertion in Prototype.h:86 fails

/-- `AttachedPrototype<FieldV, S>`, Prototype.h:74-104. -/
def protoOf (F : List CTy) : CTy → Option Proto
  | .node (.refl _ names) args => protoFields F names args
  | _ => none

/-- All of them, PrototypeContainer.h:40-47, 98-102. -/
def protosOf (F : List CTy) : List CTy → Option (List Proto)
  | [] => some []
  | t :: ts =>
    match protoOf F t, protosOf F ts with
    | some p, some ps => some (p :: ps)
    | _, _ => none

/-- Comparators by number (of the sets and maps, whose types TypeDescriptor.h:124-133 describes). -/
structure Orders where
  lt : Nat → Val → Val → Bool
  eq : Nat → Val → Val → Bool

/-- The type code (`Verif.Serialize.Ty`) of a type: how it is read and written; `idx` is the index of the structure (by the overloads of Awl/Io/Rw, e.g. ArithmeticReadWrite.h:14-35, see `Verif.Serialize`). -/
def ofKind (O : Orders) (idx : Nat) : Kind → List Ty → Ty
  | .int n v, _ => .num n (4 * v)
  | .bool, _ => .bool
  | .flt n, _ => .num n 1
  | .dec n e, _ => .num n (4 * e + 2)
  | .enu n id, _ => .num n (4 * id + 3)
  | .enm n c _, _ => .enm n c
  | .time p q _, _ => .time p q
  | .str c, _ => .str c
  | .vec, [t] => .vec t
  | .arr n, [t] => .arr n t
  | .opt, [t] => .opt t
  | .ptr _, [t] => .opt t true
  | .atomic, [t] => t
  | .deque, [t] => .coll .deque t
  | .ring cap, [t] => .coll (.ring cap) t
  | .set c, [t] => .coll (.ordered (O.lt c)) t
  | .uset c, [t] => .coll (.hashed (O.eq c)) t
  | .map c, [a, b] => .map (.ordered (O.lt c)) a b
  | .umap c, [a, b] => .map (.hashed (O.eq c)) a b
  | .pair, ts => .struct none ts
  | .var, ts => .var ts
  | .refl _ names, ts => .struct (some ⟨idx, names⟩) ts
  | _, _ => .var []

mutual
/-- The type code; `StructIndex<S>` is the index in `StructV`, PrototypeContainer.h:37-38. -/
def toTy (O : Orders) (SV : List CTy) : CTy → Ty
  | .node k args => ofKind O ((findType (.node k args) SV).getD 0) k (toTys O SV args)
/-- All of them (the arguments, TypeDescriptor.h:199). -/
def toTys (O : Orders) (SV : List CTy) : List CTy → List Ty
  | [] => []
  | t :: ts => toTy O SV t :: toTys O SV ts
end

/-- The tables of `PrototypeContainer<V>`; `none`: it does not compile (an empty `FieldV` or `StructV` becomes `variant<monostate>`, which has neither a name nor
a prototype, TupleToVariant.h:28-43) (PrototypeContainer.h:21-102). -/
def schemaOf (O : Orders) (V : List CTy) : Option Schema :=
  if structV V = [] ∨ fieldV V = [] then none
  else match protosOf (fieldV V) (structV V) with
    | some ps => some ⟨(fieldV V).map (toTy O (structV V)), ps⟩
    | none => none

end Verif.Mp
