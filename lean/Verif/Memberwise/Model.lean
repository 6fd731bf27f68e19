import Verif.Common.Order

/-!
# Memberwise comparison and hashes

`Awl/Tuplizable.h` (`AWL_TUPLIZABLE`, `AWL_MEMBERWISE_EQUATABLE`, `AWL_MEMBERWISE_COMPARABLE`, `objects_equal`, `objects_less`, `objects_greater`) and
`Awl/Hashable.h`.  The comparison of `std::tuple` is that of C++20 [tuple.rel].  A class is the list of its members' operators; its objects are lists of values
of one type `α`, which stands for the values of all member types.  `size_t` has 64 bits.
-/

namespace Verif.Memberwise

/-- What a member's type has: `==`, `<` and `std::hash` (used by Tuplizable.h:40, 46, 126 and Hashable.h:17). -/
structure Member (α : Type) where
  eq : α → α → Bool
  lt : α → α → Bool
  hash : α → BitVec 64

variable {α : Type}

/-- `operator ==` of tuples: all elements are equal; Tuplizable.h:37-41, 123-131. -/
def equal : List (Member α) → List α → List α → Bool
  | m :: ms, a :: as, b :: bs => m.eq a b && equal ms as bs
  | _, _, _ => true

/-- `operator <=>` of tuples: the first pair of elements that is not equivalent decides.  `synth-three-way`: less, if `a < b`; greater, if `b < a` (used by Tuplizable.h:46, 52, 126). -/
def compare : List (Member α) → List α → List α → Ordering
  | m :: ms, a :: as, b :: bs => if m.lt a b then .lt else if m.lt b a then .gt else compare ms as bs
  | _, _, _ => .eq

/-- `<`, Tuplizable.h:43-47, 123-127, 134; the operators other than `==` and `<=>` are derived from these. -/
def less (c : List (Member α)) (a b : List α) : Bool := compare c a b == .lt

/-- `>`, Tuplizable.h:49-53, 135. -/
def greater (c : List (Member α)) (a b : List α) : Bool := compare c a b == .gt

/-- `<=`, Tuplizable.h:136. -/
def lessEq (c : List (Member α)) (a b : List α) : Bool := compare c a b != .gt

/-- `>=`, Tuplizable.h:137. -/
def greaterEq (c : List (Member α)) (a b : List α) : Bool := compare c a b != .lt

/-- `!=`, Tuplizable.h:131. -/
def notEqual (c : List (Member α)) (a b : List α) : Bool := !equal c a b

/-- `CombineHash`, Hashable.h:14-18. -/
def combine (seed h : BitVec 64) : BitVec 64 := seed ^^^ (h + 0x9e3779b9#64 + (seed <<< 6) + (seed >>> 2))

/-- `HashValueImpl<Tuple, Index>::apply`, Hashable.h:20-37: the elements before the index first. -/
def applyHash : List (Member α) → List α → BitVec 64 → BitVec 64
  | m :: ms, a :: as, seed => applyHash ms as (combine seed (m.hash a))
  | _, _, seed => seed

/-- `std::hash` of a class with `AWL_HASHABLE`, Hashable.h:39-45, 70-80. -/
def hashOf (c : List (Member α)) (a : List α) : BitVec 64 := applyHash c a 0

/-- `std::hash<std::vector<T>>`, Hashable.h:48-68. -/
def hashVec (h : α → BitVec 64) (v : List α) : BitVec 64 := v.foldl (fun seed a => combine seed (h a)) 0

end Verif.Memberwise
