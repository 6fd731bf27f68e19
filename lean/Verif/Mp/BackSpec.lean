import Verif.Mp.Evolution

/-! # Going to another version of a type and back: specification -/

namespace Verif.Mp

open Verif.Serialize Verif.Vts

/-- A type without parts: a number, an enumeration, a time point or a string. -/
def isLeaf : Kind → Bool
  | .int _ _ | .bool | .flt _ | .dec _ _ | .enu _ _ | .enm _ _ _ | .time _ _ _ | .str _ => true
  | _ => false

/-- A container of elements that are neither sorted nor compared, with room for an element. -/
def isSeq : Kind → Bool
  | .deque => true
  | .ring n => 0 < n
  | _ => false

mutual
/-- The second type has everything that the first one has: each field of each structure is there, under the new name that the program with the second type
registered for it, and the program with the first type takes it back by that name.  Elements of sets and keys of maps are of the same type.  `fm` and `fm'` are the
registered names of the two programs. -/
inductive Keeps (fm fm' : CTy → Name → Name) : CTy → CTy → Prop
  | leaf (k l : Kind) (as bs : List CTy) : isLeaf k = true → isLeaf l = true → Keeps fm fm' (.node k as) (.node l bs)
  | vec (a b : CTy) : Keeps fm fm' a b → Keeps fm fm' (.node .vec [a]) (.node .vec [b])
  | arr (n : Nat) (a b : CTy) : Keeps fm fm' a b → Keeps fm fm' (.node (.arr n) [a]) (.node (.arr n) [b])
  | opt (a b : CTy) : Keeps fm fm' a b → Keeps fm fm' (.node .opt [a]) (.node .opt [b])
  | ptr (s s' : Bool) (a b : CTy) : Keeps fm fm' a b → Keeps fm fm' (.node (.ptr s) [a]) (.node (.ptr s') [b])
  | atomic (a b : CTy) : Keeps fm fm' a b → Keeps fm fm' (.node .atomic [a]) (.node .atomic [b])
  | seq (k : Kind) (a b : CTy) : isSeq k = true → Keeps fm fm' a b → Keeps fm fm' (.node k [a]) (.node k [b])
  | set (k : Kind) (a : CTy) : isColl k = true → k ≠ .ring 0 → Proper fm a → Proper fm' a → Keeps fm fm' (.node k [a]) (.node k [a])
  | map (k : Kind) (a b b' : CTy) : isMap k = true → Proper fm a → Proper fm' a → Keeps fm fm' b b' → Keeps fm fm' (.node k [a, b]) (.node k [a, b'])
  | pair (as bs : List CTy) : KeepAll fm fm' as bs → Keeps fm fm' (.node .pair as) (.node .pair bs)
  | var (as bs : List CTy) : KeepAll fm fm' as bs → Keeps fm fm' (.node .var as) (.node .var bs)
  | refl (i j : Nat) (ns ms : List Name) (as bs : List CTy) :
      (ns.map (fm (.node (.refl j ms) bs))).Nodup → (ms.map (fm' (.node (.refl i ns) as))).Nodup →
      (∀ n ∈ ns, fm (.node (.refl j ms) bs) n ∈ ms ∧ fm' (.node (.refl i ns) as) (fm (.node (.refl j ms) bs) n) = n) →
      (∀ (k m : Nat) (n : Name) (a b : CTy), ns[k]? = some n → as[k]? = some a → ms[m]? = some (fm (.node (.refl j ms) bs) n) → bs[m]? = some b → Keeps fm fm' a b) →
      Keeps fm fm' (.node (.refl i ns) as) (.node (.refl j ms) bs)

/-- One by one. -/
inductive KeepAll (fm fm' : CTy → Name → Name) : List CTy → List CTy → Prop
  | nil : KeepAll fm fm' [] []
  | cons (a b : CTy) (as bs : List CTy) : Keeps fm fm' a b → KeepAll fm fm' as bs → KeepAll fm fm' (a :: as) (b :: bs)
end

end Verif.Mp
