import Verif.Mp.Values
import Verif.Mp.Collect
import Verif.Mp.Props

/-! # How the types of a program may change: specification

Stated with the C++ types of the two programs, without their tables. -/

namespace Verif.Mp

open Verif.Serialize Verif.Vts

/-- The reading program: the new names of renamed fields by structure, the structure that an old structure has become, the types in its tables that are
not structures, whether fields may have been removed. -/
structure Prog where
  fm : CTy → Name → Name
  φ : CTy → CTy
  F : List CTy
  del : Bool

/-- A container that is read element by element. -/
def isColl : Kind → Bool
  | .deque | .ring _ | .set _ | .uset _ => true
  | _ => false

/-- A container of pairs. -/
def isMap : Kind → Bool
  | .map _ | .umap _ => true
  | _ => false

/-- The size of an integer type or of an enumeration that is not checked. -/
def intSize : Kind → Option Nat
  | .int n _ => some n
  | .enu n _ => some n
  | _ => none

mutual
/-- What was written as the first type can be read as the second one. -/
inductive Becomes (P : Prog) : CTy → CTy → Prop
  | int (k l : Kind) (n : Nat) (as bs : List CTy) : intSize k = some n → intSize l = some n → Becomes P (.node k as) (.node l bs)
  | bool (as bs : List CTy) : Becomes P (.node .bool as) (.node .bool bs)
  | flt (n : Nat) (as bs : List CTy) : Becomes P (.node (.flt n) as) (.node (.flt n) bs)
  | dec (n e : Nat) (as bs : List CTy) : Becomes P (.node (.dec n e) as) (.node (.dec n e) bs)
  | enm (n c d i j : Nat) (as bs : List CTy) : c ≤ d → Becomes P (.node (.enm n c i) as) (.node (.enm n d j) bs)
  | time (p q i j : Nat) (as bs : List CTy) : Becomes P (.node (.time p q i) as) (.node (.time p q j) bs)
  | str (c : Nat) (as bs : List CTy) : Becomes P (.node (.str c) as) (.node (.str c) bs)
  | vec (a b : CTy) : Becomes P a b → Becomes P (.node .vec [a]) (.node .vec [b])
  | arr (n : Nat) (a b : CTy) : Becomes P a b → Becomes P (.node (.arr n) [a]) (.node (.arr n) [b])
  | opt (a b : CTy) : Becomes P a b → Becomes P (.node .opt [a]) (.node .opt [b])
  | ptr (s s' : Bool) (a b : CTy) : Becomes P a b → Becomes P (.node (.ptr s) [a]) (.node (.ptr s') [b])
  | atomic (a b : CTy) : Becomes P a b → Becomes P (.node .atomic [a]) (.node .atomic [b])
  | coll (k l : Kind) (a b : CTy) : isColl k = true → isColl l = true → l ≠ .ring 0 → Becomes P a b → Becomes P (.node k [a]) (.node l [b])
  | map (k l : Kind) (a b a' b' : CTy) : isMap k = true → isMap l = true → Becomes P a a' → Becomes P b b' → Becomes P (.node k [a, b]) (.node l [a', b'])
  | pair (as bs : List CTy) : BecomeAll P as bs → Becomes P (.node .pair as) (.node .pair bs)
  | var (as bs : List CTy) : BecomeAll P as bs → Becomes P (.node .var as) (.node .var bs)
  | refl (i j : Nat) (ns ms : List Name) (as bs : List CTy) : P.φ (.node (.refl i ns) as) = .node (.refl j ms) bs → (ns ≠ [] ∨ ms = []) →
      (ns.map (P.fm (.node (.refl j ms) bs))).Nodup → ms.Nodup →
      (∀ (k m : Nat) (n : Name) (a b : CTy), ns[k]? = some n → as[k]? = some a → ms[m]? = some (P.fm (.node (.refl j ms) bs) n) → bs[m]? = some b → Becomes P a b) →
      (∀ (k : Nat) (n : Name) (a : CTy), ns[k]? = some n → as[k]? = some a → P.fm (.node (.refl j ms) bs) n ∉ ms → Removable P a) →
      ((∃ n ∈ ns, P.fm (.node (.refl j ms) bs) n ∉ ms) → P.del = true) →
      Becomes P (.node (.refl i ns) as) (.node (.refl j ms) bs)

/-- One by one. -/
inductive BecomeAll (P : Prog) : List CTy → List CTy → Prop
  | nil : BecomeAll P [] []
  | cons (a b : CTy) (as bs : List CTy) : Becomes P a b → BecomeAll P as bs → BecomeAll P (a :: as) (b :: bs)

/-- A field of the type can be passed over: the first type with its name in the tables can be read, or it is a structure of such fields. -/
inductive Removable (P : Prog) : CTy → Prop
  | type (a u : CTy) : isRefl a = false → P.F.find? (fun u => typeName u == typeName a) = some u → Becomes P a u → Removable P a
  | struct (i : Nat) (ns : List Name) (as : List CTy) : (∀ a ∈ as, Removable P a) → Removable P (.node (.refl i ns) as)
end

/-- `S` are the tables of a program for the type `t` and the variant `V` of types, as derived by the library or given by the user. -/
structure Tables (O : Orders) (cap : Nat) (V : List CTy) (t : CTy) (S : Schema) : Prop where
  ok : Ok t
  oks : ∀ u ∈ V, Ok u
  nodup : V.Nodup
  has : ∀ s, Part s t → isRefl s = true → s ∈ V
  closed : ∀ u ∈ V, ∀ s, Part s u → isRefl s = true → s ∈ V
  schema : schemaOf O V = some S
  small : Small cap V

end Verif.Mp
