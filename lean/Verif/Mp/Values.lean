import Verif.Mp.Model
import Verif.Mp.Names
import Verif.Serialize.Spec

/-! # The values of a C++ type, stated without the type codes -/

namespace Verif.Mp

open Verif.Serialize Verif.Vts

/-- A sequential enumeration (its vectors are read and written as bytes, which is not checked). -/
def isEnm : CTy → Bool
  | .node (.enm _ _ _) _ => true
  | _ => false

mutual
/-- The values of the type, with containers that can be allocated and strings within the limit.  A set is sorted by its comparator without equivalent
elements, a hash table has no equal ones. -/
def Value (O : Orders) (env : Env) : CTy → Val → Prop
  | .node (.int n _) _, .num v => v < 256 ^ n
  | .node .bool _, .bool _ => True
  | .node (.flt n) _, .num v => v < 256 ^ n
  | .node (.dec n _) _, .num v => v < 256 ^ n
  | .node (.enu n _) _, .num v => v < 256 ^ n
  | .node (.enm n c _) _, .num v => v < c ∧ v < 256 ^ n
  | .node (.time p q _) _, .int i => 0 < p ∧ 0 < q ∧ -2 ^ 63 ≤ i * p ∧ i * p < 2 ^ 63 ∧ (q : Int) ∣ i * p
  | .node (.str c) _, .list vs => vs.length ≤ env.cap ∧ vs.length < 2 ^ 64 ∧ vs.length * c < 2 ^ 64 ∧
      (∀ L, env.limit = some L → vs.length * c ≤ L) ∧ ∀ v ∈ vs, ∃ x, v = .num x ∧ x < 256 ^ c
  | .node .vec [t], .list vs => vs.length ≤ env.cap ∧ vs.length < 2 ^ 64 ∧ isEnm t = false ∧ ∀ v ∈ vs, Value O env t v
  | .node (.arr n) [t], .list vs => vs.length = n ∧ isEnm t = false ∧ ∀ v ∈ vs, Value O env t v
  | .node .opt [_], .none => True
  | .node .opt [t], .some v => Value O env t v
  | .node (.ptr _) [_], .none => True
  | .node (.ptr _) [t], .some v => Value O env t v
  | .node .atomic [t], v => Value O env t v
  | .node .deque [t], .list vs => vs.length < 2 ^ 64 ∧ ∀ v ∈ vs, Value O env t v
  | .node (.ring cap) [t], .list vs => vs.length < 2 ^ 64 ∧ vs.length ≤ cap ∧ ∀ v ∈ vs, Value O env t v
  | .node (.set c) [t], .list vs => vs.length < 2 ^ 64 ∧ vs.Pairwise (fun a b => O.lt c a b = true) ∧ ∀ v ∈ vs, Value O env t v
  | .node (.uset c) [t], .list vs => vs.length < 2 ^ 64 ∧ vs.Pairwise (fun a b => O.eq c a b = false) ∧ ∀ v ∈ vs, Value O env t v
  | .node (.map c) [kt, vt], .list vs => vs.length < 2 ^ 64 ∧
      vs.Pairwise (fun x y => ∀ a b a' b', x = .list [a, b] → y = .list [a', b'] → O.lt c a a' = true) ∧
      ∀ v ∈ vs, ∃ a b, v = .list [a, b] ∧ Value O env kt a ∧ Value O env vt b
  | .node (.umap c) [kt, vt], .list vs => vs.length < 2 ^ 64 ∧
      vs.Pairwise (fun x y => ∀ a b a' b', x = .list [a, b] → y = .list [a', b'] → O.eq c a a' = false) ∧
      ∀ v ∈ vs, ∃ a b, v = .list [a, b] ∧ Value O env kt a ∧ Value O env vt b
  | .node .pair ts, .list vs => Values O env ts vs
  | .node .var ts, .alt i v => i < 2 ^ 64 ∧ ValueAt O env ts i v
  | .node (.refl _ _) ts, .list vs => Values O env ts vs
  | _, _ => False

/-- A value of the alternative number `i`. -/
def ValueAt (O : Orders) (env : Env) : List CTy → Nat → Val → Prop
  | [], _, _ => False
  | t :: _, 0, v => Value O env t v
  | _ :: ts, i + 1, v => ValueAt O env ts i v

/-- Field by field. -/
def Values (O : Orders) (env : Env) : List CTy → List Val → Prop
  | [], [] => True
  | t :: ts, v :: vs => Value O env t v ∧ Values O env ts vs
  | _, _ => False
end

mutual
/-- An object to read into: optional values, pointers and containers other than vectors and arrays are empty, the rest is whatever it is. -/
def Blank : CTy → Val → Prop
  | .node .vec [t], v => ∃ vs, v = .list vs ∧ ∀ x ∈ vs, Blank t x
  | .node (.arr n) [t], v => ∃ vs, v = .list vs ∧ vs.length = n ∧ ∀ x ∈ vs, Blank t x
  | .node .opt [_], v => v = .none
  | .node (.ptr _) [_], v => v = .none
  | .node .deque [_], v => v = .list []
  | .node (.ring _) [_], v => v = .list []
  | .node (.set _) [_], v => v = .list []
  | .node (.uset _) [_], v => v = .list []
  | .node (.map _) [_, _], v => v = .list []
  | .node (.umap _) [_, _], v => v = .list []
  | .node .pair ts, v => ∃ vs, v = .list vs ∧ Blanks ts vs
  | .node (.refl _ _) ts, v => ∃ vs, v = .list vs ∧ Blanks ts vs
  | _, _ => True

/-- Field by field. -/
def Blanks : List CTy → List Val → Prop
  | [], [] => True
  | t :: ts, v :: vs => Blank t v ∧ Blanks ts vs
  | _, _ => False
end

end Verif.Mp
