import Verif.Mp.BackSpec

/-! # Updating over a version in between: specification -/

namespace Verif.Mp

open Verif.Serialize Verif.Vts

mutual
/-- The second version stands between the first and the third one: of the fields of the first version it has those that the third one has, and the names registered by
the second and the third program lead to the same fields by both ways.  Elements of sets and keys of maps are of the same type.  `fm₂` and `fm₃` are the names
registered by the second and the third program. -/
inductive Via (fm₂ fm₃ : CTy → Name → Name) : CTy → CTy → CTy → Prop
  | leaf (k l m : Kind) (as bs cs : List CTy) : isLeaf k = true → isLeaf l = true → isLeaf m = true → Via fm₂ fm₃ (.node k as) (.node l bs) (.node m cs)
  | vec (a b c : CTy) : Via fm₂ fm₃ a b c → Via fm₂ fm₃ (.node .vec [a]) (.node .vec [b]) (.node .vec [c])
  | arr (n : Nat) (a b c : CTy) : Via fm₂ fm₃ a b c → Via fm₂ fm₃ (.node (.arr n) [a]) (.node (.arr n) [b]) (.node (.arr n) [c])
  | opt (a b c : CTy) : Via fm₂ fm₃ a b c → Via fm₂ fm₃ (.node .opt [a]) (.node .opt [b]) (.node .opt [c])
  | ptr (s s' s'' : Bool) (a b c : CTy) : Via fm₂ fm₃ a b c → Via fm₂ fm₃ (.node (.ptr s) [a]) (.node (.ptr s') [b]) (.node (.ptr s'') [c])
  | atomic (a b c : CTy) : Via fm₂ fm₃ a b c → Via fm₂ fm₃ (.node .atomic [a]) (.node .atomic [b]) (.node .atomic [c])
  | seq (k : Kind) (a b c : CTy) : isSeq k = true → Via fm₂ fm₃ a b c → Via fm₂ fm₃ (.node k [a]) (.node k [b]) (.node k [c])
  | set (k : Kind) (a : CTy) : isColl k = true → k ≠ .ring 0 → Proper fm₂ a → Proper fm₃ a → Via fm₂ fm₃ (.node k [a]) (.node k [a]) (.node k [a])
  | map (k : Kind) (a b b' b'' : CTy) : isMap k = true → Proper fm₂ a → Proper fm₃ a → Via fm₂ fm₃ b b' b'' →
      Via fm₂ fm₃ (.node k [a, b]) (.node k [a, b']) (.node k [a, b''])
  | pair (as bs cs : List CTy) : ViaAll fm₂ fm₃ as bs cs → Via fm₂ fm₃ (.node .pair as) (.node .pair bs) (.node .pair cs)
  | var (as bs cs : List CTy) : ViaAll fm₂ fm₃ as bs cs → Via fm₂ fm₃ (.node .var as) (.node .var bs) (.node .var cs)
  | refl (h i j : Nat) (ls ms ns : List Name) (as bs cs : List CTy) :
      (ls.map (fm₂ (.node (.refl i ms) bs))).Nodup → (ms.map (fm₃ (.node (.refl j ns) cs))).Nodup → (ls.map (fm₃ (.node (.refl j ns) cs))).Nodup →
      (∀ l ∈ ls, fm₃ (.node (.refl j ns) cs) l ∈ ns →
        fm₂ (.node (.refl i ms) bs) l ∈ ms ∧ fm₃ (.node (.refl j ns) cs) (fm₂ (.node (.refl i ms) bs) l) = fm₃ (.node (.refl j ns) cs) l) →
      (∀ l ∈ ls, fm₂ (.node (.refl i ms) bs) l ∈ ms → fm₃ (.node (.refl j ns) cs) (fm₂ (.node (.refl i ms) bs) l) ∈ ns →
        fm₃ (.node (.refl j ns) cs) (fm₂ (.node (.refl i ms) bs) l) = fm₃ (.node (.refl j ns) cs) l) →
      (∀ (p q r : Nat) (l m : Name) (a b c : CTy), ls[p]? = some l → as[p]? = some a → ms[q]? = some m → bs[q]? = some b →
        fm₂ (.node (.refl i ms) bs) l = m → ns[r]? = some (fm₃ (.node (.refl j ns) cs) m) → cs[r]? = some c → Via fm₂ fm₃ a b c) →
      Via fm₂ fm₃ (.node (.refl h ls) as) (.node (.refl i ms) bs) (.node (.refl j ns) cs)

/-- One by one. -/
inductive ViaAll (fm₂ fm₃ : CTy → Name → Name) : List CTy → List CTy → List CTy → Prop
  | nil : ViaAll fm₂ fm₃ [] [] []
  | cons (a b c : CTy) (as bs cs : List CTy) : Via fm₂ fm₃ a b c → ViaAll fm₂ fm₃ as bs cs → ViaAll fm₂ fm₃ (a :: as) (b :: bs) (c :: cs)
end

end Verif.Mp
