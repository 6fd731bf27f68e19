import Verif.Serialize.Model

/-!
# Serialization: specification

`HasTy t v`: `v` is a value a C++ object of the type `t` can have.  `Fresh t old`: every optional, pointer, set, map,
deque and ring that `Read` fills in place is empty (what a newly created object looks like).  `Replaces t`: the type
does not contain such a part.  `Dec`/`Enc` are the two laws a reader and a writer have to satisfy, stated on bytes only.
-/

namespace Verif.Serialize

/-- The contents `l` (in iteration order) are possible for a container of the kind `k`. -/
def Coll.Valid (k : Coll) (key : Val → Val) (l : List Val) : Prop :=
  match k with
  | .deque => True
  | .ring cap => l.length ≤ cap
  | .ordered lt => l.Pairwise (fun a b => lt (key a) (key b) = true)
  | .hashed eq => l.Pairwise (fun a b => eq (key a) (key b) = false)

mutual

/-- Values of the C++ type `t` on a machine where containers of up to `env.cap` elements can be allocated, with
strings that respect the limit of the context. -/
def HasTy (env : Env) : Ty → Val → Prop
  | .num n _, .num v => v < 256 ^ n
  | .bool, .bool _ => True
  | .enm n count, .num v => v < count ∧ v < 256 ^ n
  | .time p q, .int i => 0 < p ∧ 0 < q ∧ -2 ^ 63 ≤ i * p ∧ i * p < 2 ^ 63 ∧ (q : Int) ∣ i * p
  | .str c, .list vs => vs.length ≤ env.cap ∧ vs.length < 2 ^ 64 ∧ vs.length * c < 2 ^ 64 ∧
      (∀ L, env.limit = some L → vs.length * c ≤ L) ∧ ∀ v ∈ vs, ∃ x, v = .num x ∧ x < 256 ^ c
  | .vec t, .list vs => vs.length ≤ env.cap ∧ vs.length < 2 ^ 64 ∧ (∀ n c, t ≠ .enm n c) ∧ ∀ v ∈ vs, HasTy env t v
  | .arr n t, .list vs => vs.length = n ∧ (∀ n c, t ≠ .enm n c) ∧ ∀ v ∈ vs, HasTy env t v
  | .opt _ _, .none => True
  | .opt t _, .some v => HasTy env t v
  | .coll k t, .list vs => vs.length < 2 ^ 64 ∧ k.Valid id vs ∧ ∀ v ∈ vs, HasTy env t v
  | .map k kt vt, .list vs => vs.length < 2 ^ 64 ∧ k.Valid fstVal vs ∧
      ∀ v ∈ vs, ∃ a b, v = .list [a, b] ∧ HasTy env kt a ∧ HasTy env vt b
  | .var ts, .alt i v => i < 2 ^ 64 ∧ HasTyAt env ts i v
  | .struct _ ts, .list vs => HasTys env ts vs
  | _, _ => False

/-- `v` is a value of the alternative number `i`. -/
def HasTyAt (env : Env) : List Ty → Nat → Val → Prop
  | [], _, _ => False
  | t :: _, 0, v => HasTy env t v
  | _ :: ts, i + 1, v => HasTyAt env ts i v

/-- Field by field. -/
def HasTys (env : Env) : List Ty → List Val → Prop
  | [], [] => True
  | t :: ts, v :: vs => HasTy env t v ∧ HasTys env ts vs
  | _, _ => False

end

mutual

/-- The parts of the object that `Read` fills in place are empty; the rest of the object is arbitrary. -/
def Fresh : Ty → Val → Prop
  | .vec t, .list vs => ∀ v ∈ vs, Fresh t v
  | .vec _, _ => False
  | .arr n t, .list vs => vs.length = n ∧ ∀ v ∈ vs, Fresh t v
  | .arr _ _, _ => False
  | .opt _ _, .none => True
  | .opt _ _, _ => False
  | .coll _ _, .list vs => vs = []
  | .coll _ _, _ => False
  | .map _ _ _, .list vs => vs = []
  | .map _ _ _, _ => False
  | .struct _ ts, .list vs => Freshs ts vs
  | .struct _ _, _ => False
  | _, _ => True

/-- Field by field. -/
def Freshs : List Ty → List Val → Prop
  | [], [] => True
  | t :: ts, v :: vs => Fresh t v ∧ Freshs ts vs
  | _, _ => False

end

mutual

/-- The type has no optional, pointer, set, map, deque or ring that is reached in place (that is, not inside of one
of these or inside of a variant). -/
def Replaces : Ty → Bool
  | .vec t => Replaces t
  | .arr _ t => Replaces t
  | .opt _ _ => false
  | .coll _ _ => false
  | .map _ _ _ => false
  | .struct _ ts => ReplacesAll ts
  | _ => true

/-- Field by field. -/
def ReplacesAll : List Ty → Bool
  | [] => true
  | t :: ts => Replaces t && ReplacesAll ts

end

/-- What is assumed about a container kind: a ring has a limit, the comparator of an ordered container is
transitive. -/
def Coll.Good (k : Coll) : Prop :=
  match k with
  | .deque => True
  | .ring cap => 0 < cap
  | .ordered lt => ∀ a b c, lt a b = true → lt b c = true → lt a c = true
  | .hashed _ => True

mutual

/-- The type can be compiled and has none of the parts whose reading is unchecked: no variant (its index is not
checked), no ring without a limit, no time point whose conversion from nanoseconds multiplies.  An enumeration
has at least one enumerator and the bytes of a string that can be allocated can be counted by `size_t`. -/
def Checked (env : Env) : Ty → Prop
  | .enm _ count => 0 < count
  | .str c => env.cap * c < 2 ^ 64
  | .vec t => (∀ n c, t ≠ .enm n c) ∧ Checked env t
  | .arr _ t => (∀ n c, t ≠ .enm n c) ∧ Checked env t
  | .opt t _ => Checked env t
  | .coll k t => k.Good ∧ Checked env t
  | .map k kt vt => k.Good ∧ Checked env kt ∧ Checked env vt
  | .var _ => False
  | .time _ q => q = 1
  | .struct _ ts => CheckedAll env ts
  | _ => True

/-- Field by field. -/
def CheckedAll (env : Env) : List Ty → Prop
  | [] => True
  | t :: ts => Checked env t ∧ CheckedAll env ts

end

mutual

/-- The rules an object of the type always obeys: enumerators are in range, strings respect the limit of the context,
sets and maps are sorted without equivalent keys, hash containers have no equal keys, rings do not exceed their limit,
arrays have their dimension. -/
def Legal (env : Env) : Ty → Val → Prop
  | .num n _, .num v => v < 256 ^ n
  | .bool, .bool _ => True
  | .enm _ count, .num v => v < count
  | .time _ _, .int _ => True
  | .str c, .list vs => (∀ L, env.limit = some L → vs.length * c ≤ L) ∧ ∀ v ∈ vs, ∃ x, v = .num x ∧ x < 256 ^ c
  | .vec t, .list vs => ∀ v ∈ vs, Legal env t v
  | .arr n t, .list vs => vs.length = n ∧ ∀ v ∈ vs, Legal env t v
  | .opt _ _, .none => True
  | .opt t _, .some v => Legal env t v
  | .coll k t, .list vs => k.Valid id vs ∧ ∀ v ∈ vs, Legal env t v
  | .map k kt vt, .list vs => k.Valid fstVal vs ∧
      ∀ v ∈ vs, ∃ a b, v = .list [a, b] ∧ Legal env kt a ∧ Legal env vt b
  | .var ts, .alt i v => LegalAt env ts i v
  | .struct _ ts, .list vs => Legals env ts vs
  | _, _ => False

/-- `v` is a legal value of the alternative number `i`. -/
def LegalAt (env : Env) : List Ty → Nat → Val → Prop
  | [], _, _ => False
  | t :: _, 0, v => Legal env t v
  | _ :: ts, i + 1, v => LegalAt env ts i v

/-- Field by field. -/
def Legals (env : Env) : List Ty → List Val → Prop
  | [], [] => True
  | t :: ts, v :: vs => Legal env t v ∧ Legals env ts vs
  | _, _ => False

end

end Verif.Serialize
