import Verif.Vts.Model

/-!
# Version tolerant serialization: specification

`Evolves`: how a type may change between the writing and the reading program.  `convert`: what the object of the reading
program is after reading: fields are matched by name; a matched field gets the (converted) written value, a field that
was added keeps its value, a field that was removed has no influence.
-/

namespace Verif.Vts

open Verif.Serialize

/-- The type is a structure with `AWL_REFLECT`. -/
def isStruct : Ty → Bool
  | .struct (some _) _ => true
  | _ => false

/-- The prototype describes fields of these types: a field that is an `AWL_REFLECT` structure has no type, another
one has the index of its type. -/
def DescribesFields (S : Schema) : Proto → List Ty → Prop
  | [], [] => True
  | (_, ty) :: p, t :: ts =>
    (match ty with
      | none => isStruct t = true
      | some k => isStruct t = false ∧ S.fields[k]? = some t) ∧ DescribesFields S p ts
  | _, _ => False

mutual

/-- The tables describe every `AWL_REFLECT` structure inside the type. -/
def Described (S : Schema) : Ty → Prop
  | .vec t => Described S t
  | .arr _ t => Described S t
  | .opt t _ => Described S t
  | .coll _ t => Described S t
  | .map _ kt vt => Described S kt ∧ Described S vt
  | .var ts => DescribedAll S ts
  | .struct none ts => DescribedAll S ts
  | .struct (some si) ts =>
    si.idx < 2 ^ 16 ∧
    (∃ p, S.protos[si.idx]? = some p ∧ p.map (·.1) = si.names ∧ DescribesFields S p ts) ∧ DescribedAll S ts
  | _ => True

/-- All of them. -/
def DescribedAll (S : Schema) : List Ty → Prop
  | [] => True
  | t :: ts => Described S t ∧ DescribedAll S ts

end

/-- The tables fit into the integers they are stored in and into memory: fewer than 2^64 - 1 types, and so on. -/
structure Fits (cap : Nat) (nm : Ty → Name) (S : Schema) : Prop where
  fields : S.fields.length ≤ cap ∧ S.fields.length < 2 ^ 64 - 1
  names : ∀ t ∈ S.fields, (nm t).length ≤ cap ∧ (nm t).length < 2 ^ 64
  protos : S.protos.length ≤ cap ∧ S.protos.length < 2 ^ 64
  proto : ∀ p ∈ S.protos, p.length ≤ cap ∧ p.length < 2 ^ 64 ∧
    ∀ f ∈ p, f.1.length ≤ cap ∧ f.1.length < 2 ^ 64 ∧ ∀ k, f.2 = some k → k < S.fields.length

section

variable (nm₁ : Ty → Name) (g : Cfg) (φ : Nat → Nat)

/-- Every type used in the tables of the writer has, perhaps after renaming, a namesake in the reading program. -/
def Known (S₁ : Schema) : Prop :=
  ∀ p ∈ S₁.protos, ∀ f ∈ p, ∀ k, f.2 = some k → ∀ t, S₁.fields[k]? = some t →
    g.tm (nm₁ t) ∈ g.S.fields.map g.nm

mutual

/-- A value of the type `t` of the writing program can be read as the type `u` of the reading program.  `φ` says
which structure of the reading program a structure of the writing program has become. -/
def Evolves : Ty → Ty → Prop
  | .num n _, .num m _ => n = m
  | .bool, .bool => True
  | .enm n c, .enm m d => n = m ∧ c ≤ d
  | .time p q, .time p' q' => p = p' ∧ q = q'
  | .str c, .str d => c = d
  | .vec a, .vec b => Evolves a b
  | .arr n a, .arr m b => n = m ∧ Evolves a b
  | .opt a _, .opt b _ => Evolves a b
  | .coll _ a, .coll k b => k ≠ .ring 0 ∧ Evolves a b
  | .map _ a b, .map k a' b' => k ≠ .ring 0 ∧ Evolves a a' ∧ Evolves b b'
  | .var ts, .var us => EvolvesAlts ts us
  | .struct none ts, .struct none us => EvolvesAll ts us
  | .struct (some i) ts, .struct (some j) us =>
    φ i.idx = j.idx ∧ (i.names ≠ [] ∨ j.names = []) ∧ i.names.length = ts.length ∧ j.names.length = us.length ∧
    (i.names.map (g.ren j.idx)).Nodup ∧ j.names.Nodup ∧ EvolvesFields (g.ren j.idx) j.names us i.names ts
  | _, _ => False

/-- Field by field. -/
def EvolvesAll : List Ty → List Ty → Prop
  | [], [] => True
  | t :: ts, u :: us => Evolves t u ∧ EvolvesAll ts us
  | _, _ => False

/-- Alternatives may be added at the end. -/
def EvolvesAlts : List Ty → List Ty → Prop
  | [], _ => True
  | t :: ts, u :: us => Evolves t u ∧ EvolvesAlts ts us
  | _, _ => False

/-- Every field of the old structure exists in the new one, with a type of the same name it evolves to, or it was
removed and can be skipped. -/
def EvolvesFields (rn : Name → Name) (newNames : List Name) (us : List Ty) : List Name → List Ty → Prop
  | [], [] => True
  | n :: ns, t :: ts =>
    ((∃ (j : Nat) (u : Ty), newNames[j]? = some (rn n) ∧ us[j]? = some u ∧
        isStruct t = isStruct u ∧ (isStruct u = false → g.tm (nm₁ t) = g.nm u) ∧ Evolves t u) ∨
      (rn n ∉ newNames ∧ g.allowDelete = true ∧
        ((isStruct t = false ∧ ∃ (k : Nat) (u : Ty), g.S.fields[k]? = some u ∧
            (g.S.fields.map g.nm).findIdx? (· == g.tm (nm₁ t)) = some k ∧ Described g.S u ∧ Evolves t u) ∨
          (isStruct t = true ∧ Skips t)))) ∧
    EvolvesFields rn newNames us ns ts
  | _, _ => False

/-- A removed structure can be skipped field by field. -/
def Skips : Ty → Prop
  | .struct (some _) ts => SkipsAll ts
  | _ => False

/-- All fields of a removed structure can be skipped: the type of the same name in the reading program is a type the
field evolves to. -/
def SkipsAll : List Ty → Prop
  | [] => True
  | t :: ts =>
    ((isStruct t = false ∧ ∃ (k : Nat) (u : Ty), g.S.fields[k]? = some u ∧
        (g.S.fields.map g.nm).findIdx? (· == g.tm (nm₁ t)) = some k ∧ Described g.S u ∧ Evolves t u) ∨
      (isStruct t = true ∧ Skips t)) ∧ SkipsAll ts

end

end

mutual

/-- The names of the fields of every structure are different and none of them was registered as an old name; a ring
has a limit. -/
def WellFormed (ren : Nat → Name → Name) : Ty → Prop
  | .vec t => WellFormed ren t
  | .arr _ t => WellFormed ren t
  | .opt t _ => WellFormed ren t
  | .coll k t => k ≠ .ring 0 ∧ WellFormed ren t
  | .map k kt vt => k ≠ .ring 0 ∧ WellFormed ren kt ∧ WellFormed ren vt
  | .var ts => WellFormedAll ren ts
  | .struct none ts => WellFormedAll ren ts
  | .struct (some i) ts => i.names.Nodup ∧ (∀ n ∈ i.names, ren i.idx n = n) ∧ WellFormedAll ren ts
  | _ => True

/-- All of them. -/
def WellFormedAll (ren : Nat → Name → Name) : List Ty → Prop
  | [] => True
  | t :: ts => WellFormed ren t ∧ WellFormedAll ren ts

end

/-- Adding an element to a container. -/
def collAdd (k : Coll) (key : Val → Val) (l : List Val) (x : Val) : List Val :=
  match k with
  | .deque => l ++ [x]
  | .ring cap => if l.length < cap then l ++ [x] else l.tail ++ [x]
  | .ordered lt => insertOrdered lt key x l
  | .hashed eq => if l.any (fun y => eq (key y) (key x)) then l else l ++ [x]

/-- Element by element, onto existing elements `os`; `d` is the value of a new element. -/
def convertEach (f : Val → Val → Val) (d : Val) : List Val → List Val → List Val
  | [], _ => []
  | v :: vs, [] => f v d :: convertEach f d vs []
  | v :: vs, o :: os => f v o :: convertEach f d vs os

/-- Field by field. -/
def convertAll : List (Val → Ty → Val → Val) → List Val → List Ty → List Val → List Val
  | f :: fs, v :: vs, u :: us, o :: os => f v u o :: convertAll fs vs us os
  | _, _, _, _ => []

/-- The fields of the new structure: `src` has the old fields under their new names. -/
def convertFields (src : List (Name × (Ty → Val → Val))) : List Name → List Ty → List Val → List Val
  | n :: ns, u :: us, o :: os =>
    (match src.lookup n with
      | some f => f u o
      | none => o) :: convertFields src ns us os
  | _, _, _ => []

/-- Convert a pair of key and value. -/
def convertPair (f h : Val → Val) : Val → Val
  | .list [a, b] => .list [f a, h b]
  | v => v

mutual

/-- The object of the type `u` that had the value `o` after reading the value `v` of the type `t` written by the other
version. -/
def convert (ren : Nat → Name → Name) : Ty → Val → Ty → Val → Val
  | .vec a, .list vs, .vec b, .list os => .list (convertEach (fun v o => convert ren a v b o) (dflt b) vs os)
  | .arr _ a, .list vs, .arr _ b, .list os => .list (convertEach (fun v o => convert ren a v b o) (dflt b) vs os)
  | .opt a _, .some v, .opt b _, _ => .some (convert ren a v b (dflt b))
  | .coll _ a, .list vs, .coll k b, _ =>
    .list ((vs.map fun v => convert ren a v b (dflt b)).foldl (collAdd k id) [])
  | .map _ a b, .list vs, .map k a' b', _ =>
    .list ((vs.map (convertPair (fun v => convert ren a v a' (dflt a')) (fun v => convert ren b v b' (dflt b')))).foldl
      (collAdd k fstVal) [])
  | .var ts, .alt i v, .var us, _ =>
    match (converts ren ts)[i]?, us[i]? with
    | some f, some u => .alt i (f v u (dflt u))
    | _, _ => .alt i v
  | .struct none ts, .list vs, .struct none us, .list os => .list (convertAll (converts ren ts) vs us os)
  | .struct (some i) ts, .list vs, .struct (some j) us, .list os =>
    .list (convertFields ((i.names.map (ren j.idx)).zip (List.zipWith (fun f v => f v) (converts ren ts) vs))
      j.names us os)
  | _, v, _, _ => v

/-- The conversions of the fields of a structure or of the alternatives of a variant. -/
def converts (ren : Nat → Name → Name) : List Ty → List (Val → Ty → Val → Val)
  | [] => []
  | t :: ts => (fun v u o => convert ren t v u o) :: converts ren ts

end

end Verif.Vts
