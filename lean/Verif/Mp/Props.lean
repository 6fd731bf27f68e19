import Verif.Mp.Collect
import Verif.Mp.ValueLemmas
import Verif.Vts.Props
import Verif.Vts.Failure

/-!
# The tables derived from the types (C105), the names of the types (C106)
-/

namespace Verif.Mp

open Verif Verif.Serialize Verif.Vts

/-! ## C105: tables -/

/-- `FieldMap<Struct>` by structure, as the reader uses it, by the index of the structure. -/
def renOf (fm : CTy → Name → Name) (V : List CTy) (i : Nat) (n : Name) : Name :=
  match (structV V)[i]? with
  | some s => fm s n
  | none => n

/-- The reading program for the structure `t` and the variant `V`. -/
def cfgOf (env : Env) (S : Schema) (fm : CTy → Name → Name) (V : List CTy) (tm : Name → Name) (allowDelete : Bool) : Cfg :=
  ⟨env, S, nameTy, renOf fm V, tm, allowDelete⟩

/-- The variant fits into memory and into the integers the tables are stored in. -/
structure Small (cap : Nat) (V : List CTy) : Prop where
  types : V.length ≤ cap ∧ V.length < 2 ^ 16
  names : ∀ t ∈ V, (typeName t).length ≤ cap ∧ (typeName t).length < 2 ^ 64
  fields : ∀ id ns args, CTy.node (.refl id ns) args ∈ V → ns.length ≤ cap ∧ ns.length < 2 ^ 64 ∧ ∀ n ∈ ns, n.length ≤ cap ∧ n.length < 2 ^ 64

/-- In each structure inside of the type the names of the fields are different and not registered as old names; a ring has a limit. -/
def Proper (fm : CTy → Name → Name) (t : CTy) : Prop :=
  ∀ k args, Part (.node k args) t → k ≠ .ring 0 ∧ ∀ id ns, k = .refl id ns → ns.Nodup ∧ ∀ n ∈ ns, fm (.node k args) n = n

/-- C105: the variant has the types inside of the type, once each, in the order of their first occurrence. -/
theorem c105_variant (ex : Extra) (t : CTy) : variantOf ex t = (collect ex t).eraseDups ∧ (variantOf ex t).Nodup := by
  refine ⟨?_, (toVariant_spec _ [] (by simp)).1⟩
  rw [variantOf, toVariant_eraseDups, List.nil_append]
  congr 1
  exact List.filter_eq_self.mpr (by simp)

/-- C105: these are the parts of the type except pairs, and `int64_t` if there is a time point. -/
theorem c105_members (t u : CTy) (ho : Ok t) :
    u ∈ variantOf noExtra t ↔ (Part u t ∧ isPair u = false) ∨ (u = int64 ∧ ∃ w, Part w t ∧ isTime w = true) := by
  rw [variantOf, (toVariant_spec (collect noExtra t) [] (by simp)).2.1, ← mem_collect t u ho]
  simp

/-- C105: the tables exist (the program compiles) if and only if there is a structure inside of the type, there is a type that is not a structure, and no field
of a structure is a pair. -/
theorem c105_compiles_partial (O : Orders) (t : CTy) (ho : Ok t) : (schemaOf O (variantOf noExtra t)).isSome = true ↔
    (∃ s, Part s t ∧ isRefl s = true) ∧ (∃ u, Part u t ∧ isRefl u = false ∧ isPair u = false) ∧
    ∀ id names args, Part (.node (.refl id names) args) t → ∀ a ∈ args, isPair a = false :=
  schemaOf_isSome O t ho

theorem schemaOf_some {O : Orders} {V : List CTy} {S : Schema} (h : schemaOf O V = some S) :
    ∃ ps, protosOf (fieldV V) (structV V) = some ps ∧ S = ⟨(fieldV V).map (toTy O (structV V)), ps⟩ := by
  simp only [schemaOf] at h
  split at h
  · cases h
  · split at h
    · next ps hp => cases h; exact ⟨ps, hp, rfl⟩
    · cases h

/-- C105: the tables describe the type. -/
theorem c105_described (O : Orders) (ex : Extra) (t : CTy) (S : Schema) (ho : Ok t) (hS : schemaOf O (variantOf ex t) = some S)
    (hl : (structV (variantOf ex t)).length ≤ 2 ^ 16) : Described S (toTy O (structV (variantOf ex t)) t) := by
  obtain ⟨ps, hp, rfl⟩ := schemaOf_some hS
  have hv := toVariant_spec (collect ex t) [] (by simp)
  exact described_toTy O _ ps ex hv.1 hl hp t ho (fun s hs _ => (hv.2.1 s).2 (.inr hs))

/-- C105: also with a variant of the user's, if it has each type once and all structures inside of the type. -/
theorem c105_described_user (O : Orders) (V : List CTy) (t : CTy) (S : Schema) (ho : Ok t) (hn : V.Nodup)
    (hV : ∀ s, Part s t → isRefl s = true → s ∈ V) (hS : schemaOf O V = some S)
    (hl : (structV V).length ≤ 2 ^ 16) : Described S (toTy O (structV V) t) := by
  obtain ⟨ps, hp, rfl⟩ := schemaOf_some hS
  refine described_toTy O _ ps noExtra hn hl hp t ho (fun s hs hr => ?_)
  rcases (mem_collect t s ho).1 hs with ⟨h, _⟩ | ⟨rfl, _⟩
  · exact hV s h hr
  · cases hr

theorem length_filter_le' (p : CTy → Bool) (l : List CTy) : (l.filter p).length ≤ l.length := List.length_filter_le p l

theorem fits_of (O : Orders) (V : List CTy) (S : Schema) (cap : Nat) (hS : schemaOf O V = some S) (hok : ∀ t ∈ V, Ok t) (hs : Small cap V) :
    Fits cap nameTy S := by
  obtain ⟨ps, hp, rfl⟩ := schemaOf_some hS
  have hF := length_filter_le' (fun t => !isRefl t) V
  have hT := length_filter_le' isRefl V
  rw [← fieldV_eq] at hF
  rw [← structV_eq] at hT
  have ht := hs.types
  have hplen : ∀ (F l : List CTy) (ps : List Proto), protosOf F l = some ps → ps.length = l.length ∧
      ∀ p ∈ ps, ∃ s ∈ l, protoOf F s = some p := by
    intro F l
    induction l with
    | nil => intro ps h; simp [protosOf] at h; subst h; simp
    | cons t ts ih =>
      intro ps h
      simp only [protosOf] at h
      cases h1 : protoOf F t with
      | none => simp [h1] at h
      | some p =>
        cases h2 : protosOf F ts with
        | none => simp [h1, h2] at h
        | some q =>
          simp [h1, h2] at h; subst h
          obtain ⟨i1, i2⟩ := ih q h2
          refine ⟨by simp [i1], fun r hr => ?_⟩
          rcases List.mem_cons.mp hr with rfl | hr
          · exact ⟨t, by simp, h1⟩
          · obtain ⟨s, hs, e⟩ := i2 r hr
            exact ⟨s, by simp [hs], e⟩
  obtain ⟨hl, hm⟩ := hplen _ _ _ hp
  have htype : ∀ (F : List CTy) (ns : List Name) (ts : List CTy) (p : Proto), protoFields F ns ts = some p →
      ∀ f ∈ p, ∀ k, f.2 = some k → k < F.length := by
    intro F ns
    induction ns with
    | nil => intro ts p h; cases ts <;> simp [protoFields] at h; subst h; simp
    | cons n ns ih =>
      intro ts p h
      cases ts with
      | nil => simp [protoFields] at h
      | cons t ts =>
        simp only [protoFields] at h
        cases h1 : fieldType F t with
        | none => simp [h1] at h
        | some k =>
          cases h2 : protoFields F ns ts with
          | none => simp [h1, h2] at h
          | some q =>
            simp [h1, h2] at h; subst h
            intro f hf j hj
            rcases List.mem_cons.mp hf with rfl | hf
            · simp only at hj; subst hj
              simp only [fieldType] at h1
              split at h1
              · cases h1
              · cases hf' : findType t F with
                | none => simp [hf'] at h1
                | some i =>
                  simp [hf'] at h1; subst h1
                  exact (List.getElem?_eq_some_iff.mp (findType_get hf')).1
            · exact ih ts q h2 f hf j hj
  constructor
  · simp only [List.length_map]; omega
  · intro u hu
    simp only [List.mem_map] at hu
    obtain ⟨t, ht, rfl⟩ := hu
    rw [fieldV_eq, List.mem_filter] at ht
    rw [nameTy_toTy O _ t (hok t ht.1)]
    exact hs.names t ht.1
  · simp only; omega
  · intro p hpm
    obtain ⟨s, hsm, e⟩ := hm p hpm
    rw [structV_eq, List.mem_filter] at hsm
    obtain ⟨k, args⟩ := s
    cases k <;> simp [isRefl] at hsm
    case refl id ns =>
    simp only [protoOf] at e
    have hnm := protoFields_names _ _ _ _ e
    obtain ⟨h1, h2, h3⟩ := hs.fields id ns args hsm
    have hlen : p.length = ns.length := by rw [← hnm, List.length_map]
    refine ⟨by omega, by omega, fun f hf => ?_⟩
    have hfm : f.1 ∈ ns := by rw [← hnm]; exact List.mem_map_of_mem hf
    exact ⟨(h3 _ hfm).1, (h3 _ hfm).2, fun j hj => by simpa using htype _ _ _ _ e f hf j hj⟩

mutual
theorem wellFormed_of (O : Orders) (fm : CTy → Name → Name) (V : List CTy) (hn : V.Nodup) : ∀ (t : CTy), Ok t → (∀ s, Part s t → isRefl s = true → s ∈ V) →
    (∀ k args, Part (.node k args) t → k ≠ .ring 0 ∧ ∀ id ns, k = .refl id ns → ns.Nodup ∧ ∀ n ∈ ns, fm (.node k args) n = n) →
    WellFormed (renOf fm V) (toTy O (structV V) t)
  | .node k args, ho, hV, hp => by
    simp only [Ok] at ho
    simp only [toTy]
    by_cases hf : isFinal k args = true
    · cases k <;> simp only [isFinal] at hf <;> try (cases hf)
      all_goals
        rcases args with _ | ⟨⟨ka, as⟩, _ | ⟨b, l⟩⟩ <;> simp at hf
        cases ka <;> simp [isArith] at hf <;> simp [toTys, toTy, ofKind, WellFormed]
    · have hf' : isFinal k args = false := by simpa using hf
      have ih := wellFormed_all O fm V hn args ho.2 (fun a ha s hs hr => hV s (.arg ha hf' hs) hr)
        (fun a ha k' as' hs => hp k' as' (.arg ha hf' hs))
      cases k
      case refl id names =>
        have hm : CTy.node (.refl id names) args ∈ structV V := by rw [structV_eq, List.mem_filter]; exact ⟨hV _ (.self _) rfl, rfl⟩
        have hn' : (structV V).Nodup := by rw [structV_eq]; exact hn.filter _
        obtain ⟨idx, h1, h2⟩ := findType_some hn' hm
        simp only [ofKind, h1, Option.getD_some, WellFormed]
        obtain ⟨_, h3⟩ := hp _ _ (.self _)
        obtain ⟨h4, h5⟩ := h3 id names rfl
        exact ⟨h4, fun n hn => by simp only [renOf, h2]; exact h5 n hn, ih⟩
      case ring cap =>
        obtain ⟨h3, _⟩ := hp _ _ (.self _)
        rcases args with _ | ⟨a, _ | ⟨b, l⟩⟩ <;> simp [toTys, WellFormedAll] at ih <;> simp [toTys, ofKind, WellFormed, WellFormedAll, ih]
        intro e; subst e; exact h3 rfl
      all_goals
        rcases args with _ | ⟨a, _ | ⟨b, _ | ⟨c, l⟩⟩⟩ <;> simp [toTys, WellFormedAll] at ih <;> simp [toTys, ofKind, WellFormed, WellFormedAll, ih]
theorem wellFormed_all (O : Orders) (fm : CTy → Name → Name) (V : List CTy) (hn : V.Nodup) : ∀ (ts : List CTy), OkAll ts →
    (∀ a ∈ ts, ∀ s, Part s a → isRefl s = true → s ∈ V) →
    (∀ a ∈ ts, ∀ k args, Part (.node k args) a → k ≠ .ring 0 ∧ ∀ id ns, k = .refl id ns → ns.Nodup ∧ ∀ n ∈ ns, fm (.node k args) n = n) →
    WellFormedAll (renOf fm V) (toTys O (structV V) ts)
  | [], _, _, _ => by simp [toTys, WellFormedAll]
  | t :: ts, ho, hV, hp => by
    simp only [OkAll] at ho
    simp only [toTys, WellFormedAll]
    exact ⟨wellFormed_of O fm V hn t ho.1 (hV t (by simp)) (hp t (by simp)),
      wellFormed_all O fm V hn ts ho.2 (fun a ha => hV a (by simp [ha])) (fun a ha => hp a (by simp [ha]))⟩
end

/-- C105: the type code that the tables give to a type has the values of the type, and nothing else has to be empty before reading. -/
theorem c105_values (O : Orders) (env : Env) (V : List CTy) (t : CTy) (ho : Ok t) (v : Val) :
    (HasTy env (toTy O (structV V) t) v ↔ Value O env t v) ∧ (Fresh (toTy O (structV V) t) v ↔ Blank t v) :=
  ⟨value_iff O _ env t ho v, blank_iff O _ t ho v⟩

/-- C105: what is written with the derived tables is read back, for every structure type whose tables exist. -/
theorem c105_round_trip (O : Orders) (env : Env) (fm : CTy → Name → Name) (t : CTy) (S : Schema) (allowDelete : Bool) (v o : Val) (ho : Ok t)
    (hS : schemaOf O (variantOf noExtra t) = some S) (hs : Small env.cap (variantOf noExtra t)) (hp : Proper fm t)
    (hv : Value O env t v) (hf : Blank t o) :
    ∃ bs, writeV env nameTy S (toTy O (structV (variantOf noExtra t)) t) v = .ok bs ∧ ∀ fuel, bs.length < fuel → ∀ rest,
      readV (cfgOf env S fm (variantOf noExtra t) id allowDelete) fuel (toTy O (structV (variantOf noExtra t)) t) o (bs ++ rest) = .ok (v, rest) := by
  have hv := (value_iff O (structV (variantOf noExtra t)) env t ho v).2 hv
  have hf := (blank_iff O (structV (variantOf noExtra t)) t ho o).2 hf
  have hT := length_filter_le' isRefl (variantOf noExtra t)
  rw [← structV_eq] at hT
  have := hs.types
  have hvs := toVariant_spec (collect noExtra t) [] (by simp)
  have hok : ∀ u ∈ variantOf noExtra t, Ok u := by
    intro u hu
    rw [variantOf, hvs.2.1] at hu
    rcases hu with hu | hu
    · simp at hu
    · exact collect_ok ho hu
  refine c35_round_trip (cfgOf env S fm (variantOf noExtra t) id allowDelete) _ v o (fits_of O _ S env.cap hS hok hs) (fun _ _ => rfl) ?_
    (c105_described O noExtra t S ho hS (by omega)) hv hf
  refine wellFormed_of O fm _ hvs.1 t ho (fun s hs hr => ?_) hp
  refine (c105_members t s ho).2 (.inl ⟨hs, ?_⟩)
  obtain ⟨k, args⟩ := s
  cases k <;> simp_all [isRefl, isPair]

/-! ### Samples: the structures of `Tests/VtsData.h:47-93` -/

section Sample

def cInt : CTy := .node (.int 4 0) []
def cBool : CTy := .node .bool []
def cDouble : CTy := .node (.flt 8) []
def cString : CTy := .node (.str 1) []
/-- `struct A { int a; bool b; String c; double d; }` -/
def cA : CTy := .node (.refl 0 [[97], [98], [99], [100]]) [cInt, cBool, cString, cDouble]
/-- `struct C { int x; A a; }` -/
def cC : CTy := .node (.refl 1 [[120], [97]]) [cInt, cA]
/-- `struct B { A a; A b; int x; bool y; Vector<A> v; std::set<C> v1; }` -/
def cB : CTy := .node (.refl 2 [[97], [98], [120], [121], [118], [118, 49]]) [cA, cA, cInt, cBool, .node .vec [cA], .node (.set 0) [cC]]

/-- The assertions of `VtsData.h:60` and `:93`. -/
example : variantOf noExtra cA = [cA, cInt, cBool, cString, cDouble] ∧
    variantOf noExtra cB = [cB, cA, cInt, cBool, cString, cDouble, .node .vec [cA], .node (.set 0) [cC], cC] := ⟨rfl, rfl⟩

/-- Comparison of numbers; other objects by the number they start with. -/
def lead : Val → Nat
  | .num n => n
  | .list (.num n :: _) => n
  | _ => 0

def sampleOrders : Orders := ⟨fun _ a b => lead a < lead b, fun _ a b => lead a == lead b⟩

/-- The tables of `B`: the structures are `B`, `A`, `C`, the other types `int, bool, String, double, Vector<A>, set<C>`. -/
def sampleSchema : Schema :=
  ⟨(fieldV (variantOf noExtra cB)).map (toTy sampleOrders (structV (variantOf noExtra cB))),
    [[([97], none), ([98], none), ([120], some 0), ([121], some 1), ([118], some 4), ([118, 49], some 5)],
     [([97], some 0), ([98], some 1), ([99], some 2), ([100], some 3)],
     [([120], some 0), ([97], none)]]⟩

theorem sample_schema : schemaOf sampleOrders (variantOf noExtra cB) = some sampleSchema := rfl

theorem sample_ok : Ok cB := by simp [cB, cA, cC, cInt, cBool, cString, cDouble, Ok, OkAll, okNode]

/-- `a_expected` -/
def vA : Val := .list [.num 1, .bool true, .list [.num 97, .num 98, .num 99], .num 4611686018427387904]
/-- `b_expected` -/
def vB : Val := .list [vA, vA, .num 1, .bool true, .list [vA, vA, vA], .list [.list [.num 7, vA]]]

theorem proper_of {fm : CTy → Name → Name} {t : CTy} (ho : Ok t)
    (h : ∀ u ∈ variantOf noExtra t, ∀ k args, u = .node k args → k ≠ .ring 0 ∧ ∀ id ns, k = .refl id ns → ns.Nodup ∧ ∀ n ∈ ns, fm u n = n) : Proper fm t := by
  intro k args hp
  by_cases hpair : isPair (.node k args) = true
  · cases k <;> simp [isPair] at hpair
    simp
  · exact h _ ((c105_members t _ ho).2 (.inl ⟨hp, by simpa using hpair⟩)) k args rfl

theorem sample_proper : Proper (fun _ n => n) cB := by
  refine proper_of sample_ok fun u hu k args e => ?_
  have hV : variantOf noExtra cB = [cB, cA, cInt, cBool, cString, cDouble, .node .vec [cA], .node (.set 0) [cC], cC] := rfl
  rw [hV] at hu
  subst e
  simp only [List.mem_cons, List.not_mem_nil, or_false, cB, cA, cInt, cBool, cString, cDouble, cC, CTy.node.injEq] at hu
  rcases hu with h | h | h | h | h | h | h | h | h <;> obtain ⟨rfl, rfl⟩ := h <;> simp

theorem sample_small : Small 1000 (variantOf noExtra cB) := by
  have hV : variantOf noExtra cB = [cB, cA, cInt, cBool, cString, cDouble, .node .vec [cA], .node (.set 0) [cC], cC] := rfl
  rw [hV]
  refine ⟨by simp, ?_, ?_⟩
  · decide
  · intro id ns args hm
    simp only [List.mem_cons, List.not_mem_nil, or_false, cB, cA, cInt, cBool, cString, cDouble, cC, CTy.node.injEq] at hm
    rcases hm with h | h | h | h | h | h | h | h | h <;> obtain ⟨h, rfl⟩ := h <;> cases h <;> decide

/-- `b_expected` is written and read back; the new object has a vector with one element. -/
example : ∃ bs, writeV ⟨none, 1000⟩ nameTy sampleSchema (toTy sampleOrders (structV (variantOf noExtra cB)) cB) vB = .ok bs ∧ ∀ fuel, bs.length < fuel → ∀ rest,
    readV (cfgOf ⟨none, 1000⟩ sampleSchema (fun _ n => n) (variantOf noExtra cB) id true) fuel (toTy sampleOrders (structV (variantOf noExtra cB)) cB)
      (.list [vA, vA, .num 5, .bool false, .list [vA], .list []]) (bs ++ rest) = .ok (vB, rest) := by
  refine c105_round_trip sampleOrders ⟨none, 1000⟩ (fun _ n => n) cB sampleSchema true vB _ sample_ok sample_schema sample_small sample_proper ?_ ?_
  · simp [vB, vA, cB, cA, cC, cInt, cBool, cString, cDouble, Value, Values, isEnm]
  · simp [vA, cB, cA, cInt, cBool, cString, cDouble, Blank, Blanks]

example : (schemaOf sampleOrders (variantOf noExtra cB)).isSome = true ∧ Described sampleSchema (toTy sampleOrders (structV (variantOf noExtra cB)) cB) :=
  ⟨rfl, c105_described sampleOrders noExtra cB sampleSchema sample_ok sample_schema (by decide)⟩

end Sample

/-- C105 is violated for a structure with a pair: `struct { std::pair<int, int> p; }` has no tables, its `Reader` and `Writer` do not compile; although a pair can be
written by itself, and although a vector of pairs can be a field. -/
theorem c105_pair_field_violated (O : Orders) :
    (∀ (id : Nat) (names : List Name) (args : List CTy) (a b : CTy), Ok (.node (.refl id names) args) → .node .pair [a, b] ∈ args →
      schemaOf O (variantOf noExtra (.node (.refl id names) args)) = none) ∧
    (schemaOf O (variantOf noExtra (.node (.refl 0 [[97]]) [.node .vec [.node .pair [cInt, cInt]]]))).isSome = true := by
  refine ⟨fun id names args a b ho hm => ?_, rfl⟩
  cases h : schemaOf O (variantOf noExtra (.node (.refl id names) args)) with
  | none => rfl
  | some S =>
    have := (c105_compiles_partial O _ ho).1 (by rw [h]; rfl)
    have := this.2.2 id names args (.self _) _ hm
    cases this

/-- C105 is violated for structures without fields, and for structures of structures only. -/
theorem c105_only_structures_violated (O : Orders) (t : CTy) (ho : Ok t) (h : ∀ u, Part u t → isRefl u = true) : schemaOf O (variantOf noExtra t) = none := by
  cases hs : schemaOf O (variantOf noExtra t) with
  | none => rfl
  | some S =>
    obtain ⟨_, ⟨u, h1, h2, _⟩, _⟩ := (c105_compiles_partial O _ ho).1 (by rw [hs]; rfl)
    rw [h u h1] at h2; cases h2

example (O : Orders) : schemaOf O (variantOf noExtra (.node (.refl 0 [[97]]) [.node (.refl 1 []) []])) = none := rfl

/-- C105 is violated for the additional types of a structure (`type_converter<T>::extra_tuple`, meant for the types of deleted fields): they are not taken apart,
so a deleted field of a structure type prevents the tables unless the types of its fields occur elsewhere. -/
theorem c105_extra_violated (O : Orders) :
    let old : CTy := .node (.refl 1 [[98]]) [cDouble]
    let new : CTy := .node (.refl 0 [[97]]) [cInt]
    let ex : Extra := fun id => if id = 0 then [old] else []
    schemaOf O (variantOf ex new) = none ∧ cDouble ∉ variantOf ex new ∧ old ∈ variantOf ex new ∧
    (schemaOf O (variantOf (fun id => if id = 0 then [old, cDouble] else []) new)).isSome = true :=
  ⟨rfl, by decide, by decide, rfl⟩

/-! ## C106: names -/

/-- The bytes of a text of ASCII characters. -/
def Spec.text (s : String) : Name := s.toList.map fun c => UInt8.ofNat c.toNat

theorem text_append (a b : String) : Spec.text (a ++ b) = Spec.text a ++ Spec.text b := by simp [Spec.text]

theorem digits_repr : ∀ (f n : Nat), n ≤ f → 0 < n → digits f n = (Nat.toDigits 10 n).map (fun c => UInt8.ofNat c.toNat)
  | 0, n, h, h0 => by omega
  | f + 1, n, h, h0 => by
    have hd : ∀ d, d < 10 → UInt8.ofNat (d + 48) = UInt8.ofNat (Nat.digitChar d).toNat := by decide
    simp only [digits, Nat.ne_of_gt h0, if_false]
    by_cases hn : n < 10
    · rw [Nat.toDigits_of_lt_base hn, Nat.mod_eq_of_lt hn, Nat.div_eq_of_lt hn]
      cases f <;> simp [digits, hd n hn]
    · rw [Nat.toDigits_of_base_le (by omega) (by omega), List.map_append, ← digits_repr f (n / 10) (by omega) (by omega), hd _ (Nat.mod_lt _ (by omega))]
      rfl

theorem format_repr (n : Nat) : formatNumber n = Spec.text (toString n) := by
  show _ = Spec.text (Nat.repr n)
  simp only [formatNumber, Spec.text, Nat.repr, String.toList_ofList]
  split
  · next h => subst h; rfl
  · exact digits_repr n n (Nat.le_refl _) (by omega)

/-- C106: the names of numbers are those under which earlier programs have written them: the kind and the number of bits, in decimal digits. -/
theorem c106_number_names (n e s : Nat) (args : List Name) :
    nameOf (.int n s) args = Spec.text ("int" ++ toString (8 * n) ++ "_t") ∧ nameOf (.flt n) args = Spec.text ("float" ++ toString (8 * n) ++ "_t") ∧
    (¬ (n = 8 ∧ e = 4) → nameOf (.dec n e) args = Spec.text ("decimal<int" ++ toString (8 * n) ++ "_t, " ++ toString e ++ ">")) := by
  refine ⟨?_, ?_, fun h => ?_⟩
  · simp only [nameOf, intName, format_repr, text_append, Nat.mul_comm n 8, List.append_assoc]; rfl
  · simp only [nameOf, fltName, format_repr, text_append, Nat.mul_comm n 8, List.append_assoc]; rfl
  · simp only [nameOf, decName, h, if_false, intName, format_repr, text_append, Nat.mul_comm n 8, List.append_assoc]; rfl

example : typeName (.node (.int 4 0) []) = Spec.text "int32_t" ∧ nameOf (.dec 16 8) [] = Spec.text "decimal<int128_t, 8>" := by decide +kernel

/-- C106: two types have the same name exactly if they have the same shape. Missing: that types of one name are one type (`c106_same_name_violated`). -/
theorem c106_names_partial (t u : CTy) (ht : Ok t) (hu : Ok u) : typeName t = typeName u ↔ shape t = shape u := by
  rw [typeName_shape t ht, typeName_shape u hu]
  constructor
  · intro h
    exact (name_inj (shape t) (shape u) [] [] (by simp [Delim]) (by simp [Delim]) (by rw [h])).1
  · intro h; rw [h]

/-- `"sequence<pair<int32_t, float64_t>>"` -/
example : typeName (.node (.map 0) [cInt, cDouble]) = chars "sequence<pair<int32_t, float64_t>>".toList := rfl
/-- A map and a vector of pairs have the same name; a signed and an unsigned integer too. -/
example : typeName (.node (.map 0) [cInt, cDouble]) = typeName (.node .vec [.node .pair [.node (.int 4 1) [], cDouble]]) :=
  (c106_names_partial _ _ (by simp [Ok, OkAll, okNode, cInt, cDouble]) (by simp [Ok, OkAll, okNode, cDouble])).2 rfl
/-- `optional<array<int, 3>>` and `optional<array<int, 13>>` have different names. -/
example : typeName (.node .opt [.node (.arr 3) [cInt]]) ≠ typeName (.node .opt [.node (.arr 13) [cInt]]) := by
  rw [Ne, c106_names_partial _ _ (by simp [Ok, OkAll, okNode, cInt]) (by simp [Ok, OkAll, okNode, cInt])]
  simp [shape, shapes, shapeOf]

/-- C106: the name in the tables is the name of the type. -/
theorem c106_table (O : Orders) (ex : Extra) (t : CTy) (S : Schema) (ho : ∀ u ∈ variantOf ex t, Ok u) (hS : schemaOf O (variantOf ex t) = some S) :
    S.fields.map nameTy = (fieldV (variantOf ex t)).map typeName := by
  obtain ⟨ps, _, rfl⟩ := schemaOf_some hS
  simp only [List.map_map]
  refine List.map_congr_left fun u hu => ?_
  rw [fieldV_eq, List.mem_filter] at hu
  exact nameTy_toTy O _ u (ho u hu.1)

example : sampleSchema.fields.map nameTy = (fieldV (variantOf noExtra cB)).map typeName := rfl

/-- C106: a field that has kept its name but whose type has got another shape is reported: reading the structure throws an `IoException`. -/
theorem c106_changed_field (O : Orders) (env : Env) (fm : CTy → Name → Name) (id₁ id₂ : Nat) (ns ms : List Name) (as bs : List CTy) (S₁ S₂ : Schema)
    (del : Bool) (v : Val) (k m : Nat) (n : Name) (a b : CTy)
    (ho₁ : Ok (.node (.refl id₁ ns) as)) (ho₂ : Ok (.node (.refl id₂ ms) bs))
    (hS₁ : schemaOf O (variantOf noExtra (.node (.refl id₁ ns) as)) = some S₁)
    (hS₂ : schemaOf O (variantOf noExtra (.node (.refl id₂ ms) bs)) = some S₂)
    (hs₁ : Small env.cap (variantOf noExtra (.node (.refl id₁ ns) as))) (hs₂ : Small env.cap (variantOf noExtra (.node (.refl id₂ ms) bs)))
    (hk : ∀ u, u ∈ variantOf noExtra (.node (.refl id₁ ns) as) → isRefl u = false →
      ∃ w ∈ variantOf noExtra (.node (.refl id₂ ms) bs), isRefl w = false ∧ shape w = shape u)
    (hv : HasTy env (toTy O (structV (variantOf noExtra (.node (.refl id₁ ns) as))) (.node (.refl id₁ ns) as)) v)
    (hms : ms.Nodup) (hn : ns[k]? = some n) (ha : as[k]? = some a) (hm : ms[m]? = some (fm (.node (.refl id₂ ms) bs) n)) (hb : bs[m]? = some b)
    (hne : shape a ≠ shape b) :
    ∃ bytes, writeV env nameTy S₁ (toTy O (structV (variantOf noExtra (.node (.refl id₁ ns) as))) (.node (.refl id₁ ns) as)) v = .ok bytes ∧
      ∀ fuel rest o, readV (cfgOf env S₂ fm (variantOf noExtra (.node (.refl id₂ ms) bs)) id del) fuel
        (toTy O (structV (variantOf noExtra (.node (.refl id₂ ms) bs))) (.node (.refl id₂ ms) bs)) (.list o) (bytes ++ rest) = .throw .io := by
  generalize hT₁ : CTy.node (.refl id₁ ns) as = t₁ at *
  generalize hT₂ : CTy.node (.refl id₂ ms) bs = t₂ at *
  have hok : ∀ t, Ok t → ∀ u ∈ variantOf noExtra t, Ok u := by
    intro t ho u hu
    rw [variantOf, (toVariant_spec (collect noExtra t) [] (by simp)).2.1] at hu
    rcases hu with hu | hu
    · simp at hu
    · exact collect_ok ho hu
  have hlen : ∀ t, Small env.cap (variantOf noExtra t) → (structV (variantOf noExtra t)).length ≤ 2 ^ 16 := by
    intro t hs
    have hT := length_filter_le' isRefl (variantOf noExtra t)
    rw [← structV_eq] at hT
    have := hs.types
    omega
  have hidx : ∀ id ns as, Ok (.node (.refl id ns) as) → ∃ i, toTy O (structV (variantOf noExtra (.node (.refl id ns) as))) (.node (.refl id ns) as) =
      .struct (some ⟨i, ns⟩) (toTys O (structV (variantOf noExtra (.node (.refl id ns) as))) as) ∧
      (structV (variantOf noExtra (.node (.refl id ns) as)))[i]? = some (.node (.refl id ns) as) := by
    intro id ns as ho
    have hn' : (structV (variantOf noExtra (.node (.refl id ns) as))).Nodup := by
      rw [structV_eq]; exact (c105_variant noExtra _).2.filter _
    obtain ⟨i, h1, h2⟩ := findType_some (t := .node (.refl id ns) as) hn' (by
      rw [structV_eq, List.mem_filter, c105_members _ _ ho]; exact ⟨.inl ⟨.self _, rfl⟩, rfl⟩)
    exact ⟨i, by simp only [toTy, ofKind, h1, Option.getD_some], h2⟩
  obtain ⟨i, hi, _⟩ := hidx id₁ ns as (by rw [hT₁]; exact ho₁)
  obtain ⟨j, hj, hj2⟩ := hidx id₂ ms bs (by rw [hT₂]; exact ho₂)
  rw [hT₁] at hi
  rw [hT₂] at hj hj2
  have hd₁ := c105_described O noExtra t₁ S₁ ho₁ hS₁ (hlen t₁ hs₁)
  have hd₂ := c105_described O noExtra t₂ S₂ ho₂ hS₂ (hlen t₂ hs₂)
  rw [hi] at hd₁ hv
  rw [hj] at hd₂
  have hoa : Ok a := by
    rw [← hT₁] at ho₁; simp only [Ok] at ho₁; exact okAll_mem ho₁.2 (List.mem_of_getElem? ha)
  have hob : Ok b := by
    rw [← hT₂] at ho₂; simp only [Ok] at ho₂; exact okAll_mem ho₂.2 (List.mem_of_getElem? hb)
  have hget : ∀ (SV l : List CTy) (q : Nat) (x : CTy), l[q]? = some x → (toTys O SV l)[q]? = some (toTy O SV x) := by
    intro SV l
    induction l with
    | nil => intro q x h; simp at h
    | cons y l ih =>
      intro q x h
      cases q with
      | zero => simp at h; subst h; rfl
      | succ q => simp at h; simpa [toTys] using ih q x h
  obtain ⟨ps₁, hp₁, rfl⟩ := schemaOf_some hS₁
  obtain ⟨ps₂, hp₂, rfl⟩ := schemaOf_some hS₂
  have hK : Known nameTy (cfgOf env ⟨(fieldV (variantOf noExtra t₂)).map (toTy O (structV (variantOf noExtra t₂))), ps₂⟩ fm (variantOf noExtra t₂) id del)
      ⟨(fieldV (variantOf noExtra t₁)).map (toTy O (structV (variantOf noExtra t₁))), ps₁⟩ := by
    intro p _ f _ q _ x hx
    have hx := List.mem_of_getElem? hx
    simp only [List.mem_map] at hx
    obtain ⟨u, hu, rfl⟩ := hx
    rw [fieldV_eq, List.mem_filter] at hu
    obtain ⟨w, hw1, hw2, hw3⟩ := hk u hu.1 (by simpa using hu.2)
    simp only [cfgOf, id, List.map_map, List.mem_map]
    refine ⟨w, by rw [fieldV_eq, List.mem_filter]; exact ⟨hw1, by simpa using hw2⟩, ?_⟩
    simp only [Function.comp]
    rw [nameTy_toTy O _ w (hok _ ho₂ w hw1), nameTy_toTy O _ u (hok _ ho₁ u hu.1), c106_names_partial w u (hok _ ho₂ w hw1) (hok _ ho₁ u hu.1), hw3]
  obtain ⟨bytes, hb1, hb2⟩ := c37_mismatch_reported_partial nameTy
    (cfgOf env ⟨(fieldV (variantOf noExtra t₂)).map (toTy O (structV (variantOf noExtra t₂))), ps₂⟩ fm (variantOf noExtra t₂) id del)
    ⟨(fieldV (variantOf noExtra t₁)).map (toTy O (structV (variantOf noExtra t₁))), ps₁⟩ ⟨i, ns⟩ ⟨j, ms⟩ _ _ v
    (fits_of O _ _ env.cap hS₁ (hok _ ho₁) hs₁) hK hv hd₁ hd₂ hms (by
      refine ⟨k, m, n, _, _, hn, hget _ _ _ _ ha, ?_, hget _ _ _ _ hb, ?_⟩
      · simp only [cfgOf, renOf, hj2]; exact hm
      · have e1 : isStruct (toTy O (structV (variantOf noExtra t₁)) a) = isRefl a := isStruct_toTy O _ a hoa
        have e2 : isStruct (toTy O (structV (variantOf noExtra t₂)) b) = isRefl b := isStruct_toTy O _ b hob
        rw [e1, e2]
        by_cases h : isRefl a = isRefl b
        · right
          have hra : isRefl a = false := by
            cases hr : isRefl a
            · rfl
            · exfalso
              rw [hr] at h
              obtain ⟨ka, _⟩ := a
              obtain ⟨kb, _⟩ := b
              cases ka <;> simp [isRefl] at hr
              cases kb <;> simp [isRefl] at h
              exact hne rfl
          refine ⟨hra, ?_⟩
          simp only [cfgOf, id]
          rw [nameTy_toTy O _ a hoa, nameTy_toTy O _ b hob, Ne, c106_names_partial a b hoa hob]
          exact hne
        · exact .inl h)
  rw [hi, hj]
  exact ⟨bytes, hb1, fun fuel rest o => (hb2 fuel rest o).1⟩

section Sample

def cInt64 : CTy := .node (.int 8 0) []
/-- `struct M { int32_t a; int64_t b; }` -/
def cM1 : CTy := .node (.refl 0 [[97], [98]]) [cInt, cInt64]
/-- `struct M { int64_t a; uint32_t c; }` -/
def cM2 : CTy := .node (.refl 0 [[97], [99]]) [cInt64, .node (.int 4 1) []]

/-- The type of the field `a` has changed. -/
example : ∃ bytes, writeV ⟨none, 1000⟩ nameTy ⟨[.num 4, .num 8], [[([97], some 0), ([98], some 1)]]⟩ (.struct (some ⟨0, [[97], [98]]⟩) [.num 4, .num 8])
      (.list [.num 1, .num 2]) = .ok bytes ∧
    ∀ fuel rest o, readV (cfgOf ⟨none, 1000⟩ ⟨[.num 8, .num 4 4], [[([97], some 0), ([99], some 1)]]⟩ (fun _ n => n) (variantOf noExtra cM2) id false) fuel
      (.struct (some ⟨0, [[97], [99]]⟩) [.num 8, .num 4 4]) (.list o) (bytes ++ rest) = .throw .io := by
  have hs : ∀ t, t = cM1 ∨ t = cM2 → Small 1000 (variantOf noExtra t) := by
    intro t ht
    rcases ht with rfl | rfl
    all_goals
      refine ⟨by decide, by decide, fun id ns args hm => ?_⟩
    · have hm : CTy.node (.refl id ns) args ∈ [cM1, cInt, cInt64] := hm
      simp only [List.mem_cons, List.not_mem_nil, or_false, cM1, cInt, cInt64, CTy.node.injEq] at hm
      rcases hm with h | h | h <;> obtain ⟨h, rfl⟩ := h <;> cases h <;> decide
    · have hm : CTy.node (.refl id ns) args ∈ [cM2, cInt64, .node (.int 4 1) []] := hm
      simp only [List.mem_cons, List.not_mem_nil, or_false, cM2, cInt64, CTy.node.injEq] at hm
      rcases hm with h | h | h <;> obtain ⟨h, rfl⟩ := h <;> cases h <;> decide
  refine c106_changed_field sampleOrders ⟨none, 1000⟩ (fun _ n => n) 0 0 [[97], [98]] [[97], [99]] [cInt, cInt64] [cInt64, .node (.int 4 1) []] _ _ false
    (.list [.num 1, .num 2]) 0 0 [97] cInt cInt64 (by simp [Ok, OkAll, okNode, cInt, cInt64]) (by simp [Ok, OkAll, okNode, cInt64]) rfl rfl (hs _ (.inl rfl)) (hs _ (.inr rfl)) ?_
    ?_ (by decide) rfl rfl rfl rfl (by simp [shape, shapes, shapeOf, cInt, cInt64])
  · intro u hu _
    have hu : u ∈ [cM1, cInt, cInt64] := hu
    simp only [List.mem_cons, List.not_mem_nil, or_false] at hu
    rcases hu with rfl | rfl | rfl
    · rename_i h; cases h
    · exact ⟨.node (.int 4 1) [], by decide, rfl, rfl⟩
    · exact ⟨cInt64, by decide, rfl, rfl⟩
  · show HasTy _ (.struct (some ⟨0, [[97], [98]]⟩) [.num 4, .num 8]) _
    simp [HasTy, HasTys]

end Sample

/-- C106 is violated as an identification of types: `bool` and `int8_t` have one name, `std::string` and `std::vector<bool>` have one name, and all structures have the
name `"struct"`. -/
theorem c106_same_name_violated :
    typeName cBool = typeName (.node (.int 1 0) []) ∧ typeName cString = typeName (.node .vec [cBool]) ∧
    (∀ id names args id' names' args', typeName (.node (.refl id names) args) = typeName (.node (.refl id' names') args')) ∧
    ∃ t u, Ok t ∧ Ok u ∧ t ≠ u ∧ typeName t = typeName u :=
  ⟨rfl, rfl, fun _ _ _ _ _ _ => rfl, cBool, .node (.int 1 0) [], by simp [cBool, Ok, OkAll, okNode], by simp [Ok, OkAll, okNode], by decide, rfl⟩

end Verif.Mp
