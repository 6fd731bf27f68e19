import Verif.Mp.EvolutionLemmas
import Verif.Mp.Usable

/-! # C143: a program reads the files of earlier versions of its types

C36 with the tables that the two programs derive from their types: nothing is assumed about the tables except that they exist (that both programs compile)
and fit into the integers they are stored in. -/

namespace Verif.Mp

open Verif Verif.Serialize Verif.Vts

/-- C143: the tables that the library derives are tables of the type. -/
theorem c143_tables (O : Orders) (cap : Nat) (t : CTy) (S : Schema) (ho : Ok t) (hS : schemaOf O (variantOf noExtra t) = some S)
    (hs : Small cap (variantOf noExtra t)) : Tables O cap (variantOf noExtra t) t S :=
  tables_derived O cap t S ho hS hs

/-- C143: so does the old program, if it has no types of its own besides the derived ones. -/
theorem c143_structures (t : CTy) (ho : Ok t) : ∀ s ∈ variantOf noExtra t, isRefl s = true → Part s t := derived_structs ho

/-- C143: what the old program writes, the new program reads, with any variants of types that have the structures inside of the types (and, for the old program, no other structures); nothing of what follows is consumed. -/
theorem c143_reads_partial (O : Orders) (env : Env) (P : Prog) (V₁ V₂ : List CTy) (t₁ t₂ : CTy) (S₁ S₂ : Schema) (v o : Val)
    (h₁ : Tables O env.cap V₁ t₁ S₁) (hT : ∀ s ∈ V₁, isRefl s = true → Part s t₁) (h₂ : Tables O env.cap V₂ t₂ S₂) (hF : P.F = V₂.filter (fun u => !isRefl u))
    (hb : Becomes P t₁ t₂) (hv : Value O env t₁ v) (hf : Blank t₂ o) :
    ∃ bs, writeV env nameTy S₁ (toTy O (structV V₁) t₁) v = .ok bs ∧
      (∀ fuel, bs.length < fuel → ∀ rest, readV (cfgOf env S₂ P.fm V₂ id P.del) fuel (toTy O (structV V₂) t₂) o (bs ++ rest) =
        .ok (convert (renOf P.fm V₂) (toTy O (structV V₁) t₁) v (toTy O (structV V₂) t₂) o, rest)) ∧
      (∀ fuel, bs.length < fuel → ∀ p, p <+: bs → p ≠ bs →
        readV (cfgOf env S₂ P.fm V₂ id P.del) fuel (toTy O (structV V₂) t₂) o p = .throw .endOfFile) := by
  rw [← fieldV_eq] at hF
  obtain ⟨ps, hps, X⟩ := h₂.ctx (env := env) (V₁ := V₁) hF h₁.nodup
  have hfit := fits_of O _ S₁ env.cap h₁.schema h₁.oks h₁.small
  have hk := known_of h₁ hT h₂ hF hb
  have hv' := (value_iff O (structV V₁) env t₁ h₁.ok v).2 hv
  have hf' := (blank_iff O (structV V₂) t₂ h₂.ok o).2 hf
  have hd := c105_described_user O _ t₁ S₁ h₁.ok h₁.nodup h₁.has h₁.schema (structs_short h₁.small)
  have hd' := c105_described_user O _ t₂ S₂ h₂.ok h₂.nodup h₂.has h₂.schema (structs_short h₂.small)
  have he := becomes_evolves X hb h₁.ok h₂.ok h₁.has h₂.has
  obtain ⟨bs, h1, h2⟩ := c36_read_converts_partial nameTy (cfgOf env S₂ P.fm V₂ id P.del) _ S₁ _ _ v o hfit hk hv' hd hd' he hf'
  refine ⟨bs, h1, h2, ?_⟩
  intro fuel hfuel p hp hne
  exact c36_truncated nameTy (cfgOf env S₂ P.fm V₂ id P.del) _ S₁ _ _ v o hfit hk hv' hd hd' he hf' bs p h1 hp hne fuel hfuel

/-- C143: what is read is a value of the type of the new program (which can then be written and read by a later version), if new objects have values of their types. -/
theorem c143_value_partial (O : Orders) (env : Env) (P : Prog) (V₁ V₂ : List CTy) (t₁ t₂ : CTy) (S₁ S₂ : Schema) (v o : Val)
    (h₁ : Tables O env.cap V₁ t₁ S₁) (hT : ∀ s ∈ V₁, isRefl s = true → Part s t₁) (h₂ : Tables O env.cap V₂ t₂ S₂) (hF : P.F = V₂.filter (fun u => !isRefl u))
    (hb : Becomes P t₁ t₂) (hu : Usable O t₂) (hv : Value O env t₁ v) (hf : Blank t₂ o) (ho : Value O env t₂ o) :
    ∃ bs w, writeV env nameTy S₁ (toTy O (structV V₁) t₁) v = .ok bs ∧ Value O env t₂ w ∧
      ∀ fuel, bs.length < fuel → ∀ rest, readV (cfgOf env S₂ P.fm V₂ id P.del) fuel (toTy O (structV V₂) t₂) o (bs ++ rest) = .ok (w, rest) := by
  obtain ⟨bs, h1, h2, _⟩ := c143_reads_partial O env P V₁ V₂ t₁ t₂ S₁ S₂ v o h₁ hT h₂ hF hb hv hf
  refine ⟨bs, _, h1, ?_, h2⟩
  rw [← fieldV_eq] at hF
  obtain ⟨ps, hps, X⟩ := h₂.ctx (env := env) (V₁ := V₁) hF h₁.nodup
  rw [← value_iff O (structV V₂) env t₂ h₂.ok]
  exact convert_hasTy env nameTy (cfgOf env S₂ P.fm V₂ id P.del) _ _ rfl _ _ v o (becomes_evolves X hb h₁.ok h₂.ok h₁.has h₂.has)
    (usable_sound O _ t₂ h₂.ok hu) ((value_iff O _ env t₁ h₁.ok v).2 hv) ((value_iff O _ env t₂ h₂.ok o).2 ho)

/-- C143 for structures: a field that is still there with its type gets the written value, wherever it is now and whatever its name is now; a new field keeps the value
it had; a field whose type has changed gets the converted value. -/
theorem c143_fields_partial (O : Orders) (env : Env) (P : Prog) (V₁ V₂ : List CTy) (i j : Nat) (ns ms : List Name) (as bs : List CTy) (S₁ S₂ : Schema) (vs os : List Val)
    (h₁ : Tables O env.cap V₁ (.node (.refl i ns) as) S₁) (hT : ∀ s ∈ V₁, isRefl s = true → Part s (.node (.refl i ns) as))
    (h₂ : Tables O env.cap V₂ (.node (.refl j ms) bs) S₂)
    (hF : P.F = V₂.filter (fun u => !isRefl u)) (hb : Becomes P (.node (.refl i ns) as) (.node (.refl j ms) bs))
    (hv : Value O env (.node (.refl i ns) as) (.list vs)) (hf : Blank (.node (.refl j ms) bs) (.list os)) :
    ∃ data, writeV env nameTy S₁ (toTy O (structV V₁) (.node (.refl i ns) as)) (.list vs) = .ok data ∧
      ∀ fuel, data.length < fuel → ∀ rest, ∃ ws,
        readV (cfgOf env S₂ P.fm V₂ id P.del) fuel (toTy O (structV V₂) (.node (.refl j ms) bs)) (.list os) (data ++ rest) = .ok (.list ws, rest) ∧
        ws.length = bs.length ∧
        (∀ (k m : Nat) (n : Name) (a : CTy), ns[k]? = some n → as[k]? = some a → ms[m]? = some (P.fm (.node (.refl j ms) bs) n) → bs[m]? = some a →
          Proper P.fm a → ws[m]? = vs[k]?) ∧
        (∀ (k m : Nat) (n : Name) (a b : CTy) (v o : Val), ns[k]? = some n → as[k]? = some a → ms[m]? = some (P.fm (.node (.refl j ms) bs) n) → bs[m]? = some b →
          vs[k]? = some v → os[m]? = some o →
          ws[m]? = some (convert (renOf P.fm V₂) (toTy O (structV V₁) a) v (toTy O (structV V₂) b) o)) ∧
        (∀ (m : Nat) (x : Name), ms[m]? = some x → (∀ n ∈ ns, P.fm (.node (.refl j ms) bs) n ≠ x) → ws[m]? = os[m]?) := by
  have hF' := hF
  rw [← fieldV_eq] at hF'
  obtain ⟨data, hw, hr, _⟩ := c143_reads_partial O env P V₁ V₂ _ _ S₁ S₂ _ _ h₁ hT h₂ hF hb hv hf
  refine ⟨data, hw, ?_⟩
  intro fuel hfuel rest
  have hr := hr fuel hfuel rest
  have hv' := (value_iff O (structV V₁) env _ h₁.ok _).2 hv
  have hf' := (blank_iff O (structV V₂) _ h₂.ok _).2 hf
  obtain ⟨x, hx, _, _⟩ := struct_idx (O := O) h₁.nodup (h₁.has _ (.self _) rfl)
  obtain ⟨y, hy, hy2, _⟩ := struct_idx (O := O) h₂.nodup (h₂.has _ (.self _) rfl)
  have hren : renOf P.fm V₂ y = P.fm (.node (.refl j ms) bs) := by
    funext n
    simp only [renOf, hy2]
  have hl1 : ns.length = as.length := by have := h₁.ok; simp only [Ok] at this; simpa [okNode] using this.1
  have hl2 : ms.length = bs.length := by have := h₂.ok; simp only [Ok] at this; simpa [okNode] using this.1
  have hok₂ : OkAll bs := by have := h₂.ok; simp only [Ok] at this; exact this.2
  have hok₁ : OkAll as := by have := h₁.ok; simp only [Ok] at this; exact this.2
  rw [hx, hy] at hr
  rw [hx] at hv'
  rw [hy] at hf'
  simp only [HasTy] at hv'
  simp only [Fresh] at hf'
  have hnd : (ns.map (renOf P.fm V₂ y)).Nodup := by
    rw [hren]
    cases hb with
    | int k l n _ _ h => simp [intSize] at h
    | coll k l a b h => simp [isColl] at h
    | map k l a b a' b' h => simp [isMap] at h
    | refl _ _ _ _ _ _ _ _ h => exact h
  obtain ⟨ws, e, l1, l2, l3⟩ := convertFields_spec (renOf P.fm V₂) ⟨x, ns⟩ ⟨y, ms⟩ (toTys O (structV V₁) as) (toTys O (structV V₂) bs) vs os
    (by rw [toTys_length]; exact hl2) (freshs_length _ _ hf') hnd
  rw [e] at hr
  have conv : ∀ (k m : Nat) (n : Name) (a b : CTy) (v o : Val), ns[k]? = some n → as[k]? = some a → ms[m]? = some (P.fm (.node (.refl j ms) bs) n) → bs[m]? = some b →
          vs[k]? = some v → os[m]? = some o →
          ws[m]? = some (convert (renOf P.fm V₂) (toTy O (structV V₁) a) v (toTy O (structV V₂) b) o) := by
    intro k m n a b v o g1 g2 g3 g4 g5 g6
    exact l2 k m n _ _ _ v o g1 (by rw [toTys_get, g2]; rfl) g5 g3 (by rw [toTys_get, g4]; rfl) g6 (by rw [hren])
  refine ⟨ws, by rw [hy]; exact hr, by rw [l1, toTys_length], ?_, conv, ?_⟩
  · intro k m n a g1 g2 g3 g4 hp
    have hk : k < vs.length := by
      rw [hasTys_length _ _ _ hv', toTys_length]
      exact (List.getElem?_eq_some_iff.1 g2).1
    have hm : m < os.length := by
      rw [freshs_length _ _ hf', toTys_length]
      exact (List.getElem?_eq_some_iff.1 g4).1
    have hvk : vs[k]? = some vs[k] := List.getElem?_eq_getElem hk
    have hom : os[m]? = some os[m] := List.getElem?_eq_getElem hm
    have hma := List.mem_of_getElem? g4
    have hoa := okAll_mem hok₂ hma
    have hva := hasTys_get env _ _ k _ _ hv' (by rw [toTys_get, g2]; rfl) hvk
    have hva := (value_iff O (structV V₂) env a hoa _).2 ((value_iff O (structV V₁) env a hoa _).1 hva)
    have hfa := fresh_get _ _ m _ _ hf' (by rw [toTys_get, g4]; rfl) hom
    have hpa : ∀ s, Part s a → isRefl s = true → s ∈ V₂ := fun s hs hr => h₂.has s (arg_part h₂.ok hma hs hr) hr
    rw [conv k m n a a _ _ g1 g2 g3 g4 hvk hom, hvk, convert_src (renOf P.fm V₂) O O (structV V₁) (structV V₂) a hoa]
    exact congrArg some (convert_refl env S₂ _ _ _ _ (wellFormed_of O P.fm V₂ h₂.nodup a hoa hpa hp)
      (c105_described_user O V₂ a S₂ hoa h₂.nodup hpa h₂.schema (structs_short h₂.small)) hva hfa)
  · intro m z hm hz
    refine l3 m z hm ?_
    intro hc
    obtain ⟨n, hn1, hn2⟩ := List.mem_map.mp hc
    exact hz n hn1 (by rw [← hn2]; exact (congrFun hren n).symm)

/-! ### Sample: the structure inside of a vector has changed, too -/

section Sample

/-- `struct A { int p; bool q; }` -/
def sA₁ : CTy := .node (.refl 1 [[112], [113]]) [cInt, cBool]
/-- `struct A { bool q; int r; int p; }` -/
def sA₂ : CTy := .node (.refl 1 [[113], [114], [112]]) [cBool, cInt, cInt]
/-- `struct S { int x; vector<A> v; string s; }` -/
def sS₁ : CTy := .node (.refl 0 [[120], [118], [115]]) [cInt, .node .vec [sA₁], cString]
/-- `struct S { string t; vector<A> v; double d; }`: `x` removed, `s` renamed to `t`, `d` added. -/
def sS₂ : CTy := .node (.refl 0 [[116], [118], [100]]) [cString, .node .vec [sA₂], cDouble]

def sSchema (t : CTy) : Schema :=
  ⟨(fieldV (variantOf noExtra t)).map (toTy sampleOrders (structV (variantOf noExtra t))), (protosOf (fieldV (variantOf noExtra t)) (structV (variantOf noExtra t))).getD []⟩

def sProg : Prog where
  fm := fun s n => if s = sS₂ ∧ n = [115] then [116] else n
  φ := fun s => if s = sS₁ then sS₂ else if s = sA₁ then sA₂ else s
  F := (variantOf noExtra sS₂).filter (fun u => !isRefl u)
  del := true

theorem sA_becomes : Becomes sProg sA₁ sA₂ := by
  refine .refl 1 1 _ _ _ _ (by decide) (by decide) (by decide) (by decide) ?_ ?_ (by decide)
  · intro k m n a b h1 h2 h3 h4
    rcases k with _ | _ | k <;> simp at h1 h2
    · subst h1 h2
      rcases m with _ | _ | _ | m <;> simp [sProg, sS₂] at h3 h4
      subst h4
      exact .int _ _ 4 [] [] rfl rfl
    · subst h1 h2
      rcases m with _ | _ | _ | m <;> simp [sProg, sS₂] at h3 h4
      subst h4
      exact .bool [] []
  · intro k n a h1 h2 h3
    rcases k with _ | _ | k <;> simp at h1 h2
    · subst h1; exact absurd (by decide) h3
    · subst h1; exact absurd (by decide) h3

theorem sS_becomes : Becomes sProg sS₁ sS₂ := by
  refine .refl 0 0 _ _ _ _ (by decide) (by decide) (by decide) (by decide) ?_ ?_ (by decide)
  · intro k m n a b h1 h2 h3 h4
    rcases k with _ | _ | _ | k <;> simp at h1 h2
    · subst h1 h2
      rcases m with _ | _ | _ | m <;> simp [sProg, sS₂] at h3 h4
    · subst h1 h2
      rcases m with _ | _ | _ | m <;> simp [sProg, sS₂] at h3 h4
      subst h4
      exact .vec _ _ sA_becomes
    · subst h1 h2
      rcases m with _ | _ | _ | m <;> simp [sProg, sS₂] at h3 h4
      subst h4
      exact .str 1 [] []
  · intro k n a h1 h2 h3
    rcases k with _ | _ | _ | k <;> simp at h1 h2
    · subst h1 h2
      exact .type _ cInt rfl (by decide) (.int _ _ 4 [] [] rfl rfl)
    · subst h1; exact absurd (by decide) h3
    · subst h1; exact absurd (by decide) h3

theorem small_of {cap : Nat} {V : List CTy} (h1 : V.length ≤ cap ∧ V.length < 2 ^ 16)
    (h2 : ∀ t ∈ V, (typeName t).length ≤ cap ∧ (typeName t).length < 2 ^ 16)
    (h3 : ∀ t ∈ V, match t with | .node (.refl _ ns) _ => ns.length ≤ cap ∧ ns.length < 2 ^ 16 ∧ ∀ n ∈ ns, n.length ≤ cap ∧ n.length < 2 ^ 16 | _ => True) : Small cap V := by
  refine ⟨h1, fun t ht => ⟨(h2 t ht).1, by have := (h2 t ht).2; omega⟩, ?_⟩
  intro id ns args hm
  have := h3 _ hm
  simp only at this
  refine ⟨this.1, by omega, fun n hn => ⟨(this.2.2 n hn).1, by have := (this.2.2 n hn).2; omega⟩⟩

theorem sTables₁ : Tables sampleOrders 1000 (variantOf noExtra sS₁) sS₁ (sSchema sS₁) :=
  c143_tables sampleOrders 1000 sS₁ _ (by simp [sS₁, sA₁, cInt, cBool, cString, Ok, OkAll, okNode]) rfl
    (small_of (by decide) (by decide) (by
      intro t ht
      have hV : variantOf noExtra sS₁ = [sS₁, cInt, .node .vec [sA₁], sA₁, cBool, cString] := rfl
      rw [hV] at ht
      simp only [List.mem_cons, List.not_mem_nil, or_false] at ht
      rcases ht with rfl | rfl | rfl | rfl | rfl | rfl <;> simp [sS₁, sA₁, cInt, cBool, cString]))

theorem sTables₂ : Tables sampleOrders 1000 (variantOf noExtra sS₂) sS₂ (sSchema sS₂) :=
  c143_tables sampleOrders 1000 sS₂ _ (by simp [sS₂, sA₂, cInt, cBool, cString, cDouble, Ok, OkAll, okNode]) rfl
    (small_of (by decide) (by decide) (by
      intro t ht
      have hV : variantOf noExtra sS₂ = [sS₂, cString, .node .vec [sA₂], sA₂, cBool, cInt, cDouble] := rfl
      rw [hV] at ht
      simp only [List.mem_cons, List.not_mem_nil, or_false] at ht
      rcases ht with rfl | rfl | rfl | rfl | rfl | rfl | rfl <;> simp [sS₂, sA₂, cInt, cBool, cString, cDouble]))

/-- `S { 7, {{5, true}}, "ab" }` of the old program is `S { "ab", {{true, 0, 5}}, 9.0 }` for the new one, if `d` was 9.0 before (the number stands for the bytes). -/
example : ∃ bs, writeV ⟨none, 1000⟩ nameTy (sSchema sS₁) (toTy sampleOrders (structV (variantOf noExtra sS₁)) sS₁)
      (.list [.num 7, .list [.list [.num 5, .bool true]], .list [.num 97, .num 98]]) = .ok bs ∧ ∀ fuel, bs.length < fuel → ∀ rest,
    readV (cfgOf ⟨none, 1000⟩ (sSchema sS₂) sProg.fm (variantOf noExtra sS₂) id true) fuel (toTy sampleOrders (structV (variantOf noExtra sS₂)) sS₂)
      (.list [.list [], .list [], .num 9]) (bs ++ rest) = .ok (.list [.list [.num 97, .num 98], .list [.list [.bool true, .num 0, .num 5]], .num 9], rest) := by
  obtain ⟨bs, h1, h2, _⟩ := c143_reads_partial sampleOrders ⟨none, 1000⟩ sProg (variantOf noExtra sS₁) (variantOf noExtra sS₂) sS₁ sS₂ (sSchema sS₁) (sSchema sS₂)
    (.list [.num 7, .list [.list [.num 5, .bool true]], .list [.num 97, .num 98]]) (.list [.list [], .list [], .num 9]) sTables₁ (c143_structures _ sTables₁.ok) sTables₂ rfl sS_becomes
    (by simp [sS₁, sA₁, cInt, cBool, cString, Value, Values, isEnm])
    (by simp [sS₂, sA₂, cInt, cBool, cString, cDouble, Blank, Blanks])
  exact ⟨bs, h1, h2⟩

example : Usable sampleOrders sS₂ ∧ Value sampleOrders ⟨none, 1000⟩ sS₂ (.list [.list [], .list [], .num 9]) := by
  simp [sS₂, sA₂, cInt, cBool, cString, cDouble, Usable, UsableAll, usableNode, Value, Values, isEnm]

/-- The renamed field `s` is found as `t`, the new field `d` keeps its value. -/
example : ∃ data, writeV ⟨none, 1000⟩ nameTy (sSchema sS₁) (toTy sampleOrders (structV (variantOf noExtra sS₁)) sS₁)
      (.list [.num 7, .list [], .list [.num 97]]) = .ok data ∧ ∀ fuel, data.length < fuel → ∀ rest, ∃ ws,
    readV (cfgOf ⟨none, 1000⟩ (sSchema sS₂) sProg.fm (variantOf noExtra sS₂) id true) fuel (toTy sampleOrders (structV (variantOf noExtra sS₂)) sS₂)
      (.list [.list [], .list [], .num 9]) (data ++ rest) = .ok (.list ws, rest) ∧ ws[0]? = some (.list [.num 97]) ∧ ws[2]? = some (.num 9) := by
  obtain ⟨data, h1, h2⟩ := c143_fields_partial sampleOrders ⟨none, 1000⟩ sProg (variantOf noExtra sS₁) (variantOf noExtra sS₂) 0 0 _ _ _ _ (sSchema sS₁) (sSchema sS₂)
    [.num 7, .list [], .list [.num 97]] [.list [], .list [], .num 9] sTables₁ (c143_structures _ sTables₁.ok) sTables₂ rfl sS_becomes
    (by simp [sA₁, cInt, cBool, cString, Value, Values, isEnm])
    (by simp [sA₂, cInt, cBool, cString, cDouble, Blank, Blanks])
  refine ⟨data, h1, fun fuel hf rest => ?_⟩
  obtain ⟨ws, e, _, k1, _, k2⟩ := h2 fuel hf rest
  refine ⟨ws, e, (k1 2 0 [115] cString rfl rfl rfl rfl ?_).trans rfl, (k2 2 [100] rfl (by decide)).trans rfl⟩
  intro k args hp
  cases hp with
  | self => exact ⟨by simp, by simp⟩
  | arg h _ _ => simp at h

end Sample

/-! ### The case that is left out -/

section Removed

/-- `struct A { int x; }` -/
def rA : CTy := .node (.refl 1 [[120]]) [cInt]
/-- `struct B { int y; }` -/
def rB : CTy := .node (.refl 2 [[121]]) [cInt]
/-- `struct S { vector<A> a; A c; vector<B> b; }` -/
def rS₁ : CTy := .node (.refl 0 [[97], [99], [98]]) [.node .vec [rA], rA, .node .vec [rB]]
/-- `struct S { A c; vector<B> b; }` -/
def rS₂ : CTy := .node (.refl 0 [[99], [98]]) [rA, .node .vec [rB]]

set_option maxRecDepth 4000 in
/-- C143 is violated if the removed field has the type name of a type that is still there but another type: with the field `vector<A> a` removed (and nothing else
changed) the field is skipped as a `vector<B>`, because both have the name `sequence<struct>`; from then on the structure `A` of the file is taken for `B`, and reading
the field `c` throws an exception.  Both programs compile, removing fields is allowed, and all types of the new program are types of the old one. -/
theorem c143_removed_violated :
    schemaOf sampleOrders (variantOf noExtra rS₁) = some (sSchema rS₁) ∧ schemaOf sampleOrders (variantOf noExtra rS₂) = some (sSchema rS₂) ∧
    (∀ u ∈ variantOf noExtra rS₂, u = rS₂ ∨ u ∈ variantOf noExtra rS₁) ∧
    Value sampleOrders ⟨none, 1000⟩ rS₁ (.list [.list [.list [.num 7]], .list [.num 8], .list [.list [.num 9]]]) ∧
    Blank rS₂ (.list [.list [.num 0], .list []]) ∧
    ∃ bs, writeV ⟨none, 1000⟩ nameTy (sSchema rS₁) (toTy sampleOrders (structV (variantOf noExtra rS₁)) rS₁)
        (.list [.list [.list [.num 7]], .list [.num 8], .list [.list [.num 9]]]) = .ok bs ∧
      readV (cfgOf ⟨none, 1000⟩ (sSchema rS₂) (fun _ n => n) (variantOf noExtra rS₂) id true) 100 (toTy sampleOrders (structV (variantOf noExtra rS₂)) rS₂)
        (.list [.list [.num 0], .list []]) bs = .throw .io := by
  refine ⟨rfl, rfl, by decide, ?_, ?_, _, rfl, rfl⟩
  · simp [rS₁, rA, rB, cInt, Value, Values, isEnm]
  · simp [rS₂, rA, rB, cInt, Blank, Blanks]

end Removed

end Verif.Mp
