import Verif.Mp.ViaLemmas
import Verif.Mp.BackProps

/-! # C157: updating over a version in between gives the same as updating at once -/

namespace Verif.Mp

open Verif Verif.Serialize Verif.Vts

/-- C157: data of the first version that the second version reads and writes, and the third one reads then, is the data that the third version reads of the file of the
first one directly.  `P₂` is the second version reading files of the first one, `P₃` the third version reading files of the second one, and `P₃'` the third version
reading files of the first one, with the same registered names of fields.  The objects that are read into agree: the third version reads the new object of the second
version as its own new object. -/
theorem c157_steps (O : Orders) (env : Env) (P₂ P₃ P₃' : Prog) (V₁ V₂ V₃ : List CTy) (t₁ t₂ t₃ : CTy) (S₁ S₂ S₃ : Schema) (v o₂ o₃ : Val)
    (h₁ : Tables O env.cap V₁ t₁ S₁) (hT₁ : ∀ s ∈ V₁, isRefl s = true → Part s t₁) (h₂ : Tables O env.cap V₂ t₂ S₂) (hT₂ : ∀ s ∈ V₂, isRefl s = true → Part s t₂)
    (h₃ : Tables O env.cap V₃ t₃ S₃)
    (hF₂ : P₂.F = V₂.filter (fun u => !isRefl u)) (hF₃ : P₃.F = V₃.filter (fun u => !isRefl u)) (hF₃' : P₃'.F = V₃.filter (fun u => !isRefl u)) (hfm : P₃'.fm = P₃.fm)
    (hb₂ : Becomes P₂ t₁ t₂) (hb₃ : Becomes P₃ t₂ t₃) (hb₃' : Becomes P₃' t₁ t₃) (hk : Via P₂.fm P₃.fm t₁ t₂ t₃) (hu : Usable O t₂)
    (hv : Value O env t₁ v) (ho₂ : Blank t₂ o₂) (hv₂ : Value O env t₂ o₂) (ho₃ : Blank t₃ o₃)
    (hd : ∃ ds, writeV env nameTy S₂ (toTy O (structV V₂) t₂) o₂ = .ok ds ∧
      readV (cfgOf env S₃ P₃.fm V₃ id P₃.del) (ds.length + 1) (toTy O (structV V₃) t₃) o₃ ds = .ok (o₃, [])) :
    ∃ bs w bs' x, writeV env nameTy S₁ (toTy O (structV V₁) t₁) v = .ok bs ∧
      (∀ fuel, bs.length < fuel → ∀ rest, readV (cfgOf env S₂ P₂.fm V₂ id P₂.del) fuel (toTy O (structV V₂) t₂) o₂ (bs ++ rest) = .ok (w, rest)) ∧
      writeV env nameTy S₂ (toTy O (structV V₂) t₂) w = .ok bs' ∧
      (∀ fuel, bs'.length < fuel → ∀ rest, readV (cfgOf env S₃ P₃.fm V₃ id P₃.del) fuel (toTy O (structV V₃) t₃) o₃ (bs' ++ rest) = .ok (x, rest)) ∧
      (∀ fuel, bs.length < fuel → ∀ rest, readV (cfgOf env S₃ P₃.fm V₃ id P₃'.del) fuel (toTy O (structV V₃) t₃) o₃ (bs ++ rest) = .ok (x, rest)) := by
  obtain ⟨bs, w, e1, hw, e2⟩ := c143_value_partial O env P₂ V₁ V₂ t₁ t₂ S₁ S₂ v o₂ h₁ hT₁ h₂ hF₂ hb₂ hu hv ho₂ hv₂
  obtain ⟨bs₀, e1', e2', _⟩ := c143_reads_partial O env P₂ V₁ V₂ t₁ t₂ S₁ S₂ v o₂ h₁ hT₁ h₂ hF₂ hb₂ hv ho₂
  have hbs : bs₀ = bs := by rw [e1] at e1'; simpa using e1'.symm
  subst hbs
  have hw' := e2 (bs₀.length + 1) (by omega) []
  rw [e2' (bs₀.length + 1) (by omega) []] at hw'
  simp only [Res.ok.injEq, Prod.mk.injEq, and_true] at hw'
  obtain ⟨bs', e3, e4, _⟩ := c143_reads_partial O env P₃ V₂ V₃ t₂ t₃ S₂ S₃ w o₃ h₂ hT₂ h₃ hF₃ hb₃ hw ho₃
  obtain ⟨bs₁, e5, e6, _⟩ := c143_reads_partial O env P₃' V₁ V₃ t₁ t₃ S₁ S₃ v o₃ h₁ hT₁ h₃ hF₃' hb₃' hv ho₃
  have hbs : bs₁ = bs₀ := by rw [e1] at e5; simpa using e5.symm
  subst hbs
  obtain ⟨ds, d1, d2⟩ := hd
  obtain ⟨ds₀, d3, d4, _⟩ := c143_reads_partial O env P₃ V₂ V₃ t₂ t₃ S₂ S₃ o₂ o₃ h₂ hT₂ h₃ hF₃ hb₃ hv₂ ho₃
  have hds : ds₀ = ds := by rw [d1] at d3; simpa using d3.symm
  subst hds
  have d5 := d4 (ds₀.length + 1) (by omega) []
  rw [List.append_nil, d2] at d5
  simp only [Res.ok.injEq, Prod.mk.injEq, and_true] at d5
  refine ⟨bs₁, w, bs', _, e1, e2, e3, e4, ?_⟩
  intro fuel hf rest
  have e6 := e6 fuel hf rest
  rw [hfm] at e6
  rw [e6, ← hw']
  rw [via_ty (env := env) h₂.side h₃.side h₁.side.nodup hk hb₃ h₁.ok h₂.ok h₃.ok h₁.has h₂.has h₃.has v o₂ o₃ ((value_iff O _ env t₁ h₁.ok v).2 hv)
    ((blank_iff O _ t₂ h₂.ok o₂).2 ho₂) ((blank_iff O _ t₃ h₃.ok o₃).2 ho₃) d5.symm]

/-! ### Sample -/

section Sample

/-- `struct A { int r; int p; }` -/
def vA₃ : CTy := .node (.refl 1 [[114], [112]]) [cInt, cInt]
/-- `struct S { vector<A> v; int y; set<int> s; int z; }` -/
def vS₃ : CTy := .node (.refl 0 [[118], [121], [115], [122]]) [.node .vec [vA₃], cInt, bSet, cInt]

def vφ₃ : CTy → CTy := fun s => if s = bS₂ then vS₃ else if s = bA₂ then vA₃ else s
def vφ₃' : CTy → CTy := fun s => if s = bS₁ then vS₃ else if s = bA₁ then vA₃ else s

theorem vVec₃ : variantOf noExtra vS₃ = [vS₃, .node .vec [vA₃], vA₃, cInt, bSet] := rfl

theorem vA_step : Becomes (plainProg vφ₃ (variantOf noExtra vS₃)) bA₂ vA₃ := by
  refine .refl 1 1 _ _ _ _ (by decide) (by decide) (by decide) (by decide) ?_ ?_ (by decide)
  · intro k m n a b h1 h2 h3 h4
    rcases k with _ | _ | k <;> simp at h1 h2 <;> subst h1 h2 <;> rcases m with _ | _ | m <;> simp [plainProg] at h3 h4 <;> subst h4
    exact bInt
  · intro k n a h1 h2 h3
    rcases k with _ | _ | k <;> simp at h1 h2 <;> subst h1
    · subst h2; exact .type _ cInt rfl (by decide) bInt
    · exact absurd (by decide) h3

theorem vS_step : Becomes (plainProg vφ₃ (variantOf noExtra vS₃)) bS₂ vS₃ := by
  refine .refl 0 0 _ _ _ _ (by decide) (by decide) (by decide) (by decide) ?_ ?_ (by decide)
  · intro k m n a b h1 h2 h3 h4
    rcases k with _ | _ | _ | _ | k <;> simp at h1 h2 <;> subst h1 h2 <;> rcases m with _ | _ | _ | _ | m <;> simp [plainProg] at h3 h4 <;> subst h4
    · exact bSets
    · exact .vec _ _ vA_step
    · exact bInt
  · intro k n a h1 h2 h3
    rcases k with _ | _ | _ | _ | k <;> simp at h1 h2 <;> subst h1
    · exact absurd (by decide) h3
    · exact absurd (by decide) h3
    · exact absurd (by decide) h3
    · subst h2; exact .type _ cInt rfl (by decide) bInt

theorem vA_once : Becomes (plainProg vφ₃' (variantOf noExtra vS₃)) bA₁ vA₃ := by
  refine .refl 1 1 _ _ _ _ (by decide) (by decide) (by decide) (by decide) ?_ ?_ (by decide)
  · intro k m n a b h1 h2 h3 h4
    rcases k with _ | k <;> simp at h1 h2
    subst h1 h2
    rcases m with _ | _ | m <;> simp [plainProg] at h3 h4
    subst h4
    exact bInt
  · intro k n a h1 h2 h3
    rcases k with _ | k <;> simp at h1 h2
    subst h1; exact absurd (by decide) h3

theorem vS_once : Becomes (plainProg vφ₃' (variantOf noExtra vS₃)) bS₁ vS₃ := by
  refine .refl 0 0 _ _ _ _ (by decide) (by decide) (by decide) (by decide) ?_ ?_ (by decide)
  · intro k m n a b h1 h2 h3 h4
    rcases k with _ | _ | _ | k <;> simp at h1 h2 <;> subst h1 h2 <;> rcases m with _ | _ | _ | _ | m <;> simp [plainProg] at h3 h4 <;> subst h4
    · exact .vec _ _ vA_once
    · exact bSets
  · intro k n a h1 h2 h3
    rcases k with _ | _ | _ | k <;> simp at h1 h2 <;> subst h1
    · subst h2; exact .type _ cInt rfl (by decide) bInt
    · exact absurd (by decide) h3
    · exact absurd (by decide) h3

theorem vVia : Via (fun _ n => n) (fun _ n => n) bS₁ bS₂ vS₃ := by
  have hi : Via (fun _ n => n) (fun _ n => n) cInt cInt cInt := .leaf _ _ _ _ _ _ rfl rfl rfl
  have hp : Proper (fun _ n => n) cInt := by
    intro k args hp
    cases hp with
    | self => exact ⟨by simp, by simp⟩
    | arg h _ _ => simp at h
  have hA : Via (fun _ n => n) (fun _ n => n) bA₁ bA₂ vA₃ := by
    refine .refl _ _ _ _ _ _ _ _ _ (by decide) (by decide) (by decide) (by decide) (by decide) ?_
    intro p q r l m a b c h1 h2 h3 h4 h5 h6 h7
    rcases p with _ | p <;> simp at h1 h2
    subst h1 h2
    rcases q with _ | _ | q <;> simp at h3 h4 <;> subst h3 h4 <;> simp at h5
    rcases r with _ | _ | r <;> simp at h6 h7
    subst h7
    exact hi
  refine .refl _ _ _ _ _ _ _ _ _ (by decide) (by decide) (by decide) (by decide) (by decide) ?_
  intro p q r l m a b c h1 h2 h3 h4 h5 h6 h7
  rcases p with _ | _ | _ | p <;> simp at h1 h2 <;> subst h1 h2 <;> rcases q with _ | _ | _ | _ | q <;> simp at h3 h4 <;> subst h3 h4 <;> simp at h5 <;>
    rcases r with _ | _ | _ | _ | r <;> simp at h6 h7 <;> subst h7
  · exact .vec _ _ _ hA
  · exact .set _ _ rfl (by decide) hp hp

theorem vTables₃ : Tables sampleOrders 1000 (variantOf noExtra vS₃) vS₃ (sSchema vS₃) :=
  c143_tables sampleOrders 1000 vS₃ _ (by simp [vS₃, vA₃, bSet, cInt, Ok, OkAll, okNode]) rfl
    (small_of (by decide) (by decide) (by
      intro t ht
      rw [vVec₃] at ht
      simp only [List.mem_cons, List.not_mem_nil, or_false] at ht
      rcases ht with rfl | rfl | rfl | rfl | rfl <;> simp [vS₃, vA₃, bSet, cInt]))

set_option maxRecDepth 8000 in
/-- `S { 7, {{5}, {6}}, {1, 2} }` is updated over the second version, which has the new field `y = 3`, to the third one, which has no `x` and has the new field `z = 9`,
and at once. -/
example : ∃ bs w bs' x, writeV ⟨none, 1000⟩ nameTy (sSchema bS₁) (toTy sampleOrders (structV (variantOf noExtra bS₁)) bS₁)
      (.list [.num 7, .list [.list [.num 5], .list [.num 6]], .list [.num 1, .num 2]]) = .ok bs ∧
    (∀ fuel, bs.length < fuel → ∀ rest, readV (cfgOf ⟨none, 1000⟩ (sSchema bS₂) (fun _ n => n) (variantOf noExtra bS₂) id true) fuel
      (toTy sampleOrders (structV (variantOf noExtra bS₂)) bS₂) (.list [.list [], .list [], .num 3, .num 4]) (bs ++ rest) = .ok (w, rest)) ∧
    writeV ⟨none, 1000⟩ nameTy (sSchema bS₂) (toTy sampleOrders (structV (variantOf noExtra bS₂)) bS₂) w = .ok bs' ∧
    (∀ fuel, bs'.length < fuel → ∀ rest, readV (cfgOf ⟨none, 1000⟩ (sSchema vS₃) (fun _ n => n) (variantOf noExtra vS₃) id true) fuel
      (toTy sampleOrders (structV (variantOf noExtra vS₃)) vS₃) (.list [.list [], .num 3, .list [], .num 9]) (bs' ++ rest) = .ok (x, rest)) ∧
    (∀ fuel, bs.length < fuel → ∀ rest, readV (cfgOf ⟨none, 1000⟩ (sSchema vS₃) (fun _ n => n) (variantOf noExtra vS₃) id true) fuel
      (toTy sampleOrders (structV (variantOf noExtra vS₃)) vS₃) (.list [.list [], .num 3, .list [], .num 9]) (bs ++ rest) = .ok (x, rest)) :=
  c157_steps sampleOrders ⟨none, 1000⟩ (plainProg bφ₂ (variantOf noExtra bS₂)) (plainProg vφ₃ (variantOf noExtra vS₃)) (plainProg vφ₃' (variantOf noExtra vS₃)) _ _ _ bS₁ bS₂ vS₃
    _ _ _ _ _ _ bTables₁ (c143_structures _ bTables₁.ok) bTables₂ (c143_structures _ bTables₂.ok) vTables₃ rfl rfl rfl rfl bS_up vS_step vS_once vVia
    (by
      simp [bS₂, bA₂, bSet, cInt, Usable, UsableAll, usableNode, sampleOrders, isEnm]
      exact fun x y z => Nat.lt_trans)
    (by simp [bS₁, bA₁, bSet, cInt, Value, Values, isEnm, sampleOrders, lead])
    (by simp [bS₂, bA₂, bSet, cInt, Blank, Blanks])
    (by simp [bS₂, bA₂, bSet, cInt, Value, Values, isEnm, sampleOrders])
    (by simp [vS₃, vA₃, bSet, cInt, Blank, Blanks])
    ⟨_, rfl, rfl⟩

/-- What a program with the type `t` writes. -/
def vWrite (t : CTy) (v : Val) : Res (List UInt8) := writeV ⟨none, 1000⟩ nameTy (sSchema t) (toTy sampleOrders (structV (variantOf noExtra t)) t) v

/-- What a program with the type `t` reads into the object `o`. -/
def vRead (t : CTy) (o : Val) (bs : List UInt8) : Res Val :=
  (readV (cfgOf ⟨none, 1000⟩ (sSchema t) (fun _ n => n) (variantOf noExtra t) id true) 1000 (toTy sampleOrders (structV (variantOf noExtra t)) t) o bs).bind fun r => .ok r.1

/-- `struct A { int p; int q; }` -/
def vA₀ : CTy := .node (.refl 1 [[112], [113]]) [cInt, cInt]

set_option maxRecDepth 8000 in
/-- C157: the second version must have the fields that the first and the third one have: `A { 5, 6 }` read at once is `A { 6, 5 }` of the type with the fields swapped;
over the version without `q` the `6` is lost. -/
theorem c157_dropped_field : ∃ v o₂ o₃, ((vWrite vA₀ v).bind (vRead bA₂ o₃)) = .ok (.list [.num 6, .num 5]) ∧
    (((vWrite vA₀ v).bind (vRead bA₁ o₂)).bind (vWrite bA₁)).bind (vRead bA₂ o₃) = .ok (.list [.num 0, .num 5]) :=
  ⟨.list [.num 5, .num 6], .list [.num 0], .list [.num 0, .num 0], rfl, rfl⟩

set_option maxRecDepth 8000 in
/-- C157: the new objects must agree: a new field `q` that is `1` in a new object of the second version and `2` in a new object of the third one. -/
theorem c157_other_defaults : ∃ v o₂ o₃, ((vWrite bA₁ v).bind (vRead vA₀ o₃)) = .ok (.list [.num 5, .num 2]) ∧
    (((vWrite bA₁ v).bind (vRead bA₂ o₂)).bind (vWrite bA₂)).bind (vRead vA₀ o₃) = .ok (.list [.num 5, .num 1]) :=
  ⟨.list [.num 5], .list [.num 1, .num 0], .list [.num 0, .num 2], rfl, rfl⟩

end Sample

end Verif.Mp
