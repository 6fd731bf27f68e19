import Verif.Mp.BackModel
import Verif.Mp.BackLemmas
import Verif.Mp.EvolutionProps

/-! # C152: going to another version of the types and back loses nothing; `CopyV` -/

namespace Verif.Mp

open Verif Verif.Serialize Verif.Vts

/-- The program with the other version, as a program that reads with the names `fm`. -/
def plainProg (φ : CTy → CTy) (V : List CTy) : Prog := ⟨fun _ n => n, φ, V.filter (fun u => !isRefl u), true⟩

/-- C152: what a program writes, another version of it reads, writes and is read by the first one: the value is what it was.  The other version has
every field of the first one (it may have more, in any order); `P₂` is the other version reading the files of the first one, `P₁` the first one reading the files of the
other version. -/
theorem c152_back (O : Orders) (env : Env) (P₁ P₂ : Prog) (V₁ V₂ : List CTy) (t₁ t₂ : CTy) (S₁ S₂ : Schema) (v o₁ o₂ : Val)
    (h₁ : Tables O env.cap V₁ t₁ S₁) (hT₁ : ∀ s ∈ V₁, isRefl s = true → Part s t₁) (h₂ : Tables O env.cap V₂ t₂ S₂) (hT₂ : ∀ s ∈ V₂, isRefl s = true → Part s t₂)
    (hF₁ : P₁.F = V₁.filter (fun u => !isRefl u)) (hF₂ : P₂.F = V₂.filter (fun u => !isRefl u))
    (hb₂ : Becomes P₂ t₁ t₂) (hb₁ : Becomes P₁ t₂ t₁) (hk : Keeps P₂.fm P₁.fm t₁ t₂) (hu : Usable O t₂)
    (hv : Value O env t₁ v) (ho₁ : Blank t₁ o₁) (ho₂ : Blank t₂ o₂) (hv₂ : Value O env t₂ o₂) :
    ∃ bs w bs', writeV env nameTy S₁ (toTy O (structV V₁) t₁) v = .ok bs ∧
      (∀ fuel, bs.length < fuel → ∀ rest, readV (cfgOf env S₂ P₂.fm V₂ id P₂.del) fuel (toTy O (structV V₂) t₂) o₂ (bs ++ rest) = .ok (w, rest)) ∧
      writeV env nameTy S₂ (toTy O (structV V₂) t₂) w = .ok bs' ∧
      (∀ fuel, bs'.length < fuel → ∀ rest, readV (cfgOf env S₁ P₁.fm V₁ id P₁.del) fuel (toTy O (structV V₁) t₁) o₁ (bs' ++ rest) = .ok (v, rest)) := by
  obtain ⟨bs, w, e1, hw, e2⟩ := c143_value_partial O env P₂ V₁ V₂ t₁ t₂ S₁ S₂ v o₂ h₁ hT₁ h₂ hF₂ hb₂ hu hv ho₂ hv₂
  obtain ⟨bs₀, e1', e2', _⟩ := c143_reads_partial O env P₂ V₁ V₂ t₁ t₂ S₁ S₂ v o₂ h₁ hT₁ h₂ hF₂ hb₂ hv ho₂
  have hbs : bs₀ = bs := by rw [e1] at e1'; simpa using e1'.symm
  subst hbs
  have hw' := e2 (bs₀.length + 1) (by omega) []
  rw [e2' (bs₀.length + 1) (by omega) []] at hw'
  simp only [Res.ok.injEq, Prod.mk.injEq, and_true] at hw'
  obtain ⟨bs', e3, e4, _⟩ := c143_reads_partial O env P₁ V₂ V₁ t₂ t₁ S₂ S₁ w o₁ h₂ hT₂ h₁ hF₁ hb₁ hw ho₁
  refine ⟨bs₀, w, bs', e1, e2, e3, ?_⟩
  intro fuel hf rest
  rw [e4 fuel hf rest, ← hw']
  rw [keeps_back (env := env) h₁.side h₂.side hk h₁.ok h₂.ok h₁.has h₂.has v o₂ o₁ ((value_iff O _ env t₁ h₁.ok v).2 hv) ((blank_iff O _ t₂ h₂.ok o₂).2 ho₂)
    ((blank_iff O _ t₁ h₁.ok o₁).2 ho₁)]

/-- C152: `CopyV` gives the other object what `ReadV` reads of what `WriteV` writes, with memory reserved for exactly the bytes that are written; it fails only if there is
no memory for them. -/
theorem c152_copy (O : Orders) (env : Env) (φ : CTy → CTy) (V₁ V₂ : List CTy) (t₁ t₂ : CTy) (S₁ S₂ : Schema) (v o : Val)
    (h₁ : Tables O env.cap V₁ t₁ S₁) (hT₁ : ∀ s ∈ V₁, isRefl s = true → Part s t₁) (h₂ : Tables O env.cap V₂ t₂ S₂)
    (hb : Becomes (plainProg φ V₂) t₁ t₂) (hv : Value O env t₁ v) (ho : Blank t₂ o) (hc : env.cap < 2 ^ 64) :
    ∃ bs, writeV env nameTy S₁ (toTy O (structV V₁) t₁) v = .ok bs ∧ ∀ fuel, bs.length < fuel →
      (bs.length ≤ env.cap → ∃ w, readV (cfgOf env S₂ (fun _ n => n) V₂ id true) fuel (toTy O (structV V₂) t₂) o bs = .ok (w, []) ∧
        copyV env S₁ (toTy O (structV V₁) t₁) v V₂ S₂ (toTy O (structV V₂) t₂) o fuel = .ok (w, bs.length, bs.length)) ∧
      (env.cap < bs.length → bs.length < 2 ^ 64 → copyV env S₁ (toTy O (structV V₁) t₁) v V₂ S₂ (toTy O (structV V₂) t₂) o fuel = .throw .general) := by
  obtain ⟨bs, e1, e2, _⟩ := c143_reads_partial O env (plainProg φ V₂) V₁ V₂ t₁ t₂ S₁ S₂ v o h₁ hT₁ h₂ rfl hb hv ho
  refine ⟨bs, e1, ?_⟩
  intro fuel hf
  have e2 := e2 fuel hf []
  rw [List.append_nil] at e2
  constructor
  · intro hle
    refine ⟨_, e2, ?_⟩
    have hm : measured bs = bs.length := Nat.mod_eq_of_lt (by omega)
    have e2' : readV (cfgOf env S₂ (fun _ x => x) V₂ id true) fuel (toTy O (structV V₂) t₂) o bs = _ := e2
    simp only [copyV, e1, Res.ok_bind, reserve, hm, hle, if_true, e2']
  · intro hgt hlt
    have hm : measured bs = bs.length := Nat.mod_eq_of_lt hlt
    have hn : ¬ bs.length ≤ env.cap := by omega
    simp only [copyV, e1, Res.ok_bind, reserve, hm, hn, if_false]
    rfl

/-- C152: copying an object into an object of another version of its type that has all the fields, and back, gives the object. -/
theorem c152_copy_back (O : Orders) (env : Env) (φ₁ φ₂ : CTy → CTy) (V₁ V₂ : List CTy) (t₁ t₂ : CTy) (S₁ S₂ : Schema) (v o₁ o₂ : Val)
    (h₁ : Tables O env.cap V₁ t₁ S₁) (hT₁ : ∀ s ∈ V₁, isRefl s = true → Part s t₁) (h₂ : Tables O env.cap V₂ t₂ S₂) (hT₂ : ∀ s ∈ V₂, isRefl s = true → Part s t₂)
    (hb₂ : Becomes (plainProg φ₂ V₂) t₁ t₂) (hb₁ : Becomes (plainProg φ₁ V₁) t₂ t₁) (hk : Keeps (fun _ n => n) (fun _ n => n) t₁ t₂) (hu : Usable O t₂)
    (hv : Value O env t₁ v) (ho₁ : Blank t₁ o₁) (ho₂ : Blank t₂ o₂) (hv₂ : Value O env t₂ o₂) (hc : env.cap < 2 ^ 64) :
    ∃ bs w bs', writeV env nameTy S₁ (toTy O (structV V₁) t₁) v = .ok bs ∧ writeV env nameTy S₂ (toTy O (structV V₂) t₂) w = .ok bs' ∧
      ∀ fuel, bs.length < fuel → bs'.length < fuel → bs.length ≤ env.cap → bs'.length ≤ env.cap →
        copyV env S₁ (toTy O (structV V₁) t₁) v V₂ S₂ (toTy O (structV V₂) t₂) o₂ fuel = .ok (w, bs.length, bs.length) ∧
        copyV env S₂ (toTy O (structV V₂) t₂) w V₁ S₁ (toTy O (structV V₁) t₁) o₁ fuel = .ok (v, bs'.length, bs'.length) := by
  obtain ⟨bs, w, bs', e1, e2, e3, e4⟩ := c152_back O env (plainProg φ₁ V₁) (plainProg φ₂ V₂) V₁ V₂ t₁ t₂ S₁ S₂ v o₁ o₂ h₁ hT₁ h₂ hT₂ rfl rfl hb₂ hb₁ hk hu hv ho₁ ho₂ hv₂
  refine ⟨bs, w, bs', e1, e3, ?_⟩
  intro fuel hf hf' hn hn'
  have e2 := e2 fuel hf []
  have e4 := e4 fuel hf' []
  rw [List.append_nil] at e2 e4
  have e2' : readV (cfgOf env S₂ (fun _ x => x) V₂ id true) fuel (toTy O (structV V₂) t₂) o₂ bs = _ := e2
  have e4' : readV (cfgOf env S₁ (fun _ x => x) V₁ id true) fuel (toTy O (structV V₁) t₁) o₁ bs' = _ := e4
  have hm : measured bs = bs.length := Nat.mod_eq_of_lt (by omega)
  have hm' : measured bs' = bs'.length := Nat.mod_eq_of_lt (by omega)
  exact ⟨by simp only [copyV, e1, Res.ok_bind, reserve, hm, hn, if_true, e2'], by simp only [copyV, e3, Res.ok_bind, reserve, hm', hn', if_true, e4']⟩

/-! ### Sample -/

section Sample

/-- `set<int>` -/
def bSet : CTy := .node (.set 0) [cInt]
/-- `struct A { int p; }` -/
def bA₁ : CTy := .node (.refl 1 [[112]]) [cInt]
/-- `struct A { int q; int p; }` -/
def bA₂ : CTy := .node (.refl 1 [[113], [112]]) [cInt, cInt]
/-- `struct S { int x; vector<A> v; set<int> s; }` -/
def bS₁ : CTy := .node (.refl 0 [[120], [118], [115]]) [cInt, .node .vec [bA₁], bSet]
/-- `struct S { set<int> s; vector<A> v; int y; int x; }` -/
def bS₂ : CTy := .node (.refl 0 [[115], [118], [121], [120]]) [bSet, .node .vec [bA₂], cInt, cInt]

def bφ₂ : CTy → CTy := fun s => if s = bS₁ then bS₂ else if s = bA₁ then bA₂ else s
def bφ₁ : CTy → CTy := fun s => if s = bS₂ then bS₁ else if s = bA₂ then bA₁ else s

theorem bVec₁ : variantOf noExtra bS₁ = [bS₁, cInt, .node .vec [bA₁], bA₁, bSet] := rfl
theorem bVec₂ : variantOf noExtra bS₂ = [bS₂, bSet, cInt, .node .vec [bA₂], bA₂] := rfl

theorem bA_up : Becomes (plainProg bφ₂ (variantOf noExtra bS₂)) bA₁ bA₂ := by
  refine .refl 1 1 _ _ _ _ (by decide) (by decide) (by decide) (by decide) ?_ ?_ (by decide)
  · intro k m n a b h1 h2 h3 h4
    rcases k with _ | k <;> simp at h1 h2
    subst h1 h2
    rcases m with _ | _ | m <;> simp [plainProg] at h3 h4
    subst h4
    exact .int _ _ 4 [] [] rfl rfl
  · intro k n a h1 h2 h3
    rcases k with _ | k <;> simp at h1 h2
    subst h1; exact absurd (by decide) h3

theorem bA_down : Becomes (plainProg bφ₁ (variantOf noExtra bS₁)) bA₂ bA₁ := by
  refine .refl 1 1 _ _ _ _ (by decide) (by decide) (by decide) (by decide) ?_ ?_ (by decide)
  · intro k m n a b h1 h2 h3 h4
    rcases k with _ | _ | k <;> simp at h1 h2
    · subst h1 h2
      rcases m with _ | m <;> simp [plainProg] at h3 h4
    · subst h1 h2
      rcases m with _ | m <;> simp [plainProg] at h3 h4
      subst h4
      exact .int _ _ 4 [] [] rfl rfl
  · intro k n a h1 h2 h3
    rcases k with _ | _ | k <;> simp at h1 h2
    · subst h1 h2
      exact .type _ cInt rfl (by decide) (.int _ _ 4 [] [] rfl rfl)
    · subst h1; exact absurd (by decide) h3

theorem bInt {P : Prog} : Becomes P cInt cInt := .int _ _ 4 [] [] rfl rfl
theorem bSets {P : Prog} : Becomes P bSet bSet := .coll _ _ _ _ rfl rfl (by decide) bInt

theorem bS_up : Becomes (plainProg bφ₂ (variantOf noExtra bS₂)) bS₁ bS₂ := by
  refine .refl 0 0 _ _ _ _ (by decide) (by decide) (by decide) (by decide) ?_ ?_ (by decide)
  · intro k m n a b h1 h2 h3 h4
    rcases k with _ | _ | _ | k <;> simp at h1 h2 <;> subst h1 h2 <;> rcases m with _ | _ | _ | _ | m <;> simp [plainProg] at h3 h4 <;> subst h4
    · exact bInt
    · exact .vec _ _ bA_up
    · exact bSets
  · intro k n a h1 h2 h3
    rcases k with _ | _ | _ | k <;> simp at h1 h2 <;> subst h1 <;> exact absurd (by decide) h3

theorem bS_down : Becomes (plainProg bφ₁ (variantOf noExtra bS₁)) bS₂ bS₁ := by
  refine .refl 0 0 _ _ _ _ (by decide) (by decide) (by decide) (by decide) ?_ ?_ (by decide)
  · intro k m n a b h1 h2 h3 h4
    rcases k with _ | _ | _ | _ | k <;> simp at h1 h2 <;> subst h1 h2 <;> rcases m with _ | _ | _ | m <;> simp [plainProg] at h3 h4 <;> subst h4
    · exact bSets
    · exact .vec _ _ bA_down
    · exact bInt
  · intro k n a h1 h2 h3
    rcases k with _ | _ | _ | _ | k <;> simp at h1 h2 <;> subst h1
    · exact absurd (by decide) h3
    · exact absurd (by decide) h3
    · subst h2; exact .type _ cInt rfl (by decide) bInt
    · exact absurd (by decide) h3

theorem bKeeps : Keeps (fun _ n => n) (fun _ n => n) bS₁ bS₂ := by
  have hi : Keeps (fun _ n => n) (fun _ n => n) cInt cInt := .leaf _ _ _ _ rfl rfl
  have hp : Proper (fun _ n => n) cInt := by
    intro k args hp
    cases hp with
    | self => exact ⟨by simp, by simp⟩
    | arg h _ _ => simp at h
  have hA : Keeps (fun _ n => n) (fun _ n => n) bA₁ bA₂ := by
    refine .refl _ _ _ _ _ _ (by decide) (by decide) (by decide) ?_
    intro k m n a b h1 h2 h3 h4
    rcases k with _ | k <;> simp at h1 h2 <;> subst h1 h2 <;> rcases m with _ | _ | m <;> simp at h3 h4 <;> subst h4
    exact hi
  refine .refl _ _ _ _ _ _ (by decide) (by decide) (by decide) ?_
  intro k m n a b h1 h2 h3 h4
  rcases k with _ | _ | _ | k <;> simp at h1 h2 <;> subst h1 h2 <;> rcases m with _ | _ | _ | _ | m <;> simp at h3 h4 <;> subst h4
  · exact hi
  · exact .vec _ _ hA
  · exact .set _ _ rfl (by decide) hp hp

theorem bTables₁ : Tables sampleOrders 1000 (variantOf noExtra bS₁) bS₁ (sSchema bS₁) :=
  c143_tables sampleOrders 1000 bS₁ _ (by simp [bS₁, bA₁, bSet, cInt, Ok, OkAll, okNode]) rfl
    (small_of (by decide) (by decide) (by
      intro t ht
      rw [bVec₁] at ht
      simp only [List.mem_cons, List.not_mem_nil, or_false] at ht
      rcases ht with rfl | rfl | rfl | rfl | rfl <;> simp [bS₁, bA₁, bSet, cInt]))

theorem bTables₂ : Tables sampleOrders 1000 (variantOf noExtra bS₂) bS₂ (sSchema bS₂) :=
  c143_tables sampleOrders 1000 bS₂ _ (by simp [bS₂, bA₂, bSet, cInt, Ok, OkAll, okNode]) rfl
    (small_of (by decide) (by decide) (by
      intro t ht
      rw [bVec₂] at ht
      simp only [List.mem_cons, List.not_mem_nil, or_false] at ht
      rcases ht with rfl | rfl | rfl | rfl | rfl <;> simp [bS₂, bA₂, bSet, cInt]))

/-- `S { 7, {{5}, {6}}, {1, 2} }` is copied to `S { {}, {}, 3, 4 }` and back to `S { 0, {}, {} }`. -/
example : ∃ bs w bs', writeV ⟨none, 1000⟩ nameTy (sSchema bS₁) (toTy sampleOrders (structV (variantOf noExtra bS₁)) bS₁)
      (.list [.num 7, .list [.list [.num 5], .list [.num 6]], .list [.num 1, .num 2]]) = .ok bs ∧
    writeV ⟨none, 1000⟩ nameTy (sSchema bS₂) (toTy sampleOrders (structV (variantOf noExtra bS₂)) bS₂) w = .ok bs' ∧
    ∀ fuel, bs.length < fuel → bs'.length < fuel → bs.length ≤ 1000 → bs'.length ≤ 1000 →
      copyV ⟨none, 1000⟩ (sSchema bS₁) (toTy sampleOrders (structV (variantOf noExtra bS₁)) bS₁) (.list [.num 7, .list [.list [.num 5], .list [.num 6]], .list [.num 1, .num 2]])
        (variantOf noExtra bS₂) (sSchema bS₂) (toTy sampleOrders (structV (variantOf noExtra bS₂)) bS₂) (.list [.list [], .list [], .num 3, .num 4]) fuel = .ok (w, bs.length, bs.length) ∧
      copyV ⟨none, 1000⟩ (sSchema bS₂) (toTy sampleOrders (structV (variantOf noExtra bS₂)) bS₂) w
        (variantOf noExtra bS₁) (sSchema bS₁) (toTy sampleOrders (structV (variantOf noExtra bS₁)) bS₁) (.list [.num 0, .list [], .list []]) fuel =
          .ok (.list [.num 7, .list [.list [.num 5], .list [.num 6]], .list [.num 1, .num 2]], bs'.length, bs'.length) :=
  c152_copy_back sampleOrders ⟨none, 1000⟩ bφ₁ bφ₂ _ _ bS₁ bS₂ _ _ _ _ _ bTables₁ (c143_structures _ bTables₁.ok) bTables₂ (c143_structures _ bTables₂.ok) bS_up bS_down bKeeps
    (by
      simp [bS₂, bA₂, bSet, cInt, Usable, UsableAll, usableNode, sampleOrders, isEnm]
      exact fun x y z => Nat.lt_trans)
    (by simp [bS₁, bA₁, bSet, cInt, Value, Values, isEnm, sampleOrders, lead])
    (by simp [bS₁, bA₁, bSet, cInt, Blank, Blanks])
    (by simp [bS₂, bA₂, bSet, cInt, Blank, Blanks])
    (by simp [bS₂, bA₂, bSet, cInt, Value, Values, isEnm, sampleOrders])
    (by decide)

set_option maxRecDepth 8000 in
/-- The object in between, and the bytes. -/
example : copyV ⟨none, 1000⟩ (sSchema bS₁) (toTy sampleOrders (structV (variantOf noExtra bS₁)) bS₁) (.list [.num 7, .list [.list [.num 5], .list [.num 6]], .list [.num 1, .num 2]])
    (variantOf noExtra bS₂) (sSchema bS₂) (toTy sampleOrders (structV (variantOf noExtra bS₂)) bS₂) (.list [.list [], .list [], .num 3, .num 4]) 1000 =
    .ok (.list [.list [.num 1, .num 2], .list [.list [.num 0, .num 5], .list [.num 0, .num 6]], .num 3, .num 7], 206, 206) := rfl

end Sample

end Verif.Mp
