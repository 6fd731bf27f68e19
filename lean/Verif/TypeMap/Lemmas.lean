import Verif.TypeMap.Spec
import Verif.Vts.Props

/-!
# Types that have got other names: lemmas
-/

namespace Verif.TypeMap

open Verif.Serialize Verif.Vts

theorem lookup_mem {m : Renaming} (h : IsMap m) {n n' : Name} (hm : (n, n') ∈ m) : m.lookup n = some n' := by
  induction m with
  | nil => cases hm
  | cons x m ih =>
    obtain ⟨a, b⟩ := x
    simp only [IsMap, List.map_cons, List.nodup_cons] at h
    simp only [List.mem_cons, Prod.mk.injEq] at hm
    rw [List.lookup_cons]
    rcases hm with ⟨rfl, rfl⟩ | hm
    · simp
    · have hne : n ≠ a := by
        rintro rfl
        exact h.1 (List.mem_map.mpr ⟨(n, n'), hm, rfl⟩)
      rw [beq_eq_false_iff_ne.2 hne]
      exact ih h.2 hm

theorem lookup_none {m : Renaming} {n : Name} (h : ∀ x, (n, x) ∉ m) : m.lookup n = none := by
  induction m with
  | nil => rfl
  | cons x m ih =>
    obtain ⟨a, b⟩ := x
    have hne : n ≠ a := by
      rintro rfl
      exact h b (by simp)
    rw [List.lookup_cons, beq_eq_false_iff_ne.2 hne]
    exact ih fun x hx => h x (List.mem_cons_of_mem _ hx)

theorem renameLoop_map {m : Renaming} (h : IsMap m) {α : Type} (f f' : α → Name) : ∀ l : List α,
    (∀ a ∈ l, Renames m (f a) (f' a)) → renameLoop m (l.map f) = l.map f'
  | [], _ => rfl
  | a :: l, hl => by
    have ih := renameLoop_map h f f' l fun x hx => hl x (by simp [hx])
    simp only [List.map_cons, renameLoop, find]
    rcases hl a (by simp) with hm | ⟨hm, he⟩
    · rw [lookup_mem h hm]
      simp only [ih]
    · rw [lookup_none hm, he]
      simp only [ih]

theorem renameLoop_nil (l : List Name) : renameLoop [] l = l := by
  induction l with
  | nil => rfl
  | cons n l ih => simp only [renameLoop, find, List.lookup_nil, ih]

theorem renames_lookup (m : Renaming) (n : Name) : Renames m n ((m.lookup n).getD n) := by
  induction m with
  | nil => exact Or.inr ⟨by simp, rfl⟩
  | cons x m ih =>
    obtain ⟨a, b⟩ := x
    rw [List.lookup_cons]
    by_cases h : n = a
    · subst h
      exact Or.inl (by simp)
    · rw [beq_eq_false_iff_ne.2 h]
      rcases ih with h1 | ⟨h1, h2⟩
      · exact Or.inl (List.mem_cons_of_mem _ h1)
      · refine Or.inr ⟨fun x hx => ?_, h2⟩
        rcases List.mem_cons.mp hx with e | hx
        · cases e
          exact h rfl
        · exact h1 x hx

theorem isMap_nil : IsMap [] := by simp [IsMap]

/-- Reading what is in the tables, whatever the types are called. -/
theorem readTables_eq {g : Cfg} {nm₁ : Ty → Name} {S₁ : Schema} (hF : Fits g.env.cap nm₁ S₁) :
    ∃ bs, writeNewPrototypes g.env.cap nm₁ S₁ = .ok bs ∧ ∀ m rest,
      readTables g m (bs ++ rest) = (do
        let old ← attachMetadata (renameLoop m (S₁.fields.map nm₁)) (g.S.fields.map g.nm) (S₁.protos.map fun p => p.map fun f => (f.1, encType f.2))
        .ok (old, rest)) := by
  obtain ⟨bs, h1, h2⟩ := write_meta g.env.cap nm₁ S₁
  have hT := hasTy_meta g.env.cap nm₁ S₁ hF
  obtain ⟨bs', e, x⟩ := readTy_exact ⟨none, g.env.cap⟩ (fun _ => []) plainHook (plainHook_ok (fun _ : Unit => True))
    metaTy _ (dflt metaTy) hT (fresh_dflt metaTy)
  have : bs' = bs := by
    simp only [write] at h2
    rw [h2] at e
    cases e; rfl
  subst this
  refine ⟨bs', h1, fun m rest => ?_⟩
  obtain ⟨c', _, e'⟩ := (x () trivial).1 rest
  simp only [readTables, Serialize.read, e', Res.ok_bind, decMeta_meta]

theorem skipField_tm (g : Cfg) (f : Name → Name) (old : List Proto) : ∀ fuel k, skipField { g with tm := f } old fuel k = skipField g old fuel k
  | 0, _ => rfl
  | fuel + 1, k => by
    have ih : skipField { g with tm := f } old fuel = skipField g old fuel := funext (skipField_tm g f old fuel)
    cases k with
    | none => simp only [skipField, ih]
    | some k =>
      simp only [skipField, ih]
      rfl

theorem readBody_tm (g : Cfg) (f : Name → Name) (fuel : Nat) (old : List Proto) (t : Ty) (o : Val) :
    readBody { g with tm := f } fuel old t o = readBody g fuel old t o := by
  have ih : skipField { g with tm := f } old fuel = skipField g old fuel := funext (skipField_tm g f old fuel)
  simp only [readBody, ih]
  rfl

/-- Reading with a map is what `readV` is with the function. -/
theorem readWith_eq {g : Cfg} {m : Renaming} (hm : IsMap m) {rn : Name → Name} (hrn : ∀ n, Renames m n (rn n)) (fuel : Nat) (t : Ty) (o : Val)
    (s : List UInt8) : readWith g m fuel t o s = readV { g with tm := rn } fuel t o s := by
  have hl : ∀ tn : List Name, renameLoop m tn = tn.map rn := by
    intro tn
    have := renameLoop_map hm id rn tn fun a _ => hrn a
    simpa using this
  have hT : readTables g m s = readOldPrototypes { g with tm := rn } s := by
    simp only [readTables, readOldPrototypes, hl]
    rfl
  simp only [readWith, readV, hT]
  congr 1
  funext x
  rw [readBody_tm g rn]
  generalize readBody g fuel x.1 t o (fun _ => none) x.2 = r
  cases r <;> rfl

theorem attachFields_missing {old_tm new_tm : List Name} : ∀ {fs : List (Name × Nat)},
    (∀ f ∈ fs, f.2 ≠ 2 ^ 64 - 1 → f.2 < old_tm.length) →
    (∃ f ∈ fs, f.2 ≠ 2 ^ 64 - 1 ∧ ∃ n, old_tm[f.2]? = some n ∧ n ∉ new_tm) → attachFields old_tm new_tm fs = .throw .typeMismatch
  | [], _, h => by obtain ⟨f, hf, _⟩ := h; cases hf
  | (n, ty) :: fs, hb, h => by
    have hb' : ∀ f ∈ fs, f.2 ≠ 2 ^ 64 - 1 → f.2 < old_tm.length := fun f hf => hb f (by simp [hf])
    obtain ⟨f, hf, h1, x, hx, hx'⟩ := h
    simp only [attachFields]
    by_cases ht : ty = 2 ^ 64 - 1
    · rw [if_pos ht]
      rcases List.mem_cons.mp hf with rfl | hf
      · exact absurd ht h1
      · rw [attachFields_missing hb' ⟨f, hf, h1, x, hx, hx'⟩]
        rfl
    · rw [if_neg ht]
      have hlt := hb (n, ty) (by simp) ht
      rw [List.getElem?_eq_getElem hlt]
      simp only []
      cases hn : findName new_tm old_tm[ty] with
      | none => rfl
      | some k =>
        rcases List.mem_cons.mp hf with rfl | hf
        · rw [List.getElem?_eq_getElem hlt] at hx
          cases hx
          exfalso
          simp only [findName, List.findIdx?_eq_some_iff_getElem] at hn
          obtain ⟨hk, he, _⟩ := hn
          simp only [beq_iff_eq] at he
          exact hx' (he ▸ List.getElem_mem hk)
        · simp only [attachFields_missing hb' ⟨f, hf, h1, x, hx, hx'⟩, Res.throw_bind]

theorem attachFields_cases {old_tm new_tm : List Name} : ∀ {fs : List (Name × Nat)},
    (∀ f ∈ fs, f.2 ≠ 2 ^ 64 - 1 → f.2 < old_tm.length) →
    (∃ p, attachFields old_tm new_tm fs = .ok p) ∨ attachFields old_tm new_tm fs = .throw .typeMismatch
  | [], _ => Or.inl ⟨[], rfl⟩
  | (n, ty) :: fs, hb => by
    have hb' : ∀ f ∈ fs, f.2 ≠ 2 ^ 64 - 1 → f.2 < old_tm.length := fun f hf => hb f (by simp [hf])
    simp only [attachFields]
    by_cases ht : ty = 2 ^ 64 - 1
    · rw [if_pos ht]
      rcases attachFields_cases (new_tm := new_tm) hb' with ⟨p, h⟩ | h <;> rw [h]
      · exact Or.inl ⟨_, rfl⟩
      · exact Or.inr rfl
    · have hlt := hb (n, ty) (by simp) ht
      rw [if_neg ht, List.getElem?_eq_getElem hlt]
      simp only []
      cases findName new_tm old_tm[ty] with
      | none => exact Or.inr rfl
      | some k =>
        rcases attachFields_cases (new_tm := new_tm) hb' with ⟨p, h⟩ | h <;> simp only [h]
        · exact Or.inl ⟨_, rfl⟩
        · exact Or.inr rfl

theorem attachMetadata_missing {old_tm new_tm : List Name} : ∀ {ps : List (List (Name × Nat))},
    (∀ p ∈ ps, ∀ f ∈ p, f.2 ≠ 2 ^ 64 - 1 → f.2 < old_tm.length) →
    (∃ p ∈ ps, ∃ f ∈ p, f.2 ≠ 2 ^ 64 - 1 ∧ ∃ n, old_tm[f.2]? = some n ∧ n ∉ new_tm) → attachMetadata old_tm new_tm ps = .throw .typeMismatch
  | [], _, h => by obtain ⟨p, hp, _⟩ := h; cases hp
  | p :: ps, hb, h => by
    obtain ⟨q, hq, h⟩ := h
    simp only [attachMetadata]
    rcases List.mem_cons.mp hq with rfl | hq
    · rw [attachFields_missing (hb q (by simp)) h]
      rfl
    · rcases attachFields_cases (new_tm := new_tm) (hb p (by simp)) with ⟨a, e⟩ | e <;> rw [e]
      · rw [Res.ok_bind, attachMetadata_missing (fun x hx => hb x (by simp [hx])) ⟨q, hq, h⟩]
        rfl
      · rfl

end Verif.TypeMap
