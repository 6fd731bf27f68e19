import Verif.Mp.Evolution
import Verif.Mp.ValueLemmas

/-! # Types that may change so are types that evolve -/

namespace Verif.Mp

open Verif.Serialize Verif.Vts

theorem isColl_ofKind {k : Kind} (h : isColl k = true) (O : Orders) (i : Nat) (t : Ty) :
    ∃ K, ofKind O i k [t] = .coll K t ∧ (k ≠ .ring 0 → K ≠ .ring 0) := by
  cases k <;> simp [isColl] at h
  · exact ⟨_, rfl, fun _ => by simp⟩
  · exact ⟨_, rfl, fun h e => h (by cases e; rfl)⟩
  · exact ⟨_, rfl, fun _ => by simp⟩
  · exact ⟨_, rfl, fun _ => by simp⟩

theorem isMap_ofKind {k : Kind} (h : isMap k = true) (O : Orders) (i : Nat) (t u : Ty) :
    ∃ K, ofKind O i k [t, u] = .map K t u ∧ K ≠ .ring 0 := by
  cases k <;> simp [isMap] at h
  · exact ⟨_, rfl, by simp⟩
  · exact ⟨_, rfl, by simp⟩

theorem intSize_ofKind {k : Kind} {n : Nat} (h : intSize k = some n) (O : Orders) (i : Nat) (ts : List Ty) : ∃ tag, ofKind O i k ts = .num n tag := by
  cases k <;> simp [intSize] at h
  · subst h; exact ⟨_, rfl⟩
  · subst h; exact ⟨_, rfl⟩

theorem intSize_shapeOf {k : Kind} {n : Nat} (h : intSize k = some n) (ss : List Shape) : shapeOf k ss = .int n := by
  cases k <;> simp [intSize] at h <;> subst h <;> rfl

theorem isColl_shapeOf {k : Kind} (h : isColl k = true) (s : Shape) : shapeOf k [s] = .seq s := by
  cases k <;> simp [isColl] at h <;> rfl

theorem isMap_shapeOf {k : Kind} (h : isMap k = true) (s s' : Shape) : shapeOf k [s, s'] = .seq (.pair s s') := by
  cases k <;> simp [isMap] at h <;> rfl

/-- An argument that is not collected is arithmetic. -/
theorem final_arith {k : Kind} {a : CTy} (h : isFinal k [a] = true) : isArith a = true := by
  cases k <;> simp_all [isFinal]

theorem arith_part {a s : CTy} (ho : Ok a) (ha : isArith a = true) (hs : Part s a) : isRefl s = false := by
  cases hs with
  | self =>
    obtain ⟨k, l⟩ := a
    cases k <;> simp [isArith] at ha <;> rfl
  | arg hm _ _ =>
    rename_i k args _ _
    simp only [Ok] at ho
    cases k <;> simp [isArith] at ha <;> cases args <;> simp [okNode] at ho <;> simp at hm

/-- The structures inside of an argument are inside of the type. -/
theorem arg_part {k : Kind} {args : List CTy} {a s : CTy} (ho : Ok (.node k args)) (ha : a ∈ args) (hs : Part s a) (hr : isRefl s = true) : Part s (.node k args) := by
  by_cases hf : isFinal k args = true
  · exfalso
    simp only [Ok] at ho
    have hoa := okAll_mem ho.2 ha
    have : isArith a = true := by
      cases k <;> simp only [isFinal] at hf <;> try (cases hf)
      all_goals
        rcases args with _ | ⟨b, _ | ⟨c, l⟩⟩ <;> simp at hf
        simp at ha; subst ha; exact hf
    rw [arith_part hoa this hs] at hr; cases hr
  · exact .arg ha (by simpa using hf) hs

mutual
/-- A type keeps its shape, and so its name. -/
theorem becomes_shape {P : Prog} : ∀ {t u : CTy}, Becomes P t u → shape t = shape u
  | _, _, .int _ _ _ _ _ h1 h2 => by simp only [shape, intSize_shapeOf h1, intSize_shapeOf h2]
  | _, _, .bool _ _ => rfl
  | _, _, .flt _ _ _ => rfl
  | _, _, .dec _ _ _ _ => rfl
  | _, _, .enm _ _ _ _ _ _ _ _ => rfl
  | _, _, .time _ _ _ _ _ _ => rfl
  | _, _, .str _ _ _ => rfl
  | _, _, .vec _ _ h => by simp only [shape, shapes, shapeOf, becomes_shape h]
  | _, _, .arr _ _ _ h => by simp only [shape, shapes, shapeOf, becomes_shape h]
  | _, _, .opt _ _ h => by simp only [shape, shapes, shapeOf, becomes_shape h]
  | _, _, .ptr _ _ _ _ h => by simp only [shape, shapes, shapeOf, becomes_shape h]
  | _, _, .atomic _ _ h => by simp only [shape, shapes, shapeOf, becomes_shape h]
  | _, _, .coll _ _ _ _ h1 h2 _ h => by simp only [shape, shapes, isColl_shapeOf h1, isColl_shapeOf h2, becomes_shape h]
  | _, _, .map _ _ _ _ _ _ h1 h2 h h' => by simp only [shape, shapes, isMap_shapeOf h1, isMap_shapeOf h2, becomes_shape h, becomes_shape h']
  | _, _, .pair _ _ h => by simp only [shape, becomes_shapes h]
  | _, _, .var _ _ h => by simp only [shape, becomes_shapes h]
  | _, _, .refl _ _ _ _ _ _ _ _ _ _ _ _ _ => rfl
theorem becomes_shapes {P : Prog} : ∀ {ts us : List CTy}, BecomeAll P ts us → shapes ts = shapes us
  | _, _, .nil => rfl
  | _, _, .cons _ _ _ _ h h' => by simp only [shapes, becomes_shape h, becomes_shapes h']
end

theorem becomes_isRefl {P : Prog} {t u : CTy} (h : Becomes P t u) : isRefl t = isRefl u := by
  cases h with
  | int k l n _ _ h1 h2 => cases k <;> simp [intSize] at h1 <;> cases l <;> simp [intSize] at h2 <;> rfl
  | coll k l _ _ h1 h2 => cases k <;> simp [isColl] at h1 <;> cases l <;> simp [isColl] at h2 <;> rfl
  | map k l _ _ _ _ h1 h2 => cases k <;> simp [isMap] at h1 <;> cases l <;> simp [isMap] at h2 <;> rfl
  | _ => rfl

theorem toTys_get (O : Orders) (SV : List CTy) : ∀ (l : List CTy) (q : Nat), (toTys O SV l)[q]? = (l[q]?).map (toTy O SV)
  | [], q => by simp [toTys]
  | y :: l, 0 => rfl
  | y :: l, q + 1 => by simpa [toTys] using toTys_get O SV l q

theorem toTys_length (O : Orders) (SV : List CTy) : ∀ (l : List CTy), (toTys O SV l).length = l.length
  | [] => rfl
  | _ :: l => by simp [toTys, toTys_length O SV l]

/-- Field by field, from a statement about each index. -/
theorem evolvesFields_of (nm₁ : Ty → Name) (g : Cfg) (φ : Nat → Nat) (rn : Name → Name) (ms : List Name) (us : List Ty) :
    ∀ (ns : List Name) (ts : List Ty), ns.length = ts.length →
      (∀ (k : Nat) (n : Name) (t : Ty), ns[k]? = some n → ts[k]? = some t →
        ((∃ (j : Nat) (u : Ty), ms[j]? = some (rn n) ∧ us[j]? = some u ∧
            isStruct t = isStruct u ∧ (isStruct u = false → g.tm (nm₁ t) = g.nm u) ∧ Evolves nm₁ g φ t u) ∨
          (rn n ∉ ms ∧ g.allowDelete = true ∧
            ((isStruct t = false ∧ ∃ (k : Nat) (u : Ty), g.S.fields[k]? = some u ∧
                (g.S.fields.map g.nm).findIdx? (· == g.tm (nm₁ t)) = some k ∧ Described g.S u ∧ Evolves nm₁ g φ t u) ∨
              (isStruct t = true ∧ Skips nm₁ g φ t))))) →
      EvolvesFields nm₁ g φ rn ms us ns ts
  | [], [], _, _ => by simp [EvolvesFields]
  | n :: ns, t :: ts, hl, h => by
    simp only [EvolvesFields]
    refine ⟨h 0 n t rfl rfl, evolvesFields_of nm₁ g φ rn ms us ns ts (by simpa using hl) fun k n t h1 h2 => h (k + 1) n t (by simpa using h1) (by simpa using h2)⟩
  | [], _ :: _, hl, _ => by simp at hl
  | _ :: _, [], hl, _ => by simp at hl

theorem skipsAll_of (nm₁ : Ty → Name) (g : Cfg) (φ : Nat → Nat) : ∀ (ts : List Ty),
    (∀ t ∈ ts, (isStruct t = false ∧ ∃ (k : Nat) (u : Ty), g.S.fields[k]? = some u ∧
        (g.S.fields.map g.nm).findIdx? (· == g.tm (nm₁ t)) = some k ∧ Described g.S u ∧ Evolves nm₁ g φ t u) ∨
      (isStruct t = true ∧ Skips nm₁ g φ t)) → SkipsAll nm₁ g φ ts
  | [], _ => by simp [SkipsAll]
  | t :: ts, h => by
    simp only [SkipsAll]
    exact ⟨h t (by simp), skipsAll_of nm₁ g φ ts fun u hu => h u (by simp [hu])⟩

/-- The index in the tables of the reading program of what an old structure has become. -/
def phi (φ : CTy → CTy) (SV₁ SV₂ : List CTy) (i : Nat) : Nat :=
  match SV₁[i]? with
  | some s => (findType (φ s) SV₂).getD 0
  | none => 0

/-- `find?` and `findIdx?`. -/
theorem find_findIdx {α β : Type} (p : α → Bool) (q : β → Bool) (f : α → β) (hpq : ∀ x, q (f x) = p x) : ∀ (l : List α) (x : α), l.find? p = some x →
    ∃ k, (l.map f).findIdx? q = some k ∧ l[k]? = some x
  | [], _, h => by simp at h
  | y :: l, x, h => by
    simp only [List.find?_cons] at h
    simp only [List.map_cons, List.findIdx?_cons, hpq]
    cases hp : p y with
    | true => rw [hp] at h; simp at h; subst h; exact ⟨0, by simp⟩
    | false =>
      rw [hp] at h; simp at h
      obtain ⟨k, h1, h2⟩ := find_findIdx p q f hpq l x h
      exact ⟨k + 1, by simp [h1], by simpa using h2⟩

section

variable {O₁ O₂ : Orders} {V₁ V₂ : List CTy} {P : Prog} {g : Cfg} {ps : List Proto}

/-- What the proof needs of the two programs. -/
structure Ctx (O₁ O₂ : Orders) (V₁ V₂ : List CTy) (P : Prog) (g : Cfg) (ps : List Proto) : Prop where
  S : g.S = ⟨(fieldV V₂).map (toTy O₂ (structV V₂)), ps⟩
  nm : g.nm = nameTy
  ren : g.ren = renOf P.fm V₂
  tm : g.tm = id
  del : g.allowDelete = P.del
  F : P.F = fieldV V₂
  nd₁ : V₁.Nodup
  nd₂ : V₂.Nodup
  ok₂ : ∀ u ∈ V₂, Ok u
  closed : ∀ u ∈ V₂, ∀ s, Part s u → isRefl s = true → s ∈ V₂
  described : ∀ u, Ok u → (∀ s, Part s u → isRefl s = true → s ∈ V₂) → Described g.S (toTy O₂ (structV V₂) u)

theorem struct_idx {O : Orders} {V : List CTy} (hn : V.Nodup) {i : Nat} {ns : List Name} {as : List CTy} (h : CTy.node (.refl i ns) as ∈ V) :
    ∃ j, toTy O (structV V) (.node (.refl i ns) as) = .struct (some ⟨j, ns⟩) (toTys O (structV V) as) ∧ (structV V)[j]? = some (.node (.refl i ns) as) ∧
      findType (.node (.refl i ns) as) (structV V) = some j := by
  have hm : CTy.node (.refl i ns) as ∈ structV V := by rw [structV_eq, List.mem_filter]; exact ⟨h, rfl⟩
  have hn' : (structV V).Nodup := by rw [structV_eq]; exact hn.filter _
  obtain ⟨j, h1, h2⟩ := findType_some hn' hm
  exact ⟨j, by simp only [toTy, ofKind, h1, Option.getD_some], h2, h1⟩

mutual
theorem becomes_evolves (X : Ctx O₁ O₂ V₁ V₂ P g ps) : ∀ {t u : CTy}, Becomes P t u → Ok t → Ok u →
    (∀ s, Part s t → isRefl s = true → s ∈ V₁) → (∀ s, Part s u → isRefl s = true → s ∈ V₂) →
    Evolves nameTy g (phi P.φ (structV V₁) (structV V₂)) (toTy O₁ (structV V₁) t) (toTy O₂ (structV V₂) u)
  | _, _, .int k l n as bs h1 h2, _, _, _, _ => by
    obtain ⟨a, h1⟩ := intSize_ofKind h1 O₁ ((findType (.node k as) (structV V₁)).getD 0) (toTys O₁ (structV V₁) as)
    obtain ⟨b, h2⟩ := intSize_ofKind h2 O₂ ((findType (.node l bs) (structV V₂)).getD 0) (toTys O₂ (structV V₂) bs)
    simp only [toTy, h1, h2, Evolves]
  | _, _, .bool _ _, _, _, _, _ => by simp only [toTy, ofKind, Evolves]
  | _, _, .flt _ _ _, _, _, _, _ => by simp only [toTy, ofKind, Evolves]
  | _, _, .dec _ _ _ _, _, _, _, _ => by simp only [toTy, ofKind, Evolves]
  | _, _, .enm _ _ _ _ _ _ _ h, _, _, _, _ => by simp only [toTy, ofKind, Evolves]; exact ⟨trivial, h⟩
  | _, _, .time _ _ _ _ _ _, _, _, _, _ => by simp only [toTy, ofKind, Evolves, and_self]
  | _, _, .str _ _ _, _, _, _, _ => by simp only [toTy, ofKind, Evolves]
  | _, _, .vec a b h, ho, ho', h1, h2 => by
    have hb := becomes_evolves X h ho.2.1 ho'.2.1 (fun s hs hr => h1 s (arg_part ho (by simp) hs hr) hr) (fun s hs hr => h2 s (arg_part ho' (by simp) hs hr) hr)
    simp only [toTy, toTys, ofKind, Evolves]; exact hb
  | _, _, .arr n a b h, ho, ho', h1, h2 => by
    have hb := becomes_evolves X h ho.2.1 ho'.2.1 (fun s hs hr => h1 s (arg_part ho (by simp) hs hr) hr) (fun s hs hr => h2 s (arg_part ho' (by simp) hs hr) hr)
    simp only [toTy, toTys, ofKind, Evolves]; exact ⟨trivial, hb⟩
  | _, _, .opt a b h, ho, ho', h1, h2 => by
    have hb := becomes_evolves X h ho.2.1 ho'.2.1 (fun s hs hr => h1 s (arg_part ho (by simp) hs hr) hr) (fun s hs hr => h2 s (arg_part ho' (by simp) hs hr) hr)
    simp only [toTy, toTys, ofKind, Evolves]; exact hb
  | _, _, .ptr _ _ a b h, ho, ho', h1, h2 => by
    have hb := becomes_evolves X h ho.2.1 ho'.2.1 (fun s hs hr => h1 s (arg_part ho (by simp) hs hr) hr) (fun s hs hr => h2 s (arg_part ho' (by simp) hs hr) hr)
    simp only [toTy, toTys, ofKind, Evolves]; exact hb
  | _, _, .atomic a b h, ho, ho', h1, h2 => by
    have hb := becomes_evolves X h ho.2.1 ho'.2.1 (fun s hs hr => h1 s (arg_part ho (by simp) hs hr) hr) (fun s hs hr => h2 s (arg_part ho' (by simp) hs hr) hr)
    simp only [toTy, toTys, ofKind]; exact hb
  | _, _, .coll k l a b hk hl hne h, ho, ho', h1, h2 => by
    have hb := becomes_evolves X h ho.2.1 ho'.2.1 (fun s hs hr => h1 s (arg_part ho (by simp) hs hr) hr) (fun s hs hr => h2 s (arg_part ho' (by simp) hs hr) hr)
    obtain ⟨K, e1, _⟩ := isColl_ofKind hk O₁ ((findType (.node k [a]) (structV V₁)).getD 0) (toTy O₁ (structV V₁) a)
    obtain ⟨L, e2, hL⟩ := isColl_ofKind hl O₂ ((findType (.node l [b]) (structV V₂)).getD 0) (toTy O₂ (structV V₂) b)
    rw [toTy, toTy, toTys, toTys, toTys, toTys, e1, e2, Evolves]; exact ⟨hL hne, hb⟩
  | _, _, .map k l a b a' b' hk hl h h', ho, ho', h1, h2 => by
    have hb := becomes_evolves X h ho.2.1 ho'.2.1 (fun s hs hr => h1 s (arg_part ho (by simp) hs hr) hr) (fun s hs hr => h2 s (arg_part ho' (by simp) hs hr) hr)
    have hb' := becomes_evolves X h' ho.2.2.1 ho'.2.2.1 (fun s hs hr => h1 s (arg_part ho (by simp) hs hr) hr) (fun s hs hr => h2 s (arg_part ho' (by simp) hs hr) hr)
    obtain ⟨K, e1, _⟩ := isMap_ofKind hk O₁ ((findType (.node k [a, b]) (structV V₁)).getD 0) (toTy O₁ (structV V₁) a) (toTy O₁ (structV V₁) b)
    obtain ⟨L, e2, hL⟩ := isMap_ofKind hl O₂ ((findType (.node l [a', b']) (structV V₂)).getD 0) (toTy O₂ (structV V₂) a') (toTy O₂ (structV V₂) b')
    simp only [toTy, toTys, e1, e2, Evolves]; exact ⟨hL, hb, hb'⟩
  | _, _, .pair as bs h, ho, ho', h1, h2 => by
    have hb := (becomes_all X h ho.2 ho'.2 (fun a ha s hs hr => h1 s (arg_part ho ha hs hr) hr) (fun a ha s hs hr => h2 s (arg_part ho' ha hs hr) hr)).1
    simp only [toTy, ofKind, Evolves]; exact hb
  | _, _, .var as bs h, ho, ho', h1, h2 => by
    have hb := (becomes_all X h ho.2 ho'.2 (fun a ha s hs hr => h1 s (arg_part ho ha hs hr) hr) (fun a ha s hs hr => h2 s (arg_part ho' ha hs hr) hr)).2
    simp only [toTy, ofKind, Evolves]; exact hb
  | _, _, .refl i j ns ms as bs hφ hne hnd hms hkeep hrem hdel, ho, ho', h1, h2 => by
    obtain ⟨p, e1, e2, -⟩ := struct_idx (O := O₁) X.nd₁ (h1 _ (.self _) rfl)
    obtain ⟨q, e3, e4, e5⟩ := struct_idx (O := O₂) X.nd₂ (h2 _ (.self _) rfl)
    have hrn : g.ren q = P.fm (.node (.refl j ms) bs) := by
      funext n; simp only [X.ren, renOf, e4]
    have hl1 : ns.length = as.length := by simpa [okNode] using ho.1
    have hl2 : ms.length = bs.length := by simpa [okNode] using ho'.1
    rw [e1, e3]
    simp only [Evolves, hrn, toTys_length]
    refine ⟨by simp only [phi, e2, hφ, e5, Option.getD_some], hne, hl1, hl2, hnd, hms, evolvesFields_of _ _ _ _ _ _ _ _ (by rw [toTys_length]; exact hl1) ?_⟩
    intro k n T hn hT
    rw [toTys_get] at hT
    obtain ⟨a, ha, rfl⟩ := Option.map_eq_some_iff.1 hT
    have hma := List.mem_of_getElem? ha
    have hoa := okAll_mem ho.2 hma
    have hpa : ∀ s, Part s a → isRefl s = true → s ∈ V₁ := fun s hs hr => h1 s (arg_part ho hma hs hr) hr
    by_cases hin : P.fm (.node (.refl j ms) bs) n ∈ ms
    · left
      obtain ⟨m, hm⟩ := List.getElem?_of_mem hin
      have hlt : m < bs.length := by
        rw [← hl2]; exact (List.getElem?_eq_some_iff.1 hm).1
      obtain ⟨b, hb⟩ : ∃ b, bs[m]? = some b := ⟨bs[m], List.getElem?_eq_getElem hlt⟩
      have hmb := List.mem_of_getElem? hb
      have hob := okAll_mem ho'.2 hmb
      have hB := hkeep k m n a b hn ha hm hb
      refine ⟨m, toTy O₂ (structV V₂) b, hm, by rw [toTys_get, hb]; rfl, ?_, ?_, ?_⟩
      · rw [isStruct_toTy O₁ _ a hoa, isStruct_toTy O₂ _ b hob, becomes_isRefl hB]
      · intro _
        rw [X.tm, X.nm, nameTy_toTy O₁ _ a hoa, nameTy_toTy O₂ _ b hob]
        exact (c106_names_partial a b hoa hob).2 (becomes_shape hB)
      · exact becomes_evolves X hB hoa hob hpa (fun s hs hr => h2 s (arg_part ho' hmb hs hr) hr)
    · right
      exact ⟨hin, by rw [X.del]; exact hdel ⟨n, List.mem_of_getElem? hn, hin⟩, removable_skips X (hrem k n a hn ha hin) hoa hpa⟩
theorem becomes_all (X : Ctx O₁ O₂ V₁ V₂ P g ps) : ∀ {ts us : List CTy}, BecomeAll P ts us → OkAll ts → OkAll us →
    (∀ a ∈ ts, ∀ s, Part s a → isRefl s = true → s ∈ V₁) → (∀ a ∈ us, ∀ s, Part s a → isRefl s = true → s ∈ V₂) →
    EvolvesAll nameTy g (phi P.φ (structV V₁) (structV V₂)) (toTys O₁ (structV V₁) ts) (toTys O₂ (structV V₂) us) ∧
    EvolvesAlts nameTy g (phi P.φ (structV V₁) (structV V₂)) (toTys O₁ (structV V₁) ts) (toTys O₂ (structV V₂) us)
  | _, _, .nil, _, _, _, _ => by simp [toTys, EvolvesAll, EvolvesAlts]
  | _, _, .cons a b as bs h h', ho, ho', h1, h2 => by
    have r1 := becomes_evolves X h ho.1 ho'.1 (h1 a (by simp)) (h2 b (by simp))
    have r2 := becomes_all X h' ho.2 ho'.2 (fun a ha => h1 a (by simp [ha])) (fun a ha => h2 a (by simp [ha]))
    simp only [toTys, EvolvesAll, EvolvesAlts]
    exact ⟨⟨r1, r2.1⟩, r1, r2.2⟩
theorem removable_skips (X : Ctx O₁ O₂ V₁ V₂ P g ps) : ∀ {a : CTy}, Removable P a → Ok a → (∀ s, Part s a → isRefl s = true → s ∈ V₁) →
    ((isStruct (toTy O₁ (structV V₁) a) = false ∧ ∃ (k : Nat) (u : Ty), g.S.fields[k]? = some u ∧
        (g.S.fields.map g.nm).findIdx? (· == g.tm (nameTy (toTy O₁ (structV V₁) a))) = some k ∧ Described g.S u ∧
        Evolves nameTy g (phi P.φ (structV V₁) (structV V₂)) (toTy O₁ (structV V₁) a) u) ∨
      (isStruct (toTy O₁ (structV V₁) a) = true ∧ Skips nameTy g (phi P.φ (structV V₁) (structV V₂)) (toTy O₁ (structV V₁) a)))
  | _, .type a u hr hf hb, ho, h1 => by
    left
    have hu : u ∈ V₂ := by
      have := List.mem_of_find?_eq_some hf
      rw [X.F, fieldV_eq, List.mem_filter] at this
      exact this.1
    refine ⟨by rw [isStruct_toTy O₁ _ a ho, hr], ?_⟩
    obtain ⟨k, hk1, hk2⟩ := find_findIdx (fun u => typeName u == typeName a) (· == typeName a) typeName (fun _ => rfl) _ _ hf
    refine ⟨k, toTy O₂ (structV V₂) u, ?_, ?_, X.described u (X.ok₂ u hu) (X.closed u hu), becomes_evolves X hb ho (X.ok₂ u hu) h1 (X.closed u hu)⟩
    · rw [X.S]; simp only [List.getElem?_map, ← X.F, hk2]; rfl
    · rw [X.tm, X.nm, nameTy_toTy O₁ _ a ho, X.S]
      simp only [id]
      rw [← hk1, X.F]
      congr 1
      rw [List.map_map]
      refine List.map_congr_left fun w hw => ?_
      rw [fieldV_eq, List.mem_filter] at hw
      exact nameTy_toTy O₂ _ w (X.ok₂ w hw.1)
  | _, .struct i ns as h, ho, h1 => by
    right
    obtain ⟨p, e1, -, -⟩ := struct_idx (O := O₁) X.nd₁ (h1 _ (.self _) rfl)
    rw [e1]
    refine ⟨rfl, ?_⟩
    simp only [Skips]
    refine skipsAll_of _ _ _ _ fun T hT => ?_
    obtain ⟨q, hq⟩ := List.getElem?_of_mem hT
    rw [toTys_get] at hq
    obtain ⟨a, ha, rfl⟩ := Option.map_eq_some_iff.1 hq
    have hma := List.mem_of_getElem? ha
    exact removable_skips X (h a hma) (okAll_mem ho.2 hma) (fun s hs hr => h1 s (arg_part ho hma hs hr) hr)
end

end

/-! ### The names of the types of all written fields are known -/

theorem part_args {s : CTy} {k : Kind} {args : List CTy} (hs : Part s (.node k args)) (h : isRefl s = true) (hk : isRefl (.node k args) = false) :
    ∃ a ∈ args, Part s a := by
  cases hs with
  | self => rw [hk] at h; cases h
  | arg hm _ hp => exact ⟨_, hm, hp⟩

/-- The field has a namesake in the tables of the reading program. -/
def Named (V₂ : List CTy) (a : CTy) : Prop := ∃ w ∈ V₂, isRefl w = false ∧ typeName w = typeName a

mutual
theorem becomes_known {V₂ : List CTy} {P : Prog} (hF : P.F = fieldV V₂) (hok : ∀ u ∈ V₂, Ok u)
    (hfld : ∀ i ns as, CTy.node (.refl i ns) as ∈ V₂ → ∀ a ∈ as, isRefl a = false → a ∈ V₂)
    (hcl : ∀ u ∈ V₂, ∀ s, Part s u → isRefl s = true → s ∈ V₂) : ∀ {t u : CTy}, Becomes P t u → Ok t → Ok u →
    (∀ s, Part s u → isRefl s = true → s ∈ V₂) →
    ∀ i ns as, Part (.node (.refl i ns) as) t → ∀ a ∈ as, isRefl a = false → Named V₂ a
  | _, _, .int k l n as bs h1 h2, ho, _, _, _, _, _, hp => by
    obtain ⟨a, ha, _⟩ := part_args hp rfl (by cases k <;> simp [intSize] at h1 <;> rfl)
    cases k <;> simp [intSize] at h1 <;> cases as <;> simp [Ok, okNode] at ho ha
  | _, _, .bool as _, ho, _, _, _, _, _, hp => by
    obtain ⟨a, ha, _⟩ := part_args hp rfl rfl
    cases as <;> simp [Ok, okNode] at ho ha
  | _, _, .flt _ as _, ho, _, _, _, _, _, hp => by
    obtain ⟨a, ha, _⟩ := part_args hp rfl rfl
    cases as <;> simp [Ok, okNode] at ho ha
  | _, _, .dec _ _ as _, ho, _, _, _, _, _, hp => by
    obtain ⟨a, ha, _⟩ := part_args hp rfl rfl
    cases as <;> simp [Ok, okNode] at ho ha
  | _, _, .enm _ _ _ _ _ as _ _, ho, _, _, _, _, _, hp => by
    obtain ⟨a, ha, _⟩ := part_args hp rfl rfl
    cases as <;> simp [Ok, okNode] at ho ha
  | _, _, .time _ _ _ _ as _, ho, _, _, _, _, _, hp => by
    obtain ⟨a, ha, _⟩ := part_args hp rfl rfl
    cases as <;> simp [Ok, okNode] at ho ha
  | _, _, .str _ as _, ho, _, _, _, _, _, hp => by
    obtain ⟨a, ha, _⟩ := part_args hp rfl rfl
    cases as <;> simp [Ok, okNode] at ho ha
  | _, _, .vec a b h, ho, ho', h2, i, ns, as, hp => by
    obtain ⟨c, hc, hq⟩ := part_args hp rfl rfl
    simp at hc; rw [hc] at hq
    exact becomes_known hF hok hfld hcl h ho.2.1 ho'.2.1 (fun s hs hr => h2 s (arg_part ho' (by simp) hs hr) hr) i ns as hq
  | _, _, .arr _ a b h, ho, ho', h2, i, ns, as, hp => by
    obtain ⟨c, hc, hq⟩ := part_args hp rfl rfl
    simp at hc; rw [hc] at hq
    exact becomes_known hF hok hfld hcl h ho.2.1 ho'.2.1 (fun s hs hr => h2 s (arg_part ho' (by simp) hs hr) hr) i ns as hq
  | _, _, .opt a b h, ho, ho', h2, i, ns, as, hp => by
    obtain ⟨c, hc, hq⟩ := part_args hp rfl rfl
    simp at hc; rw [hc] at hq
    exact becomes_known hF hok hfld hcl h ho.2.1 ho'.2.1 (fun s hs hr => h2 s (arg_part ho' (by simp) hs hr) hr) i ns as hq
  | _, _, .ptr _ _ a b h, ho, ho', h2, i, ns, as, hp => by
    obtain ⟨c, hc, hq⟩ := part_args hp rfl rfl
    simp at hc; rw [hc] at hq
    exact becomes_known hF hok hfld hcl h ho.2.1 ho'.2.1 (fun s hs hr => h2 s (arg_part ho' (by simp) hs hr) hr) i ns as hq
  | _, _, .atomic a b h, ho, ho', h2, i, ns, as, hp => by
    obtain ⟨c, hc, hq⟩ := part_args hp rfl rfl
    simp at hc; rw [hc] at hq
    exact becomes_known hF hok hfld hcl h ho.2.1 ho'.2.1 (fun s hs hr => h2 s (arg_part ho' (by simp) hs hr) hr) i ns as hq
  | _, _, .coll k l a b hk hl _ h, ho, ho', h2, i, ns, as, hp => by
    obtain ⟨c, hc, hq⟩ := part_args hp rfl (by cases k <;> simp [isColl] at hk <;> rfl)
    simp at hc; rw [hc] at hq
    exact becomes_known hF hok hfld hcl h ho.2.1 ho'.2.1 (fun s hs hr => h2 s (arg_part ho' (by simp) hs hr) hr) i ns as hq
  | _, _, .map k l a b a' b' hk hl h h', ho, ho', h2, i, ns, as, hp => by
    obtain ⟨c, hc, hq⟩ := part_args hp rfl (by cases k <;> simp [isMap] at hk <;> rfl)
    simp at hc
    rcases hc with hc | hc <;> rw [hc] at hq
    · exact becomes_known hF hok hfld hcl h ho.2.1 ho'.2.1 (fun s hs hr => h2 s (arg_part ho' (by simp) hs hr) hr) i ns as hq
    · exact becomes_known hF hok hfld hcl h' ho.2.2.1 ho'.2.2.1 (fun s hs hr => h2 s (arg_part ho' (by simp) hs hr) hr) i ns as hq
  | _, _, .pair _ _ h, ho, ho', h2, i, ns, as, hp => by
    obtain ⟨c, hc, hq⟩ := part_args hp rfl rfl
    exact all_known hF hok hfld hcl h ho.2 ho'.2 (fun a ha s hs hr => h2 s (arg_part ho' ha hs hr) hr) c hc i ns as hq
  | _, _, .var _ _ h, ho, ho', h2, i, ns, as, hp => by
    obtain ⟨c, hc, hq⟩ := part_args hp rfl rfl
    exact all_known hF hok hfld hcl h ho.2 ho'.2 (fun a ha s hs hr => h2 s (arg_part ho' ha hs hr) hr) c hc i ns as hq
  | _, _, .refl i' j ns' ms as' bs _ _ _ _ hkeep hrem _, ho, ho', h2, i, ns, as, hp => by
    have hl1 : ns'.length = as'.length := by simpa [okNode] using ho.1
    have hl2 : ms.length = bs.length := by simpa [okNode] using ho'.1
    have key : ∀ c ∈ as', (isRefl c = false → Named V₂ c) ∧ (∀ i ns as, Part (.node (.refl i ns) as) c → ∀ a ∈ as, isRefl a = false → Named V₂ a) := by
      intro c hc
      obtain ⟨k, hk⟩ := List.getElem?_of_mem hc
      have hlt : k < ns'.length := by rw [hl1]; exact (List.getElem?_eq_some_iff.1 hk).1
      have hn : ns'[k]? = some ns'[k] := List.getElem?_eq_getElem hlt
      have hoc := okAll_mem ho.2 hc
      by_cases hin : P.fm (.node (.refl j ms) bs) ns'[k] ∈ ms
      · obtain ⟨m, hm⟩ := List.getElem?_of_mem hin
        have hlt' : m < bs.length := by rw [← hl2]; exact (List.getElem?_eq_some_iff.1 hm).1
        have hb : bs[m]? = some bs[m] := List.getElem?_eq_getElem hlt'
        have hmb := List.mem_of_getElem? hb
        have hob := okAll_mem ho'.2 hmb
        have hB := hkeep k m _ c _ hn hk hm hb
        refine ⟨fun hr => ⟨bs[m], hfld j ms bs (h2 _ (.self _) rfl) _ hmb (by rw [← becomes_isRefl hB, hr]), by rw [← becomes_isRefl hB, hr], ?_⟩, ?_⟩
        · exact (c106_names_partial _ _ hob hoc).2 (becomes_shape hB).symm
        · exact becomes_known hF hok hfld hcl hB hoc hob (fun s hs hr => h2 s (arg_part ho' hmb hs hr) hr)
      · exact removable_known hF hok hfld hcl (hrem k _ c hn hk hin) hoc
    cases hp with
    | self => intro a ha hr; exact (key a ha).1 hr
    | arg hm _ hp => exact (key _ hm).2 i ns as hp
theorem all_known {V₂ : List CTy} {P : Prog} (hF : P.F = fieldV V₂) (hok : ∀ u ∈ V₂, Ok u)
    (hfld : ∀ i ns as, CTy.node (.refl i ns) as ∈ V₂ → ∀ a ∈ as, isRefl a = false → a ∈ V₂)
    (hcl : ∀ u ∈ V₂, ∀ s, Part s u → isRefl s = true → s ∈ V₂) : ∀ {ts us : List CTy}, BecomeAll P ts us → OkAll ts → OkAll us →
    (∀ u ∈ us, ∀ s, Part s u → isRefl s = true → s ∈ V₂) →
    ∀ c ∈ ts, ∀ i ns as, Part (.node (.refl i ns) as) c → ∀ a ∈ as, isRefl a = false → Named V₂ a
  | _, _, .nil, _, _, _ => by simp
  | _, _, .cons a b as bs h h', ho, ho', h2 => List.forall_mem_cons.2
    ⟨becomes_known hF hok hfld hcl h ho.1 ho'.1 (h2 b (by simp)), all_known hF hok hfld hcl h' ho.2 ho'.2 (fun a ha => h2 a (by simp [ha]))⟩
theorem removable_known {V₂ : List CTy} {P : Prog} (hF : P.F = fieldV V₂) (hok : ∀ u ∈ V₂, Ok u)
    (hfld : ∀ i ns as, CTy.node (.refl i ns) as ∈ V₂ → ∀ a ∈ as, isRefl a = false → a ∈ V₂)
    (hcl : ∀ u ∈ V₂, ∀ s, Part s u → isRefl s = true → s ∈ V₂) : ∀ {c : CTy}, Removable P c → Ok c →
    (isRefl c = false → Named V₂ c) ∧ (∀ i ns as, Part (.node (.refl i ns) as) c → ∀ a ∈ as, isRefl a = false → Named V₂ a)
  | _, .type c u hr hf hb, ho => by
    have hu : u ∈ V₂ ∧ isRefl u = false := by
      have := List.mem_of_find?_eq_some hf
      rw [hF, fieldV_eq, List.mem_filter] at this
      exact ⟨this.1, by simpa using this.2⟩
    exact ⟨fun _ => ⟨u, hu.1, hu.2, by simpa using List.find?_some hf⟩,
      becomes_known hF hok hfld hcl hb ho (hok u hu.1) (hcl u hu.1)⟩
  | _, .struct i ns as h, ho => by
    refine ⟨(fun hr => by simp [isRefl] at hr), ?_⟩
    intro i' ns' as' hp
    cases hp with
    | self => intro a ha hr; exact (removable_known hF hok hfld hcl (h a ha) (okAll_mem ho.2 ha)).1 hr
    | arg hm _ hp => exact (removable_known hF hok hfld hcl (h _ hm) (okAll_mem ho.2 hm)).2 i' ns' as' hp
end

/-! ### The conversion does not depend on the index of the written structure -/

mutual
theorem convert_src (ren : Nat → Name → Name) (O₁ O₂ : Orders) (A B : List CTy) : ∀ (t : CTy), Ok t → convert ren (toTy O₁ A t) = convert ren (toTy O₂ B t)
  | .node k args, ho => by
    have hn := ho.1
    funext v u o
    cases k
    case refl =>
      have := convert_srcs ren O₁ O₂ A B args ho.2
      simp only [toTy, ofKind]
      cases v <;> cases u <;> cases o <;> try (simp only [convert]; done)
      rename_i j _ _
      cases j <;> simp only [convert, this]
    case pair =>
      have := convert_srcs ren O₁ O₂ A B args ho.2
      simp only [toTy, ofKind]
      cases v <;> cases u <;> cases o <;> try (simp only [convert]; done)
      rename_i j _ _
      cases j <;> simp only [convert, this]
    case var =>
      have := convert_srcs ren O₁ O₂ A B args ho.2
      simp only [toTy, ofKind]
      cases v <;> cases u <;> simp only [convert, this]
    all_goals
      rcases args with _ | ⟨a, _ | ⟨b, _ | ⟨c, l⟩⟩⟩ <;> simp [okNode] at hn
      simp only [toTy, toTys, ofKind]
      try (have h1 := convert_src ren O₁ O₂ A B a ho.2.1)
      try (have h2 := convert_src ren O₁ O₂ A B b ho.2.2.1)
      try (exact congrFun (congrFun (congrFun h1 v) u) o)
      try (cases v <;> cases u <;> cases o <;> (try simp only [convert]) <;> (try simp only [h1]) <;> (try simp only [h2]))
theorem convert_srcs (ren : Nat → Name → Name) (O₁ O₂ : Orders) (A B : List CTy) : ∀ (ts : List CTy), OkAll ts →
    converts ren (toTys O₁ A ts) = converts ren (toTys O₂ B ts)
  | [], _ => rfl
  | t :: ts, ho => by
    simp only [toTys, converts, convert_src ren O₁ O₂ A B t ho.1, convert_srcs ren O₁ O₂ A B ts ho.2]
end

/-! ### Tables -/

theorem protoFields_type (F : List CTy) : ∀ (ns : List Name) (ts : List CTy) (p : Proto), protoFields F ns ts = some p → 
    (∀ f ∈ p, ∀ k, f.2 = some k → ∃ a ∈ ts, isRefl a = false ∧ F[k]? = some a) ∧ (∀ a ∈ ts, isRefl a = false → a ∈ F)
  | [], [], p, h => by simp [protoFields] at h; subst h; simp
  | [], _ :: _, p, h => by simp [protoFields] at h
  | _ :: _, [], p, h => by simp [protoFields] at h
  | n :: ns, t :: ts, p, h => by
    simp only [protoFields] at h
    cases h1 : fieldType F t with
    | none => simp [h1] at h
    | some k =>
      cases h2 : protoFields F ns ts with
      | none => simp [h1, h2] at h
      | some q =>
        simp [h1, h2] at h
        subst h
        obtain ⟨ih1, ih2⟩ := protoFields_type F ns ts q h2
        have h3 : ∀ (k' : Nat), k = some k' → isRefl t = false ∧ F[k']? = some t := by
          intro k' e
          simp only [fieldType] at h1
          split at h1
          · cases h1; cases e
          · next hr =>
            split at h1
            · next hf => cases h1; cases e; exact ⟨by simpa using hr, findType_get hf⟩
            · cases h1
        have h4 : isRefl t = false → t ∈ F := by
          intro hr
          simp only [fieldType, hr, Bool.false_eq_true, if_false] at h1
          split at h1
          · next hf => exact List.mem_of_getElem? (findType_get hf)
          · cases h1
        refine ⟨?_, ?_⟩
        · intro f hf k' e
          rcases List.mem_cons.1 hf with rfl | hf
          · exact ⟨t, by simp, h3 k' e⟩
          · obtain ⟨a, ha, h⟩ := ih1 f hf k' e
            exact ⟨a, by simp [ha], h⟩
        · intro a ha hr
          rcases List.mem_cons.1 ha with rfl | ha
          · exact h4 hr
          · exact ih2 a ha hr

theorem protosOf_mem (F : List CTy) : ∀ (l : List CTy) (ps : List Proto), protosOf F l = some ps →
    (∀ p ∈ ps, ∃ s ∈ l, protoOf F s = some p) ∧ (∀ s ∈ l, ∃ p ∈ ps, protoOf F s = some p)
  | [], ps, h => by simp [protosOf] at h; subst h; simp
  | t :: ts, ps, h => by
    simp only [protosOf] at h
    cases h1 : protoOf F t with
    | none => simp [h1] at h
    | some p =>
      cases h2 : protosOf F ts with
      | none => simp [h1, h2] at h
      | some q =>
        simp [h1, h2] at h
        subst h
        obtain ⟨ih1, ih2⟩ := protosOf_mem F ts q h2
        refine ⟨?_, ?_⟩
        · intro r hr
          rcases List.mem_cons.1 hr with rfl | hr
          · exact ⟨t, by simp, h1⟩
          · obtain ⟨s, hs, h⟩ := ih1 r hr
            exact ⟨s, by simp [hs], h⟩
        · intro s hs
          rcases List.mem_cons.1 hs with rfl | hs
          · exact ⟨p, by simp, h1⟩
          · obtain ⟨r, hr, h⟩ := ih2 s hs
            exact ⟨r, by simp [hr], h⟩

theorem structs_short {cap : Nat} {V : List CTy} (hs : Small cap V) : (structV V).length ≤ 2 ^ 16 := by
  have hT := length_filter_le' isRefl V
  rw [← structV_eq] at hT
  have := hs.types
  omega

theorem Tables.ctx {O : Orders} {env : Env} {V₁ V₂ : List CTy} {t : CTy} {S : Schema} {P : Prog} (h : Tables O env.cap V₂ t S) (hF : P.F = fieldV V₂) (hn : V₁.Nodup) :
    ∃ ps, protosOf (fieldV V₂) (structV V₂) = some ps ∧ Ctx O O V₁ V₂ P (cfgOf env S P.fm V₂ id P.del) ps := by
  obtain ⟨ps, hp, e⟩ := schemaOf_some h.schema
  exact ⟨ps, hp, ⟨e, rfl, rfl, rfl, rfl, hF, hn, h.nodup, h.oks, h.closed, fun u ho hV => c105_described_user O V₂ u S ho h.nodup hV h.schema (structs_short h.small)⟩⟩

theorem Tables.field {O : Orders} {cap : Nat} {V : List CTy} {t : CTy} {S : Schema} (h : Tables O cap V t S) (i : Nat) (ns : List Name) (as : List CTy)
    (hs : CTy.node (.refl i ns) as ∈ V) : ∀ a ∈ as, isRefl a = false → a ∈ V := by
  obtain ⟨ps, hp, _⟩ := schemaOf_some h.schema
  have hm : CTy.node (.refl i ns) as ∈ structV V := by rw [structV_eq, List.mem_filter]; exact ⟨hs, rfl⟩
  obtain ⟨p, _, hp'⟩ := (protosOf_mem _ _ _ hp).2 _ hm
  intro a ha hr
  have := (protoFields_type _ _ _ _ hp').2 a ha hr
  rw [fieldV_eq, List.mem_filter] at this
  exact this.1

theorem part_pair {s : CTy} (h : isRefl s = true) : isPair s = false := by
  obtain ⟨k, args⟩ := s
  cases k <;> simp_all [isRefl, isPair]

theorem tables_derived (O : Orders) (cap : Nat) (t : CTy) (S : Schema) (ho : Ok t) (hS : schemaOf O (variantOf noExtra t) = some S)
    (hs : Small cap (variantOf noExtra t)) : Tables O cap (variantOf noExtra t) t S := by
  refine ⟨ho, ?_, (c105_variant noExtra t).2, fun s hp hr => (c105_members t s ho).2 (.inl ⟨hp, part_pair hr⟩), ?_, hS, hs⟩
  · intro u hu
    rcases (c105_members t u ho).1 hu with ⟨h, _⟩ | ⟨rfl, _⟩
    · exact part_ok h ho
    · simp [int64, Ok, OkAll, okNode]
  · intro u hu s hp hr
    rcases (c105_members t u ho).1 hu with ⟨h, _⟩ | ⟨rfl, _⟩
    · exact (c105_members t s ho).2 (.inl ⟨part_trans hp h, part_pair hr⟩)
    · obtain ⟨a, ha, _⟩ := part_args hp hr rfl
      simp at ha

/-- The structures of the derived variant are parts of the type. -/
theorem derived_structs {t : CTy} (ho : Ok t) : ∀ s ∈ variantOf noExtra t, isRefl s = true → Part s t := by
  intro s hs hr
  rcases (c105_members t s ho).1 hs with ⟨h, _⟩ | ⟨rfl, _⟩
  · exact h
  · cases hr

theorem known_of {O : Orders} {env : Env} {V₁ V₂ : List CTy} {t₁ t₂ : CTy} {S₁ S₂ : Schema} {P : Prog} (h₁ : Tables O env.cap V₁ t₁ S₁)
    (hT : ∀ s ∈ V₁, isRefl s = true → Part s t₁)
    (h₂ : Tables O env.cap V₂ t₂ S₂) (hF : P.F = fieldV V₂) (hb : Becomes P t₁ t₂) : Known nameTy (cfgOf env S₂ P.fm V₂ id P.del) S₁ := by
  obtain ⟨ps₁, hp₁, rfl⟩ := schemaOf_some h₁.schema
  obtain ⟨ps₂, hp₂, rfl⟩ := schemaOf_some h₂.schema
  intro p hp f hf k hk t ht
  obtain ⟨s, hs, hps⟩ := (protosOf_mem _ _ _ hp₁).1 p hp
  obtain ⟨kk, as⟩ := s
  rw [structV_eq, List.mem_filter] at hs
  cases kk <;> simp [protoOf] at hps
  rename_i i ns
  obtain ⟨a, ha, hr, hk'⟩ := (protoFields_type _ _ _ _ hps).1 f hf k hk
  have hpart : Part (.node (.refl i ns) as) t₁ := hT _ hs.1 rfl
  obtain ⟨w, hw, hwr, hwn⟩ := becomes_known hF h₂.oks h₂.field h₂.closed hb h₁.ok h₂.ok h₂.has i ns as hpart a ha hr
  simp only [List.getElem?_map, hk', Option.map_some, Option.some.injEq] at ht
  subst ht
  have ho := okAll_mem (part_ok hpart h₁.ok).2 ha
  simp only [cfgOf, id, nameTy_toTy _ _ _ ho, List.map_map, List.mem_map, Function.comp]
  refine ⟨w, by rw [fieldV_eq, List.mem_filter]; simp [hw, hwr], by rw [nameTy_toTy _ _ _ (h₂.oks w hw), hwn]⟩

end Verif.Mp
