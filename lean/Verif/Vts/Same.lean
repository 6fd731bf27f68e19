import Verif.Vts.Meta

/-!
# Version tolerant serialization: equal versions, existence of the written bytes
-/

namespace Verif.Vts

open Verif.Serialize

/-! ### Writing succeeds -/

/-- A reader of the fields after the index of the structure. -/
def skipIndexHook : Hook Unit := fun info rds vs =>
  match info with
  | none => readFields rds vs
  | some _ => do
    let _ ← readRaw 2
    readFields rds vs

theorem skipIndexHook_ok : HookOk (fun _ : Unit => True) preV skipIndexHook := by
  intro info ws rds os vs bs h
  cases info with
  | none => exact h.read
  | some si => exact Exact.bind (Exact.readRaw (leBytes 2 si.idx) 2 (leBytes_length 2 si.idx)) h.read

theorem writeTy_ok (env : Env) (t : Ty) (v : Val) (hv : HasTy env t v) : ∃ bs, writeTy env preV t v = .ok bs := by
  obtain ⟨bs, e, _⟩ := readTy_exact env preV skipIndexHook skipIndexHook_ok t v (dflt t) hv (fresh_dflt t)
  exact ⟨bs, e⟩

/-! ### Lookup -/

theorem lookup_zip_some {β : Type} : ∀ (ks : List Name) (fs : List β) (k : Nat) (n : Name) (f : β), ks.Nodup →
    ks[k]? = some n → fs[k]? = some f → (ks.zip fs).lookup n = some f
  | [], fs, k, n, f, _, hk, _ => by simp at hk
  | a :: ks, [], k, n, f, _, _, hf => by simp at hf
  | a :: ks, x :: fs, 0, n, f, _, hk, hf => by
    simp only [List.getElem?_cons_zero, Option.some.injEq] at hk hf
    subst hk hf
    simp
  | a :: ks, x :: fs, k + 1, n, f, hn, hk, hf => by
    simp only [List.getElem?_cons_succ] at hk hf
    obtain ⟨h1, h2⟩ := List.nodup_cons.mp hn
    have : n ≠ a := by
      intro h
      subst h
      exact h1 (List.mem_of_getElem? hk)
    simp only [List.zip_cons_cons, List.lookup]
    rw [show (n == a) = false from by simpa using this]
    exact lookup_zip_some ks fs k n f h2 hk hf

theorem lookup_zip_none {β : Type} : ∀ (ks : List Name) (fs : List β) (n : Name), n ∉ ks →
    (ks.zip fs).lookup n = none
  | [], fs, n, _ => by simp
  | a :: ks, [], n, _ => by simp
  | a :: ks, x :: fs, n, h => by
    simp only [List.mem_cons, not_or] at h
    simp only [List.zip_cons_cons, List.lookup]
    rw [show (n == a) = false from by simpa using h.1]
    exact lookup_zip_none ks fs n h.2

theorem converts_len (ren : Nat → Name → Name) : ∀ ts : List Ty, (converts ren ts).length = ts.length
  | [] => rfl
  | _ :: ts => by simp [converts, converts_len ren ts]

theorem hasTys_get (env : Env) : ∀ (ts : List Ty) (vs : List Val) (k : Nat) (t : Ty) (v : Val), HasTys env ts vs →
    ts[k]? = some t → vs[k]? = some v → HasTy env t v
  | [], vs, k, t, v, _, ht, _ => by simp at ht
  | x :: ts, vs, k, t, v, h, ht, hv => by
    cases vs with
    | nil => simp [HasTys] at h
    | cons y vs =>
      simp only [HasTys] at h
      cases k with
      | zero =>
        simp only [List.getElem?_cons_zero, Option.some.injEq] at ht hv
        subst ht hv
        exact h.1
      | succ k => exact hasTys_get env ts vs k t v h.2 (by simpa using ht) (by simpa using hv)

theorem hasTys_length (env : Env) : ∀ (ts : List Ty) (vs : List Val), HasTys env ts vs → vs.length = ts.length
  | [], vs, h => by cases vs with
    | nil => rfl
    | cons _ _ => simp [HasTys] at h
  | t :: ts, vs, h => by
    cases vs with
    | nil => simp [HasTys] at h
    | cons v vs =>
      simp only [HasTys] at h
      simp [hasTys_length env ts vs h.2]

/-- What `convert` does to the fields of a structure. -/
theorem convertFields_spec (ren : Nat → Name → Name) (i j : SInfo) (ts us : List Ty) (vs os : List Val)
    (hj : j.names.length = us.length)
    (ho : os.length = us.length) (hn : (i.names.map (ren j.idx)).Nodup) :
    ∃ ws, convert ren (.struct (some i) ts) (.list vs) (.struct (some j) us) (.list os) = .list ws ∧
      ws.length = us.length ∧
      (∀ (k m : Nat) (n n' : Name) (t u : Ty) (v o : Val), i.names[k]? = some n → ts[k]? = some t → vs[k]? = some v →
        j.names[m]? = some n' → us[m]? = some u → os[m]? = some o → ren j.idx n = n' →
        ws[m]? = some (convert ren t v u o)) ∧
      (∀ (m : Nat) (n' : Name), j.names[m]? = some n' → n' ∉ i.names.map (ren j.idx) → ws[m]? = os[m]?) := by
  refine ⟨convertFields ((i.names.map (ren j.idx)).zip (List.zipWith (fun f v => f v) (converts ren ts) vs)) j.names us os,
    by simp only [convert], ?_, ?_, ?_⟩
  · rw [(convertFields_get _ j.names us os (by omega) (by omega)).1, hj]
  · intro k m n n' t u v o h1 h2 h3 h4 h5 h6 h7
    rw [(convertFields_get _ j.names us os (by omega) (by omega)).2 m n' u o h4 h5 h6]
    rw [lookup_zip_some _ _ k n' (fun u o => convert ren t v u o) hn (by simp [h1, h7])]
    rw [List.getElem?_zipWith, converts_get ren ts k t h2, h3]
  · intro m n' h1 h2
    have hm : m < j.names.length := (List.getElem?_eq_some_iff.mp h1).1
    have e5 : us[m]? = some us[m] := List.getElem?_eq_getElem (by omega)
    have e6 : os[m]? = some os[m] := List.getElem?_eq_getElem (by omega)
    rw [(convertFields_get _ j.names us os (by omega) (by omega)).2 m n' _ _ h1 e5 e6, lookup_zip_none _ _ n' h2, e6]

/-! ### Equal versions -/

theorem convertEach_same (f : Val → Val → Val) (d : Val) : ∀ (vs os : List Val), (∀ v ∈ vs, f v d = v) →
    (∀ v ∈ vs, ∀ o ∈ os, f v o = v) → convertEach f d vs os = vs
  | [], os, _, _ => by simp [convertEach]
  | v :: vs, [], h, h' => by
    simp only [convertEach, h v (by simp),
      convertEach_same f d vs [] (fun x hx => h x (by simp [hx])) (by simp)]
  | v :: vs, o :: os, h, h' => by
    simp only [convertEach, h' v (by simp) o (by simp),
      convertEach_same f d vs os (fun x hx => h x (by simp [hx])) (fun x hx y hy => h' x (by simp [hx]) y (by simp [hy]))]

theorem collAdd_valid (k : Coll) (key : Val → Val) : ∀ (vs acc : List Val), k.Valid key (acc ++ vs) → k ≠ .ring 0 →
    vs.foldl (collAdd k key) acc = acc ++ vs
  | [], acc, _, _ => by simp
  | x :: vs, acc, h, hk => by
    have h1 := collInsert_valid k key x acc vs h
    rw [collInsert_add k hk] at h1
    simp only [Res.ok.injEq] at h1
    rw [List.foldl_cons, h1, collAdd_valid k key vs (acc ++ [x]) (by simpa using h) hk]
    simp

theorem map_same (f : Val → Val) (vs : List Val) (h : ∀ v ∈ vs, f v = v) : vs.map f = vs := by
  conv_rhs => rw [← List.map_id vs]
  exact List.map_congr_left (by simpa using h)

mutual

theorem convert_refl (env : Env) (S : Schema) (ren : Nat → Name → Name) : ∀ (t : Ty) (v o : Val), WellFormed ren t →
    Described S t → HasTy env t v → Fresh t o → convert ren t v t o = v
  | .num _ _, v, o, _, _, _, _ => by simp [convert]
  | .bool, v, o, _, _, _, _ => by simp [convert]
  | .enm _ _, v, o, _, _, _, _ => by simp [convert]
  | .time _ _, v, o, _, _, _, _ => by simp [convert]
  | .str _, v, o, _, _, _, _ => by cases v <;> simp [convert]
  | .vec a, v, o, hw, hd, hv, hf => by
    cases v with
    | list vs =>
      cases o with
      | list os =>
        simp only [HasTy] at hv
        simp only [Fresh] at hf
        simp only [Described] at hd
        simp only [WellFormed] at hw
        simp only [convert, Val.list.injEq]
        exact convertEach_same _ _ vs os (fun v h => convert_refl env S ren a v _ hw hd (hv.2.2.2 v h) (fresh_dflt a))
          (fun v h o h' => convert_refl env S ren a v o hw hd (hv.2.2.2 v h) (hf o h'))
      | _ => simp [Fresh] at hf
    | _ => simp [HasTy] at hv
  | .arr n a, v, o, hw, hd, hv, hf => by
    cases v with
    | list vs =>
      cases o with
      | list os =>
        simp only [HasTy] at hv
        simp only [Fresh] at hf
        simp only [Described] at hd
        simp only [WellFormed] at hw
        simp only [convert, Val.list.injEq]
        exact convertEach_same _ _ vs os (fun v h => convert_refl env S ren a v _ hw hd (hv.2.2 v h) (fresh_dflt a))
          (fun v h o h' => convert_refl env S ren a v o hw hd (hv.2.2 v h) (hf.2 o h'))
      | _ => simp [Fresh] at hf
    | _ => simp [HasTy] at hv
  | .opt a _, v, o, hw, hd, hv, hf => by
    cases v with
    | none => simp [convert]
    | some x =>
      simp only [HasTy] at hv
      simp only [Described] at hd
      simp only [WellFormed] at hw
      simp only [convert, convert_refl env S ren a x _ hw hd hv (fresh_dflt a)]
    | _ => simp [HasTy] at hv
  | .coll k a, v, o, hw, hd, hv, hf => by
    cases v with
    | list vs =>
      simp only [HasTy] at hv
      simp only [Described] at hd
      simp only [WellFormed] at hw
      simp only [convert, Val.list.injEq]
      rw [map_same _ vs (fun v h => convert_refl env S ren a v _ hw.2 hd (hv.2.2 v h) (fresh_dflt a))]
      rw [collAdd_valid k id vs [] (by simpa using hv.2.1) hw.1]
      simp
    | _ => simp [HasTy] at hv
  | .map k a b, v, o, hw, hd, hv, hf => by
    cases v with
    | list vs =>
      simp only [HasTy] at hv
      simp only [Described] at hd
      simp only [WellFormed] at hw
      simp only [convert, Val.list.injEq]
      rw [map_same _ vs]
      · rw [collAdd_valid k fstVal vs [] (by simpa using hv.2.1) hw.1]
        simp
      · intro v h
        obtain ⟨x, y, rfl, h1, h2⟩ := hv.2.2 v h
        simp only [convertPair, convert_refl env S ren a x _ hw.2.1 hd.1 h1 (fresh_dflt a),
          convert_refl env S ren b y _ hw.2.2 hd.2 h2 (fresh_dflt b)]
    | _ => simp [HasTy] at hv
  | .var ts, v, o, hw, hd, hv, hf => by
    cases v with
    | alt i x =>
      simp only [HasTy] at hv
      simp only [Described] at hd
      simp only [WellFormed] at hw
      simp only [convert]
      cases h : ts[i]? with
      | none =>
        cases h' : (converts ren ts)[i]? <;> rfl
      | some t =>
        simp only [converts_get ren ts i t h]
        rw [convert_refls env S ren ts i t x _ hw hd h (hasTyAt_get env ts i x t hv.2 h) (fresh_dflt t)]
    | _ => simp [HasTy] at hv
  | .struct none ts, v, o, hw, hd, hv, hf => by
    cases v with
    | list vs =>
      cases o with
      | list os =>
        simp only [HasTy] at hv
        simp only [Fresh] at hf
        simp only [Described] at hd
        simp only [WellFormed] at hw
        simp only [convert, Val.list.injEq]
        exact convert_refl_all env S ren ts vs os hw hd hv hf
      | _ => simp [Fresh] at hf
    | _ => simp [HasTy] at hv
  | .struct (some i) ts, v, o, hw, hd, hv, hf => by
    cases v with
    | list vs =>
      cases o with
      | list os =>
        simp only [HasTy] at hv
        simp only [Fresh] at hf
        simp only [Described] at hd
        simp only [WellFormed] at hw
        obtain ⟨hi, ⟨p, hp1, hp2, hp3⟩, hD⟩ := hd
        have hl : i.names.length = ts.length := by
          rw [← hp2, List.length_map]
          exact describes_length S p ts hp3
        have hlv := hasTys_length env ts vs hv
        have hlo := freshs_length ts os hf
        have hren : i.names.map (ren i.idx) = i.names := by
          conv_rhs => rw [← List.map_id i.names]
          exact List.map_congr_left (by simpa using hw.2.1)
        obtain ⟨ws, e, h1, h2, _⟩ := convertFields_spec ren i i ts ts vs os hl hlo (by rw [hren]; exact hw.1)
        rw [e, Val.list.injEq]
        apply List.ext_getElem (by omega)
        intro k hk1 hk2
        have e1 : i.names[k]? = some i.names[k] := List.getElem?_eq_getElem (by omega)
        have e2 : ts[k]? = some ts[k] := List.getElem?_eq_getElem (by omega)
        have e3 : vs[k]? = some vs[k] := List.getElem?_eq_getElem (by omega)
        have e4 : os[k]? = some os[k] := List.getElem?_eq_getElem (by omega)
        have := h2 k k _ _ _ _ _ _ e1 e2 e3 e1 e2 e4 (hw.2.1 _ (List.getElem_mem _))
        rw [convert_refls env S ren ts k _ _ _ hw.2.2 hD e2 (hasTys_get env ts vs k _ _ hv e2 e3)
          (fresh_get ts os k _ _ hf e2 e4)] at this
        rw [List.getElem?_eq_getElem hk1, Option.some.injEq] at this
        exact this
      | _ => simp [Fresh] at hf
    | _ => simp [HasTy] at hv

theorem convert_refls (env : Env) (S : Schema) (ren : Nat → Name → Name) : ∀ (ts : List Ty) (k : Nat) (t : Ty) (v o : Val),
    WellFormedAll ren ts → DescribedAll S ts → ts[k]? = some t → HasTy env t v → Fresh t o → convert ren t v t o = v
  | [], k, t, v, o, _, _, ht, _, _ => by simp at ht
  | x :: ts, 0, t, v, o, hw, hd, ht, hv, hf => by
    simp only [List.getElem?_cons_zero, Option.some.injEq] at ht
    simp only [WellFormedAll] at hw
    simp only [DescribedAll] at hd
    rw [← ht] at hv hf ⊢
    exact convert_refl env S ren x v o hw.1 hd.1 hv hf
  | x :: ts, k + 1, t, v, o, hw, hd, ht, hv, hf => by
    simp only [WellFormedAll] at hw
    simp only [DescribedAll] at hd
    exact convert_refls env S ren ts k t v o hw.2 hd.2 (by simpa using ht) hv hf

theorem convert_refl_all (env : Env) (S : Schema) (ren : Nat → Name → Name) : ∀ (ts : List Ty) (vs os : List Val),
    WellFormedAll ren ts → DescribedAll S ts → HasTys env ts vs → Freshs ts os →
    convertAll (converts ren ts) vs ts os = vs
  | [], vs, os, _, _, hv, _ => by
    cases vs with
    | nil => simp [convertAll, converts]
    | cons _ _ => simp [HasTys] at hv
  | t :: ts, vs, os, hw, hd, hv, hf => by
    cases vs with
    | nil => simp [HasTys] at hv
    | cons v vs =>
      cases os with
      | nil => simp [Freshs] at hf
      | cons o os =>
        simp only [HasTys] at hv
        simp only [Freshs] at hf
        simp only [WellFormedAll] at hw
        simp only [DescribedAll] at hd
        simp only [converts, convertAll, convert_refl env S ren t v o hw.1 hd.1 hv.1 hf.1,
          convert_refl_all env S ren ts vs os hw.2 hd.2 hv.2 hf.2]

end

section

variable {g : Cfg}

theorem evolvesFields_of (nm₁ : Ty → Name) (φ : Nat → Nat) (rn : Name → Name) (newNames : List Name) (us : List Ty) :
    ∀ (ns : List Name) (ts : List Ty), ns.length = ts.length →
    (∀ (k : Nat) (n : Name) (t : Ty), ns[k]? = some n → ts[k]? = some t → ∃ (j : Nat) (u : Ty),
      newNames[j]? = some (rn n) ∧ us[j]? = some u ∧
        isStruct t = isStruct u ∧ (isStruct u = false → g.tm (nm₁ t) = g.nm u) ∧ Evolves nm₁ g φ t u) →
    EvolvesFields nm₁ g φ rn newNames us ns ts
  | [], [], _, _ => by simp [EvolvesFields]
  | [], _ :: _, hl, _ => by simp at hl
  | _ :: _, [], hl, _ => by simp at hl
  | n :: ns, t :: ts, hl, h => by
    simp only [EvolvesFields]
    refine ⟨Or.inl (h 0 n t rfl rfl), evolvesFields_of nm₁ φ rn newNames us ns ts (by simpa using hl) ?_⟩
    intro k n' t' h1 h2
    exact h (k + 1) n' t' (by simpa using h1) (by simpa using h2)

mutual

theorem evolves_refl (htm : ∀ t ∈ g.S.fields, g.tm (g.nm t) = g.nm t) : ∀ (t : Ty), WellFormed g.ren t → Described g.S t → Evolves g.nm g id t t
  | .num _ _, _, _ => by simp [Evolves]
  | .bool, _, _ => by simp [Evolves]
  | .enm _ _, _, _ => by simp [Evolves]
  | .time _ _, _, _ => by simp [Evolves]
  | .str _, _, _ => by simp [Evolves]
  | .vec a, hw, hd => by
    simp only [Described] at hd
    simp only [WellFormed] at hw
    simp only [Evolves]
    exact evolves_refl htm a hw hd
  | .arr _ a, hw, hd => by
    simp only [Described] at hd
    simp only [WellFormed] at hw
    simp only [Evolves, true_and]
    exact evolves_refl htm a hw hd
  | .opt a _, hw, hd => by
    simp only [Described] at hd
    simp only [WellFormed] at hw
    simp only [Evolves]
    exact evolves_refl htm a hw hd
  | .coll k a, hw, hd => by
    simp only [Described] at hd
    simp only [WellFormed] at hw
    simp only [Evolves]
    exact ⟨hw.1, evolves_refl htm a hw.2 hd⟩
  | .map k a b, hw, hd => by
    simp only [Described] at hd
    simp only [WellFormed] at hw
    simp only [Evolves]
    exact ⟨hw.1, evolves_refl htm a hw.2.1 hd.1, evolves_refl htm b hw.2.2 hd.2⟩
  | .var ts, hw, hd => by
    simp only [Described] at hd
    simp only [WellFormed] at hw
    simp only [Evolves]
    exact evolves_refl_alts htm ts hw hd
  | .struct none ts, hw, hd => by
    simp only [Described] at hd
    simp only [WellFormed] at hw
    simp only [Evolves]
    exact evolves_refl_all htm ts hw hd
  | .struct (some i) ts, hw, hd => by
    simp only [Described] at hd
    simp only [WellFormed] at hw
    simp only [Evolves, id_eq, true_and]
    obtain ⟨hi, ⟨p, hp1, hp2, hp3⟩, hD⟩ := hd
    have hlp := describes_length g.S p ts hp3
    have hl : i.names.length = ts.length := by rw [← hp2, List.length_map, hlp]
    have hren : i.names.map (g.ren i.idx) = i.names := by
      conv_rhs => rw [← List.map_id i.names]
      exact List.map_congr_left (by simpa using hw.2.1)
    refine ⟨by by_cases h : i.names = [] <;> simp [h], hl, hl, by rw [hren]; exact hw.1, hw.1, ?_⟩
    refine evolvesFields_of g.nm id _ i.names ts i.names ts hl ?_
    intro k n t h1 h2
    refine ⟨k, t, ?_, h2, rfl, ?_, evolves_refls htm ts k t hw.2.2 hD h2⟩
    · rw [hw.2.1 n (List.mem_of_getElem? h1)]
      exact h1
    · intro hs
      have hk : k < p.length := by
        have := (List.getElem?_eq_some_iff.mp h2).1
        omega
      have := describes_get g.S p ts k _ t hp3 (List.getElem?_eq_getElem hk) h2
      cases hf : (p[k]).2 with
      | none => rw [hf] at this; simp only at this; rw [hs] at this; cases this
      | some x =>
        rw [hf] at this
        exact htm t (List.mem_of_getElem? this.2)

theorem evolves_refls (htm : ∀ t ∈ g.S.fields, g.tm (g.nm t) = g.nm t) : ∀ (ts : List Ty) (k : Nat) (t : Ty), WellFormedAll g.ren ts → DescribedAll g.S ts →
    ts[k]? = some t → Evolves g.nm g id t t
  | [], k, t, _, _, ht => by simp at ht
  | x :: ts, 0, t, hw, hd, ht => by
    simp only [List.getElem?_cons_zero, Option.some.injEq] at ht
    simp only [WellFormedAll] at hw
    simp only [DescribedAll] at hd
    rw [← ht]
    exact evolves_refl htm x hw.1 hd.1
  | x :: ts, k + 1, t, hw, hd, ht => by
    simp only [WellFormedAll] at hw
    simp only [DescribedAll] at hd
    exact evolves_refls htm ts k t hw.2 hd.2 (by simpa using ht)

theorem evolves_refl_all (htm : ∀ t ∈ g.S.fields, g.tm (g.nm t) = g.nm t) : ∀ (ts : List Ty), WellFormedAll g.ren ts → DescribedAll g.S ts →
    EvolvesAll g.nm g id ts ts
  | [], _, _ => by simp [EvolvesAll]
  | t :: ts, hw, hd => by
    simp only [WellFormedAll] at hw
    simp only [DescribedAll] at hd
    simp only [EvolvesAll]
    exact ⟨evolves_refl htm t hw.1 hd.1, evolves_refl_all htm ts hw.2 hd.2⟩

theorem evolves_refl_alts (htm : ∀ t ∈ g.S.fields, g.tm (g.nm t) = g.nm t) : ∀ (ts : List Ty), WellFormedAll g.ren ts → DescribedAll g.S ts →
    EvolvesAlts g.nm g id ts ts
  | [], _, _ => by simp [EvolvesAlts]
  | t :: ts, hw, hd => by
    simp only [WellFormedAll] at hw
    simp only [DescribedAll] at hd
    simp only [EvolvesAlts]
    exact ⟨evolves_refl htm t hw.1 hd.1, evolves_refl_alts htm ts hw.2 hd.2⟩

end

end

end Verif.Vts
