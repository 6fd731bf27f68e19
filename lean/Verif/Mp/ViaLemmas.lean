import Verif.Mp.ViaSpec
import Verif.Mp.BackLemmas
import Mathlib.Data.List.Nodup

/-! # Updating over a version in between: lemmas -/

namespace Verif.Mp

open Verif Verif.Serialize Verif.Vts

/-- What is converted over the second type is what is converted at once, if the two objects read into agree. -/
def ViaTy (env : Env) (ren ren' : Nat → Name → Name) (t u w : Ty) : Prop :=
  ∀ v o o', HasTy env t v → Fresh u o → Fresh w o' → convert ren' u o w o' = o' →
    convert ren' u (convert ren t v u o) w o' = convert ren' t v w o'

/-- New objects agree. -/
def NewTy (ren : Nat → Name → Name) (u w : Ty) : Prop := convert ren u (dflt u) w (dflt w) = dflt w

section

variable {env : Env} {ren ren' : Nat → Name → Name}

theorem each_nil (f : Val → Val → Val) (d : Val) (os : List Val) : convertEach f d [] os = [] := by cases os <;> rfl

theorem via_each {a b c : Ty} (h : ViaTy env ren ren' a b c) (hd : NewTy ren' b c) : ∀ (vs os os' : List Val), (∀ v ∈ vs, HasTy env a v) → (∀ o ∈ os, Fresh b o) →
    (∀ o ∈ os', Fresh c o) → convertEach (fun v o => convert ren' b v c o) (dflt c) os os' = os' →
    convertEach (fun v o => convert ren' b v c o) (dflt c) (convertEach (fun v o => convert ren a v b o) (dflt b) vs os) os' =
      convertEach (fun v o => convert ren' a v c o) (dflt c) vs os'
  | [], os, os', _, _, _, _ => by rw [each_nil, each_nil, each_nil]
  | v :: vs, [], os', hv, ho, ho', he => by
    rw [each_nil] at he
    subst he
    simp only [convertEach, List.cons.injEq]
    exact ⟨h v _ _ (hv v (by simp)) (fresh_dflt b) (fresh_dflt c) hd, via_each h hd vs [] [] (fun x hx => hv x (by simp [hx])) ho ho' (each_nil _ _ _)⟩
  | v :: vs, o :: os, [], hv, ho, ho', he => by simp [convertEach] at he
  | v :: vs, o :: os, o' :: os', hv, ho, ho', he => by
    simp only [convertEach, List.cons.injEq] at he ⊢
    exact ⟨h v o o' (hv v (by simp)) (ho o (by simp)) (ho' o' (by simp)) he.1,
      via_each h hd vs os os' (fun x hx => hv x (by simp [hx])) (fun x hx => ho x (by simp [hx])) (fun x hx => ho' x (by simp [hx])) he.2⟩

theorem via_vec {a b c : Ty} (h : ViaTy env ren ren' a b c) (hd : NewTy ren' b c) : ViaTy env ren ren' (.vec a) (.vec b) (.vec c) := by
  intro v o o' hv hf hf' he
  cases v with
  | list vs =>
    cases o with
    | list os =>
      cases o' with
      | list os' =>
        simp only [HasTy] at hv
        simp only [Fresh] at hf hf'
        simp only [convert, Val.list.injEq] at he ⊢
        exact via_each h hd vs os os' hv.2.2.2 hf hf' he
      | _ => simp [Fresh] at hf'
    | _ => simp [Fresh] at hf
  | _ => simp [HasTy] at hv

theorem via_arr {n m k : Nat} {a b c : Ty} (h : ViaTy env ren ren' a b c) (hd : NewTy ren' b c) : ViaTy env ren ren' (.arr n a) (.arr m b) (.arr k c) := by
  intro v o o' hv hf hf' he
  cases v with
  | list vs =>
    cases o with
    | list os =>
      cases o' with
      | list os' =>
        simp only [HasTy] at hv
        simp only [Fresh] at hf hf'
        simp only [convert, Val.list.injEq] at he ⊢
        exact via_each h hd vs os os' hv.2.2 hf.2 hf'.2 he
      | _ => simp [Fresh] at hf'
    | _ => simp [Fresh] at hf
  | _ => simp [HasTy] at hv

theorem via_opt {s s' s'' : Bool} {a b c : Ty} (h : ViaTy env ren ren' a b c) (hd : NewTy ren' b c) : ViaTy env ren ren' (.opt a s) (.opt b s') (.opt c s'') := by
  intro v o o' hv hf hf' he
  cases v with
  | none => simp [convert]
  | some x =>
    simp only [HasTy] at hv
    simp only [convert, Val.some.injEq]
    exact h x _ _ hv (fresh_dflt b) (fresh_dflt c) hd
  | _ => simp [HasTy] at hv

theorem via_seq {k : Coll} {a b c : Ty} (hk : k ≠ .ring 0) (hval : ∀ l l' : List Val, l.length = l'.length → k.Valid id l → k.Valid id l')
    (h : ViaTy env ren ren' a b c) (hd : NewTy ren' b c) : ViaTy env ren ren' (.coll k a) (.coll k b) (.coll k c) := by
  intro v o o' hv hf hf' he
  cases v with
  | list vs =>
    simp only [HasTy] at hv
    simp only [convert, Val.list.injEq]
    rw [collAdd_valid k id (vs.map fun v => convert ren a v b (dflt b)) [] (hval vs _ (by simp) hv.2.1) hk, List.nil_append, List.map_map]
    congr 1
    exact List.map_congr_left (fun v hm => h v _ _ (hv.2.2 v hm) (fresh_dflt b) (fresh_dflt c) hd)
  | _ => simp [HasTy] at hv

theorem via_set {k : Coll} {a b c : Ty} (hk : k ≠ .ring 0) (h : ∀ v, HasTy env a v → convert ren a v b (dflt b) = v)
    (h' : ∀ v, HasTy env a v → convert ren' b v c (dflt c) = v) (h'' : ∀ v, HasTy env a v → convert ren' a v c (dflt c) = v) :
    ViaTy env ren ren' (.coll k a) (.coll k b) (.coll k c) := by
  intro v o o' hv hf hf' he
  cases v with
  | list vs =>
    simp only [HasTy] at hv
    simp only [convert, Val.list.injEq]
    rw [map_same _ vs (fun v hm => h v (hv.2.2 v hm)), collAdd_valid k id vs [] hv.2.1 hk, List.nil_append,
      map_same _ vs (fun v hm => h' v (hv.2.2 v hm)), map_same _ vs (fun v hm => h'' v (hv.2.2 v hm))]
  | _ => simp [HasTy] at hv

theorem via_map {k : Coll} {a a' a'' b b' b'' : Ty} (hk : k ≠ .ring 0) (h : ∀ v, HasTy env a v → convert ren a v a' (dflt a') = v)
    (h' : ∀ v, HasTy env a v → convert ren' a' v a'' (dflt a'') = v) (h'' : ∀ v, HasTy env a v → convert ren' a v a'' (dflt a'') = v)
    (hb : ViaTy env ren ren' b b' b'') (hd : NewTy ren' b' b'') : ViaTy env ren ren' (.map k a b) (.map k a' b') (.map k a'' b'') := by
  intro v o o' hv hf hf' he
  cases v with
  | list vs =>
    simp only [HasTy] at hv
    simp only [convert, Val.list.injEq]
    rw [collAdd_valid k fstVal (vs.map _) [] ?_ hk, List.nil_append, List.map_map]
    · congr 1
      refine List.map_congr_left (fun v hm => ?_)
      obtain ⟨x, y, rfl, h1, h2⟩ := hv.2.2 v hm
      simp only [Function.comp, convertPair, h x h1, h' x h1, h'' x h1, hb y _ _ h2 (fresh_dflt b') (fresh_dflt b'') hd]
    · rw [List.nil_append]
      refine valid_keys k _ vs ?_ hv.2.1
      intro v hm
      obtain ⟨x, y, rfl, h1, h2⟩ := hv.2.2 v hm
      simp only [convertPair, h x h1, fstVal]
  | _ => simp [HasTy] at hv

theorem via_var {ts us ws : List Ty} (hl : ts.length = us.length) (hl' : us.length = ws.length)
    (h : ∀ (i : Nat) (t u w : Ty), ts[i]? = some t → us[i]? = some u → ws[i]? = some w → ViaTy env ren ren' t u w ∧ NewTy ren' u w) :
    ViaTy env ren ren' (.var ts) (.var us) (.var ws) := by
  intro v o o' hv hf hf' he
  cases v with
  | alt i x =>
    simp only [HasTy] at hv
    simp only [convert]
    by_cases hi : i < ts.length
    · have e1 : ts[i]? = some ts[i] := List.getElem?_eq_getElem hi
      have e2 : us[i]? = some (us[i]'(by omega)) := List.getElem?_eq_getElem (by omega)
      have e3 : ws[i]? = some (ws[i]'(by omega)) := List.getElem?_eq_getElem (by omega)
      simp only [converts_get ren ts i _ e1, converts_get ren' ts i _ e1, e2, e3, convert, converts_get ren' us i _ e2]
      obtain ⟨h1, h2⟩ := h i _ _ _ e1 e2 e3
      rw [h1 x _ _ (hasTyAt_get env ts i x _ hv.2 e1) (fresh_dflt _) (fresh_dflt _) h2]
    · have e1 : ws[i]? = none := List.getElem?_eq_none (by omega)
      have e2 : us[i]? = none := List.getElem?_eq_none (by omega)
      have e3 : (converts ren ts)[i]? = none := List.getElem?_eq_none (by rw [converts_len]; omega)
      have e4 : (converts ren' us)[i]? = none := List.getElem?_eq_none (by rw [converts_len]; omega)
      have e5 : (converts ren' ts)[i]? = none := List.getElem?_eq_none (by rw [converts_len]; omega)
      simp only [e3, e2, convert, e4, e1, e5]
  | _ => simp [HasTy] at hv

/-- One by one. -/
inductive All3 (R : Ty → Ty → Ty → Prop) : List Ty → List Ty → List Ty → Prop
  | nil : All3 R [] [] []
  | cons {a b c as bs cs} : R a b c → All3 R as bs cs → All3 R (a :: as) (b :: bs) (c :: cs)

theorem All3.get {R : Ty → Ty → Ty → Prop} {as bs cs : List Ty} (h : All3 R as bs cs) : as.length = bs.length ∧ bs.length = cs.length ∧
    ∀ (i : Nat) (a b c : Ty), as[i]? = some a → bs[i]? = some b → cs[i]? = some c → R a b c := by
  induction h with
  | nil => exact ⟨rfl, rfl, fun i a b c h => by simp at h⟩
  | cons h _ ih =>
    refine ⟨by simp [ih.1], by simp [ih.2.1], ?_⟩
    intro i a b c h1 h2 h3
    cases i with
    | zero => simp at h1 h2 h3; subst h1 h2 h3; exact h
    | succ i => simp at h1 h2 h3; exact ih.2.2 i a b c h1 h2 h3

theorem via_all : ∀ (ts us ws : List Ty), All3 (ViaTy env ren ren') ts us ws → ∀ (vs os os' : List Val), HasTys env ts vs → Freshs us os → Freshs ws os' →
    convertAll (converts ren' us) os ws os' = os' →
    convertAll (converts ren' us) (convertAll (converts ren ts) vs us os) ws os' = convertAll (converts ren' ts) vs ws os'
  | _, _, _, .nil, vs, os, os', hv, hf, hf', _ => by simp [convertAll, converts]
  | _, _, _, .cons (a := t) (b := u) (c := w) (as := ts) (bs := us) (cs := ws) h hs, vs, os, os', hv, hf, hf', he => by
    cases vs with
    | nil => simp [HasTys] at hv
    | cons v vs =>
      cases os with
      | nil => simp [Freshs] at hf
      | cons o os =>
        cases os' with
        | nil => simp [Freshs] at hf'
        | cons o' os' =>
          simp only [HasTys] at hv
          simp only [Freshs] at hf hf'
          simp only [converts, convertAll, List.cons.injEq] at he ⊢
          exact ⟨h v o o' hv.1 hf.1 hf'.1 he.1, via_all ts us ws hs vs os os' hv.2 hf.2 hf'.2 he.2⟩

theorem via_tuple {ts us ws : List Ty} (h : All3 (ViaTy env ren ren') ts us ws) : ViaTy env ren ren' (.struct none ts) (.struct none us) (.struct none ws) := by
  intro v o o' hv hf hf' he
  cases v with
  | list vs =>
    cases o with
    | list os =>
      cases o' with
      | list os' =>
        simp only [HasTy] at hv
        simp only [Fresh] at hf hf'
        simp only [convert, Val.list.injEq] at he ⊢
        exact via_all ts us ws h vs os os' hv hf hf' he
      | _ => simp [Fresh] at hf'
    | _ => simp [Fresh] at hf
  | _ => simp [HasTy] at hv

theorem via_struct {h i j : SInfo} {ts us ws : List Ty} (hh : h.names.length = ts.length) (hi : i.names.length = us.length) (hj : j.names.length = ws.length)
    (n1 : (h.names.map (ren i.idx)).Nodup) (n2 : (i.names.map (ren' j.idx)).Nodup) (n3 : (h.names.map (ren' j.idx)).Nodup)
    (k1 : ∀ l ∈ h.names, ren' j.idx l ∈ j.names → ren i.idx l ∈ i.names ∧ ren' j.idx (ren i.idx l) = ren' j.idx l)
    (k2 : ∀ l ∈ h.names, ren i.idx l ∈ i.names → ren' j.idx (ren i.idx l) ∈ j.names → ren' j.idx (ren i.idx l) = ren' j.idx l)
    (hr : ∀ (p q r : Nat) (l m : Name) (t u w : Ty), h.names[p]? = some l → ts[p]? = some t → i.names[q]? = some m → us[q]? = some u →
      ren i.idx l = m → j.names[r]? = some (ren' j.idx m) → ws[r]? = some w → ViaTy env ren ren' t u w) :
    ViaTy env ren ren' (.struct (some h) ts) (.struct (some i) us) (.struct (some j) ws) := by
  intro v o o' hv hf hf' he
  cases v with
  | list vs =>
    cases o with
    | list os =>
      cases o' with
      | list os' =>
        simp only [HasTy] at hv
        simp only [Fresh] at hf hf'
        have hlv := hasTys_length env ts vs hv
        have hlo := freshs_length us os hf
        have hlo' := freshs_length ws os' hf'
        obtain ⟨xs, ex, x1, x2, x3⟩ := convertFields_spec ren h i ts us vs os hi hlo n1
        obtain ⟨ys, ey, y1, y2, y3⟩ := convertFields_spec ren' i j us ws xs os' hj hlo' n2
        obtain ⟨zs, ez, z1, z2, z3⟩ := convertFields_spec ren' h j ts ws vs os' hj hlo' n3
        obtain ⟨as, ea, a1, a2, a3⟩ := convertFields_spec ren' i j us ws os os' hj hlo' n2
        rw [ea, Val.list.injEq] at he
        subst he
        rw [ex, ey, ez, Val.list.injEq]
        apply List.ext_getElem? 
        intro r
        by_cases hr' : r < ws.length
        case neg => rw [List.getElem?_eq_none (by omega), List.getElem?_eq_none (by omega)]
        have c1 : j.names[r]? = some (j.names[r]'(by omega)) := List.getElem?_eq_getElem (by omega)
        have c2 : ws[r]? = some ws[r] := List.getElem?_eq_getElem hr'
        have c3 : as[r]? = some (as[r]'(by omega)) := List.getElem?_eq_getElem (by omega)
        -- what the first version gives directly
        have direct : ∀ l ∈ h.names, ren' j.idx l = j.names[r]'(by omega) → ∃ q : Nat, i.names[q]? = some (ren i.idx l) ∧ ren' j.idx (ren i.idx l) = j.names[r]'(by omega) := by
          intro l hl e
          obtain ⟨g1, g2⟩ := k1 l hl (by rw [e]; exact List.getElem_mem _)
          obtain ⟨q, hq⟩ := List.getElem?_of_mem g1
          exact ⟨q, hq, g2.trans e⟩
        by_cases hm : (j.names[r]'(by omega)) ∈ i.names.map (ren' j.idx)
        · obtain ⟨m, hmi, em⟩ := List.mem_map.1 hm
          obtain ⟨q, hq⟩ := List.getElem?_of_mem hmi
          have hlq : q < i.names.length := (List.getElem?_eq_some_iff.1 hq).1
          have d2 : us[q]? = some (us[q]'(by omega)) := List.getElem?_eq_getElem (by omega)
          have d3 : os[q]? = some (os[q]'(by omega)) := List.getElem?_eq_getElem (by omega)
          have d4 : xs[q]? = some (xs[q]'(by omega)) := List.getElem?_eq_getElem (by omega)
          have fy := y2 q r _ _ _ _ _ _ hq d2 d4 c1 c2 c3 em
          have fa := a2 q r _ _ _ _ _ _ hq d2 d3 c1 c2 c3 em
          rw [c3, Option.some.injEq] at fa
          by_cases hl : m ∈ h.names.map (ren i.idx)
          · obtain ⟨l, hlm, el⟩ := List.mem_map.1 hl
            obtain ⟨p, hp⟩ := List.getElem?_of_mem hlm
            have hlp : p < h.names.length := (List.getElem?_eq_some_iff.1 hp).1
            have b2 : ts[p]? = some (ts[p]'(by omega)) := List.getElem?_eq_getElem (by omega)
            have b3 : vs[p]? = some (vs[p]'(by omega)) := List.getElem?_eq_getElem (by omega)
            have fx := x2 p q _ _ _ _ _ _ hp b2 b3 hq d2 d3 el
            have e3 : ren' j.idx l = j.names[r]'(by omega) := by
              have := k2 l hlm (by rw [el]; exact hmi) (by rw [el, em]; exact List.getElem_mem _)
              rw [← this, el, em]
            have fz := z2 p r _ _ _ _ _ _ hp b2 b3 c1 c2 c3 e3
            rw [d4, Option.some.injEq] at fx
            rw [fy, fz, fx]
            rw [hr p q r l m _ _ _ hp b2 hq d2 el (by rw [c1, em]) c2 _ _ _ (hasTys_get env ts vs p _ _ hv b2 b3)
              (fresh_get us os q _ _ hf d2 d3) (fresh_get ws as r _ _ hf' c2 c3) fa.symm]
          · have fx := x3 q m hq hl
            rw [d4, d3, Option.some.injEq] at fx
            rw [fy, fx, ← fa]
            rw [z3 r _ c1 ?_, c3]
            intro hz
            obtain ⟨l, hlm, el⟩ := List.mem_map.1 hz
            obtain ⟨q', hq', eq'⟩ := direct l hlm el
            have : ren i.idx l = m := by
              have hinj := List.inj_on_of_nodup_map n2 (List.mem_of_getElem? hq') hmi (eq'.trans em.symm)
              exact hinj
            exact hl (List.mem_map.2 ⟨l, hlm, this⟩)
        · rw [y3 r _ c1 hm, z3 r _ c1 ?_]
          intro hz
          obtain ⟨l, hlm, el⟩ := List.mem_map.1 hz
          obtain ⟨q', hq', eq'⟩ := direct l hlm el
          exact hm (List.mem_map.2 ⟨_, List.mem_of_getElem? hq', eq'⟩)
      | _ => simp [Fresh] at hf'
    | _ => simp [Fresh] at hf
  | _ => simp [HasTy] at hv

theorem via_leaf {t u w : Ty} (h : leafTy t = true) (h' : leafTy u = true) (h'' : leafTy w = true) : ViaTy env ren ren' t u w := by
  intro v o o' _ _ _ _
  cases t <;> simp [leafTy] at h <;> cases u <;> simp [leafTy] at h' <;> cases w <;> simp [leafTy] at h'' <;> simp [convert]

/-! ### New objects -/

theorem each_replicate (f : Val → Val → Val) (d d' : Val) (h : f d' d = d) : ∀ n, convertEach f d (List.replicate n d') (List.replicate n d) = List.replicate n d
  | 0 => rfl
  | n + 1 => by simp only [List.replicate_succ, convertEach, h, each_replicate f d d' h n]

theorem new_all (ren : Nat → Name → Name) : ∀ (ts us : List Ty), List.Forall₂ (NewTy ren) ts us → convertAll (converts ren ts) (dflt.dflts ts) us (dflt.dflts us) = dflt.dflts us
  | _, _, .nil => rfl
  | _, _, .cons (a := t) (b := u) (l₁ := ts) (l₂ := us) h hs => by
    have h' : convert ren t (dflt t) u (dflt u) = dflt u := h
    simp only [converts, dflt.dflts, convertAll, h', new_all ren ts us hs]

theorem dflts_len : ∀ ts : List Ty, (dflt.dflts ts).length = ts.length
  | [] => rfl
  | _ :: ts => by simp [dflt.dflts, dflts_len ts]

theorem new_struct {i j : SInfo} {us ws : List Ty} (hi : i.names.length = us.length) (hj : j.names.length = ws.length) (hn : (i.names.map (ren j.idx)).Nodup)
    (h : ∀ (q r : Nat) (m : Name) (u w : Ty), i.names[q]? = some m → us[q]? = some u → j.names[r]? = some (ren j.idx m) → ws[r]? = some w → NewTy ren u w) :
    NewTy ren (.struct (some i) us) (.struct (some j) ws) := by
  simp only [NewTy, dflt]
  obtain ⟨xs, ex, x1, x2, x3⟩ := convertFields_spec ren i j us ws (dflt.dflts us) (dflt.dflts ws) hj (dflts_len ws) hn
  rw [ex, Val.list.injEq]
  apply List.ext_getElem?
  intro r
  by_cases hr : r < ws.length
  case neg => rw [List.getElem?_eq_none (by omega), List.getElem?_eq_none (by rw [dflts_len]; omega)]
  have c1 : j.names[r]? = some (j.names[r]'(by omega)) := List.getElem?_eq_getElem (by omega)
  have c2 : ws[r]? = some ws[r] := List.getElem?_eq_getElem hr
  have c3 := dflts_get ws r _ c2
  by_cases hm : (j.names[r]'(by omega)) ∈ i.names.map (ren j.idx)
  · obtain ⟨m, hmi, em⟩ := List.mem_map.1 hm
    obtain ⟨q, hq⟩ := List.getElem?_of_mem hmi
    have hlq : q < i.names.length := (List.getElem?_eq_some_iff.1 hq).1
    have d2 : us[q]? = some (us[q]'(by omega)) := List.getElem?_eq_getElem (by omega)
    rw [x2 q r _ _ _ _ _ _ hq d2 (dflts_get us q _ d2) c1 c2 c3 em, c3]
    exact congrArg some (h q r m _ _ hq d2 (by rw [c1, em]) c2)
  · exact x3 r _ c1 hm

end

section

variable {O : Orders} {P : Prog} {V₁ V₂ : List CTy}

mutual
theorem becomes_new (hn₁ : V₁.Nodup) (hn₂ : V₂.Nodup) : ∀ {t u : CTy}, Becomes P t u → Ok t → Ok u →
    (∀ s, Part s t → isRefl s = true → s ∈ V₁) → (∀ s, Part s u → isRefl s = true → s ∈ V₂) →
    NewTy (renOf P.fm V₂) (toTy O (structV V₁) t) (toTy O (structV V₂) u)
  | _, _, .int k l n as bs h1 h2, _, _, _, _ => by
    cases k <;> simp [intSize] at h1 <;> cases l <;> simp [intSize] at h2 <;> simp [toTy, ofKind, NewTy, dflt, convert]
  | _, _, .bool as bs, _, _, _, _ => by simp [toTy, ofKind, NewTy, dflt, convert]
  | _, _, .flt n as bs, _, _, _, _ => by simp [toTy, ofKind, NewTy, dflt, convert]
  | _, _, .dec n e as bs, _, _, _, _ => by simp [toTy, ofKind, NewTy, dflt, convert]
  | _, _, .enm n c d i j as bs _, _, _, _, _ => by simp [toTy, ofKind, NewTy, dflt, convert]
  | _, _, .time p q i j as bs, _, _, _, _ => by simp [toTy, ofKind, NewTy, dflt, convert]
  | _, _, .str c as bs, _, _, _, _ => by simp [toTy, ofKind, NewTy, dflt, convert]
  | _, _, .vec a b h, _, _, _, _ => by simp [toTy, toTys, ofKind, NewTy, dflt, convert, convertEach]
  | _, _, .arr n a b h, ho, ho', h1, h2 => by
    have hb := becomes_new hn₁ hn₂ h ho.2.1 ho'.2.1 (fun s hs hr => h1 s (arg_part ho (by simp) hs hr) hr) (fun s hs hr => h2 s (arg_part ho' (by simp) hs hr) hr)
    simp only [toTy, toTys, ofKind, NewTy, dflt, convert, Val.list.injEq]
    exact each_replicate (fun v o => convert (renOf P.fm V₂) (toTy O (structV V₁) a) v (toTy O (structV V₂) b) o) _ _ hb n
  | _, _, .opt a b h, _, _, _, _ => by simp [toTy, toTys, ofKind, NewTy, dflt, convert]
  | _, _, .ptr _ _ a b h, _, _, _, _ => by simp [toTy, toTys, ofKind, NewTy, dflt, convert]
  | _, _, .atomic a b h, ho, ho', h1, h2 => by
    have hb := becomes_new hn₁ hn₂ h ho.2.1 ho'.2.1 (fun s hs hr => h1 s (arg_part ho (by simp) hs hr) hr) (fun s hs hr => h2 s (arg_part ho' (by simp) hs hr) hr)
    simp only [toTy, toTys, ofKind]; exact hb
  | _, _, .coll k l a b hk hl _ h, _, _, _, _ => by
    cases k <;> simp [isColl] at hk <;> cases l <;> simp [isColl] at hl <;> simp [toTy, toTys, ofKind, NewTy, dflt, convert]
  | _, _, .map k l a b a' b' hk hl _ _, _, _, _, _ => by
    cases k <;> simp [isMap] at hk <;> cases l <;> simp [isMap] at hl <;> simp [toTy, toTys, ofKind, NewTy, dflt, convert]
  | _, _, .pair as bs h, ho, ho', h1, h2 => by
    have hb := becomes_news hn₁ hn₂ h ho.2 ho'.2 (fun a ha s hs hr => h1 s (arg_part ho ha hs hr) hr) (fun a ha s hs hr => h2 s (arg_part ho' ha hs hr) hr)
    simp only [toTy, ofKind, NewTy, dflt, convert, Val.list.injEq]
    exact new_all _ _ _ hb
  | _, _, .var as bs h, ho, ho', h1, h2 => by
    have hb : List.Forall₂ (NewTy (renOf P.fm V₂)) (toTys O (structV V₁) as) (toTys O (structV V₂) bs) :=
      becomes_news hn₁ hn₂ h ho.2 ho'.2 (fun a ha s hs hr => h1 s (arg_part ho ha hs hr) hr) (fun a ha s hs hr => h2 s (arg_part ho' ha hs hr) hr)
    simp only [toTy, ofKind]
    generalize toTys O (structV V₁) as = ts at hb
    generalize toTys O (structV V₂) bs = us at hb
    cases hb with
    | nil => simp [NewTy, dflt, convert]
    | cons h hs =>
      have h' : convert _ _ _ _ _ = _ := h
      simp [NewTy, dflt, convert, converts, h']
  | _, _, .refl i j ns ms as bs _ _ hnd _ h _ _, ho, ho', h1, h2 => by
    obtain ⟨p, e1, e2, -⟩ := struct_idx (O := O) hn₁ (h1 _ (.self _) rfl)
    obtain ⟨q, e3, e4, -⟩ := struct_idx (O := O) hn₂ (h2 _ (.self _) rfl)
    have hr2 : renOf P.fm V₂ q = P.fm (.node (.refl j ms) bs) := by funext n; simp only [renOf, e4]
    have hl1 : ns.length = as.length := by simpa [okNode] using ho.1
    have hl2 : ms.length = bs.length := by simpa [okNode] using ho'.1
    rw [e1, e3]
    refine new_struct (by simpa [toTys_length] using hl1) (by simpa [toTys_length] using hl2) (by rw [hr2]; exact hnd) ?_
    intro k m n T U g1 g2 g3 g4
    rw [hr2] at g3
    rw [toTys_get] at g2 g4
    obtain ⟨a, ha, rfl⟩ := Option.map_eq_some_iff.1 g2
    obtain ⟨b, hb, rfl⟩ := Option.map_eq_some_iff.1 g4
    have hma := List.mem_of_getElem? ha
    have hmb := List.mem_of_getElem? hb
    exact becomes_new hn₁ hn₂ (h k m n a b g1 ha g3 hb) (okAll_mem ho.2 hma) (okAll_mem ho'.2 hmb)
      (fun s hs hr => h1 s (arg_part ho hma hs hr) hr) (fun s hs hr => h2 s (arg_part ho' hmb hs hr) hr)
theorem becomes_news (hn₁ : V₁.Nodup) (hn₂ : V₂.Nodup) : ∀ {ts us : List CTy}, BecomeAll P ts us → OkAll ts → OkAll us →
    (∀ a ∈ ts, ∀ s, Part s a → isRefl s = true → s ∈ V₁) → (∀ a ∈ us, ∀ s, Part s a → isRefl s = true → s ∈ V₂) →
    List.Forall₂ (NewTy (renOf P.fm V₂)) (toTys O (structV V₁) ts) (toTys O (structV V₂) us)
  | _, _, .nil, _, _, _, _ => .nil
  | _, _, .cons a b as bs h h', ho, ho', h1, h2 =>
    .cons (becomes_new hn₁ hn₂ h ho.1 ho'.1 (h1 a (by simp)) (h2 b (by simp)))
      (becomes_news hn₁ hn₂ h' ho.2 ho'.2 (fun a ha => h1 a (by simp [ha])) (fun a ha => h2 a (by simp [ha])))
end

theorem becomes_arg {k l : Kind} {a b : CTy} (h : Becomes P (.node k [a]) (.node l [b]))
    (hk : k = .vec ∨ (∃ n, k = .arr n) ∨ k = .opt ∨ (∃ s, k = .ptr s) ∨ k = .atomic ∨ isColl k = true) : Becomes P a b := by
  cases h with
  | int _ _ n _ _ h1 _ => cases k <;> simp [intSize, isColl] at h1 hk
  | vec _ _ h => exact h
  | arr _ _ _ h => exact h
  | opt _ _ h => exact h
  | ptr _ _ _ _ h => exact h
  | atomic _ _ h => exact h
  | coll _ _ _ _ _ _ _ h => exact h
  | pair _ _ h => simp [isColl] at hk
  | var _ _ h => simp [isColl] at hk
  | _ => simp [isColl] at hk

theorem becomes_mapped {k l : Kind} {a b a' b' : CTy} (h : Becomes P (.node k [a, b]) (.node l [a', b'])) (hk : isMap k = true) : Becomes P b b' := by
  cases h with
  | int _ _ n _ _ h1 _ => cases k <;> simp [intSize, isMap] at h1 hk
  | map _ _ _ _ _ _ _ _ _ h => exact h
  | _ => simp [isMap] at hk

theorem becomes_pair {as bs : List CTy} (h : Becomes P (.node .pair as) (.node .pair bs)) : BecomeAll P as bs := by
  cases h with
  | int _ _ n _ _ h1 _ => simp [intSize] at h1
  | pair _ _ h => exact h
  | coll _ _ _ _ hk => simp [isColl] at hk
  | map _ _ _ _ _ _ hk => simp [isMap] at hk

theorem becomes_var {as bs : List CTy} (h : Becomes P (.node .var as) (.node .var bs)) : BecomeAll P as bs := by
  cases h with
  | int _ _ n _ _ h1 _ => simp [intSize] at h1
  | var _ _ h => exact h
  | coll _ _ _ _ hk => simp [isColl] at hk
  | map _ _ _ _ _ _ hk => simp [isMap] at hk

theorem becomes_refl {i j : Nat} {ns ms : List Name} {as bs : List CTy} (h : Becomes P (.node (.refl i ns) as) (.node (.refl j ms) bs)) :
    ∀ (k m : Nat) (n : Name) (a b : CTy), ns[k]? = some n → as[k]? = some a → ms[m]? = some (P.fm (.node (.refl j ms) bs) n) → bs[m]? = some b → Becomes P a b := by
  cases h with
  | int _ _ n _ _ h1 _ => simp [intSize] at h1
  | refl _ _ _ _ _ _ _ _ _ _ h _ _ => exact h
  | coll _ _ _ _ hk => simp [isColl] at hk
  | map _ _ _ _ _ _ hk => simp [isMap] at hk

end

section

variable {O : Orders} {env : Env} {fm₂ : CTy → Name → Name} {P : Prog} {V₁ V₂ V₃ : List CTy} {S₂ S₃ : Schema}

mutual
theorem via_ty (X₂ : Side O V₂ S₂) (X₃ : Side O V₃ S₃) (hn₁ : V₁.Nodup) : ∀ {t u w : CTy}, Via fm₂ P.fm t u w → Becomes P u w → Ok t → Ok u → Ok w →
    (∀ s, Part s t → isRefl s = true → s ∈ V₁) → (∀ s, Part s u → isRefl s = true → s ∈ V₂) → (∀ s, Part s w → isRefl s = true → s ∈ V₃) →
    ViaTy env (renOf fm₂ V₂) (renOf P.fm V₃) (toTy O (structV V₁) t) (toTy O (structV V₂) u) (toTy O (structV V₃) w)
  | _, _, _, .leaf k l m as bs cs h1 h2 h3, _, _, _, _, _, _, _ => by
    simp only [toTy]
    exact via_leaf (leaf_ofKind h1 _ _ _) (leaf_ofKind h2 _ _ _) (leaf_ofKind h3 _ _ _)
  | _, _, _, .vec a b c h, hb, o1, o2, o3, p1, p2, p3 => by
    have hb' := becomes_arg hb (by simp)
    have hv := via_ty X₂ X₃ hn₁ h hb' o1.2.1 o2.2.1 o3.2.1 (fun s hs hr => p1 s (arg_part o1 (by simp) hs hr) hr) (fun s hs hr => p2 s (arg_part o2 (by simp) hs hr) hr)
      (fun s hs hr => p3 s (arg_part o3 (by simp) hs hr) hr)
    have hd := becomes_new (O := O) X₂.nodup X₃.nodup hb' o2.2.1 o3.2.1 (fun s hs hr => p2 s (arg_part o2 (by simp) hs hr) hr) (fun s hs hr => p3 s (arg_part o3 (by simp) hs hr) hr)
    simp only [toTy, toTys, ofKind]; exact via_vec hv hd
  | _, _, _, .arr n a b c h, hb, o1, o2, o3, p1, p2, p3 => by
    have hb' := becomes_arg hb (by simp)
    have hv := via_ty X₂ X₃ hn₁ h hb' o1.2.1 o2.2.1 o3.2.1 (fun s hs hr => p1 s (arg_part o1 (by simp) hs hr) hr) (fun s hs hr => p2 s (arg_part o2 (by simp) hs hr) hr)
      (fun s hs hr => p3 s (arg_part o3 (by simp) hs hr) hr)
    have hd := becomes_new (O := O) X₂.nodup X₃.nodup hb' o2.2.1 o3.2.1 (fun s hs hr => p2 s (arg_part o2 (by simp) hs hr) hr) (fun s hs hr => p3 s (arg_part o3 (by simp) hs hr) hr)
    simp only [toTy, toTys, ofKind]; exact via_arr hv hd
  | _, _, _, .opt a b c h, hb, o1, o2, o3, p1, p2, p3 => by
    have hb' := becomes_arg hb (by simp)
    have hv := via_ty X₂ X₃ hn₁ h hb' o1.2.1 o2.2.1 o3.2.1 (fun s hs hr => p1 s (arg_part o1 (by simp) hs hr) hr) (fun s hs hr => p2 s (arg_part o2 (by simp) hs hr) hr)
      (fun s hs hr => p3 s (arg_part o3 (by simp) hs hr) hr)
    have hd := becomes_new (O := O) X₂.nodup X₃.nodup hb' o2.2.1 o3.2.1 (fun s hs hr => p2 s (arg_part o2 (by simp) hs hr) hr) (fun s hs hr => p3 s (arg_part o3 (by simp) hs hr) hr)
    simp only [toTy, toTys, ofKind]; exact via_opt hv hd
  | _, _, _, .ptr s s' s'' a b c h, hb, o1, o2, o3, p1, p2, p3 => by
    have hb' := becomes_arg hb (by simp)
    have hv := via_ty X₂ X₃ hn₁ h hb' o1.2.1 o2.2.1 o3.2.1 (fun s hs hr => p1 s (arg_part o1 (by simp) hs hr) hr) (fun s hs hr => p2 s (arg_part o2 (by simp) hs hr) hr)
      (fun s hs hr => p3 s (arg_part o3 (by simp) hs hr) hr)
    have hd := becomes_new (O := O) X₂.nodup X₃.nodup hb' o2.2.1 o3.2.1 (fun s hs hr => p2 s (arg_part o2 (by simp) hs hr) hr) (fun s hs hr => p3 s (arg_part o3 (by simp) hs hr) hr)
    simp only [toTy, toTys, ofKind]; exact via_opt hv hd
  | _, _, _, .atomic a b c h, hb, o1, o2, o3, p1, p2, p3 => by
    have hb' := becomes_arg hb (by simp)
    have hv := via_ty X₂ X₃ hn₁ h hb' o1.2.1 o2.2.1 o3.2.1 (fun s hs hr => p1 s (arg_part o1 (by simp) hs hr) hr) (fun s hs hr => p2 s (arg_part o2 (by simp) hs hr) hr)
      (fun s hs hr => p3 s (arg_part o3 (by simp) hs hr) hr)
    simp only [toTy, toTys, ofKind]; exact hv
  | _, _, _, .seq k a b c hk h, hb, o1, o2, o3, p1, p2, p3 => by
    have hb' := becomes_arg hb (by cases k <;> simp [isSeq, isColl] at hk ⊢)
    have hv := via_ty X₂ X₃ hn₁ h hb' o1.2.1 o2.2.1 o3.2.1 (fun s hs hr => p1 s (arg_part o1 (by simp) hs hr) hr) (fun s hs hr => p2 s (arg_part o2 (by simp) hs hr) hr)
      (fun s hs hr => p3 s (arg_part o3 (by simp) hs hr) hr)
    have hd := becomes_new (O := O) X₂.nodup X₃.nodup hb' o2.2.1 o3.2.1 (fun s hs hr => p2 s (arg_part o2 (by simp) hs hr) hr) (fun s hs hr => p3 s (arg_part o3 (by simp) hs hr) hr)
    cases k <;> simp [isSeq] at hk
    · simp only [toTy, toTys, ofKind]; exact via_seq (by simp) (fun _ _ _ _ => trivial) hv hd
    · simp only [toTy, toTys, ofKind]
      refine via_seq (by simp; omega) (fun l l' e h => ?_) hv hd
      simp only [Coll.Valid] at h ⊢
      omega
  | _, _, _, .set k a hk hne hp hp', hb, o1, o2, o3, p1, p2, p3 => by
    have q2 : ∀ s, Part s a → isRefl s = true → s ∈ V₂ := fun s hs hr => p2 s (arg_part o2 (by simp) hs hr) hr
    have q3 : ∀ s, Part s a → isRefl s = true → s ∈ V₃ := fun s hs hr => p3 s (arg_part o3 (by simp) hs hr) hr
    have f1 := fun v (hv : HasTy env (toTy O (structV V₁) a) v) => same_convert (V₁ := V₁) X₂.nodup o1.2.1 q2 X₂.schema X₂.short hp v _ hv (fresh_dflt _)
    have f2 := fun v (hv : HasTy env (toTy O (structV V₁) a) v) => same_convert (V₁ := V₂) X₃.nodup o1.2.1 q3 X₃.schema X₃.short hp' v _
      ((value_iff O (structV V₂) env a o1.2.1 v).2 ((value_iff O _ env a o1.2.1 v).1 hv)) (fresh_dflt _)
    have f3 := fun v (hv : HasTy env (toTy O (structV V₁) a) v) => same_convert (V₁ := V₁) X₃.nodup o1.2.1 q3 X₃.schema X₃.short hp' v _ hv (fresh_dflt _)
    cases k <;> simp [isColl] at hk <;> simp only [toTy, toTys, ofKind] <;> refine via_set ?_ f1 f2 f3 <;> simp at hne ⊢
    exact hne
  | _, _, _, .map k a b b' b'' hk hp hp' h, hb, o1, o2, o3, p1, p2, p3 => by
    have hb' := becomes_mapped hb hk
    have hv := via_ty X₂ X₃ hn₁ h hb' o1.2.2.1 o2.2.2.1 o3.2.2.1 (fun s hs hr => p1 s (arg_part o1 (by simp) hs hr) hr) (fun s hs hr => p2 s (arg_part o2 (by simp) hs hr) hr)
      (fun s hs hr => p3 s (arg_part o3 (by simp) hs hr) hr)
    have hd := becomes_new (O := O) X₂.nodup X₃.nodup hb' o2.2.2.1 o3.2.2.1 (fun s hs hr => p2 s (arg_part o2 (by simp) hs hr) hr) (fun s hs hr => p3 s (arg_part o3 (by simp) hs hr) hr)
    have q2 : ∀ s, Part s a → isRefl s = true → s ∈ V₂ := fun s hs hr => p2 s (arg_part o2 (by simp) hs hr) hr
    have q3 : ∀ s, Part s a → isRefl s = true → s ∈ V₃ := fun s hs hr => p3 s (arg_part o3 (by simp) hs hr) hr
    have f1 := fun v (hv : HasTy env (toTy O (structV V₁) a) v) => same_convert (V₁ := V₁) X₂.nodup o1.2.1 q2 X₂.schema X₂.short hp v _ hv (fresh_dflt _)
    have f2 := fun v (hv : HasTy env (toTy O (structV V₁) a) v) => same_convert (V₁ := V₂) X₃.nodup o1.2.1 q3 X₃.schema X₃.short hp' v _
      ((value_iff O (structV V₂) env a o1.2.1 v).2 ((value_iff O _ env a o1.2.1 v).1 hv)) (fresh_dflt _)
    have f3 := fun v (hv : HasTy env (toTy O (structV V₁) a) v) => same_convert (V₁ := V₁) X₃.nodup o1.2.1 q3 X₃.schema X₃.short hp' v _ hv (fresh_dflt _)
    cases k <;> simp [isMap] at hk <;> simp only [toTy, toTys, ofKind] <;> exact via_map (by simp) f1 f2 f3 hv hd
  | _, _, _, .pair as bs cs h, hb, o1, o2, o3, p1, p2, p3 => by
    have hv := via_tys X₂ X₃ hn₁ h (becomes_pair hb) o1.2 o2.2 o3.2 (fun a ha s hs hr => p1 s (arg_part o1 ha hs hr) hr) (fun a ha s hs hr => p2 s (arg_part o2 ha hs hr) hr)
      (fun a ha s hs hr => p3 s (arg_part o3 ha hs hr) hr)
    simp only [toTy, ofKind]; exact via_tuple hv
  | _, _, _, .var as bs cs h, hb, o1, o2, o3, p1, p2, p3 => by
    have hv := via_tys X₂ X₃ hn₁ h (becomes_var hb) o1.2 o2.2 o3.2 (fun a ha s hs hr => p1 s (arg_part o1 ha hs hr) hr) (fun a ha s hs hr => p2 s (arg_part o2 ha hs hr) hr)
      (fun a ha s hs hr => p3 s (arg_part o3 ha hs hr) hr)
    have hd := becomes_news (O := O) X₂.nodup X₃.nodup (becomes_var hb) o2.2 o3.2 (fun a ha s hs hr => p2 s (arg_part o2 ha hs hr) hr)
      (fun a ha s hs hr => p3 s (arg_part o3 ha hs hr) hr)
    obtain ⟨g1, g2, g3⟩ := hv.get
    simp only [toTy, ofKind]
    refine via_var g1 g2 ?_
    intro i t u w ht hu hw
    refine ⟨g3 i t u w ht hu hw, ?_⟩
    obtain ⟨hi, rfl⟩ := List.getElem?_eq_some_iff.1 hu
    obtain ⟨hi', rfl⟩ := List.getElem?_eq_some_iff.1 hw
    exact hd.get hi hi'
  | _, _, _, .refl h i j ls ms ns as bs cs n1 n2 n3 k1 k2 hr, hb, o1, o2, o3, p1, p2, p3 => by
    obtain ⟨x, e1, e2, -⟩ := struct_idx (O := O) hn₁ (p1 _ (.self _) rfl)
    obtain ⟨y, e3, e4, -⟩ := struct_idx (O := O) X₂.nodup (p2 _ (.self _) rfl)
    obtain ⟨z, e5, e6, -⟩ := struct_idx (O := O) X₃.nodup (p3 _ (.self _) rfl)
    have hr2 : renOf fm₂ V₂ y = fm₂ (.node (.refl i ms) bs) := by funext n; simp only [renOf, e4]
    have hr3 : renOf P.fm V₃ z = P.fm (.node (.refl j ns) cs) := by funext n; simp only [renOf, e6]
    have hl1 : ls.length = as.length := by simpa [okNode] using o1.1
    have hl2 : ms.length = bs.length := by simpa [okNode] using o2.1
    have hl3 : ns.length = cs.length := by simpa [okNode] using o3.1
    rw [e1, e3, e5]
    refine via_struct (by simpa [toTys_length] using hl1) (by simpa [toTys_length] using hl2) (by simpa [toTys_length] using hl3) (by rw [hr2]; exact n1)
      (by rw [hr3]; exact n2) (by rw [hr3]; exact n3) (by rw [hr2, hr3]; exact k1) (by rw [hr2, hr3]; exact k2) ?_
    intro p q r l m T U W g1 g2 g3 g4 g5 g6 g7
    rw [hr2] at g5
    rw [hr3] at g6
    rw [toTys_get] at g2 g4 g7
    obtain ⟨a, ha, rfl⟩ := Option.map_eq_some_iff.1 g2
    obtain ⟨b, hb', rfl⟩ := Option.map_eq_some_iff.1 g4
    obtain ⟨c, hc, rfl⟩ := Option.map_eq_some_iff.1 g7
    have hma := List.mem_of_getElem? ha
    have hmb := List.mem_of_getElem? hb'
    have hmc := List.mem_of_getElem? hc
    exact via_ty X₂ X₃ hn₁ (hr p q r l m a b c g1 ha g3 hb' g5 g6 hc) (becomes_refl hb q r m b c g3 hb' g6 hc) (okAll_mem o1.2 hma) (okAll_mem o2.2 hmb) (okAll_mem o3.2 hmc)
      (fun s hs hr => p1 s (arg_part o1 hma hs hr) hr) (fun s hs hr => p2 s (arg_part o2 hmb hs hr) hr) (fun s hs hr => p3 s (arg_part o3 hmc hs hr) hr)
theorem via_tys (X₂ : Side O V₂ S₂) (X₃ : Side O V₃ S₃) (hn₁ : V₁.Nodup) : ∀ {ts us ws : List CTy}, ViaAll fm₂ P.fm ts us ws → BecomeAll P us ws → OkAll ts → OkAll us → OkAll ws →
    (∀ a ∈ ts, ∀ s, Part s a → isRefl s = true → s ∈ V₁) → (∀ a ∈ us, ∀ s, Part s a → isRefl s = true → s ∈ V₂) → (∀ a ∈ ws, ∀ s, Part s a → isRefl s = true → s ∈ V₃) →
    All3 (ViaTy env (renOf fm₂ V₂) (renOf P.fm V₃)) (toTys O (structV V₁) ts) (toTys O (structV V₂) us) (toTys O (structV V₃) ws)
  | _, _, _, .nil, _, _, _, _, _, _, _ => .nil
  | _, _, _, .cons a b c as bs cs h h', hb, o1, o2, o3, p1, p2, p3 => by
    cases hb with
    | cons _ _ _ _ hb hb' =>
      exact .cons (via_ty X₂ X₃ hn₁ h hb o1.1 o2.1 o3.1 (p1 a (by simp)) (p2 b (by simp)) (p3 c (by simp)))
        (via_tys X₂ X₃ hn₁ h' hb' o1.2 o2.2 o3.2 (fun a ha => p1 a (by simp [ha])) (fun a ha => p2 a (by simp [ha])) (fun a ha => p3 a (by simp [ha])))
end

end

end Verif.Mp
