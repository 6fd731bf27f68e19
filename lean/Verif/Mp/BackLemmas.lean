import Verif.Mp.BackSpec
import Verif.Mp.EvolutionLemmas
import Mathlib.Data.List.Forall2

/-! # Going to another version of a type and back: lemmas -/

namespace Verif.Mp

open Verif Verif.Serialize Verif.Vts

/-- Converting a value of the first type into the second type and back gives the value. -/
def BackTy (env : Env) (ren ren' : Nat → Name → Name) (t u : Ty) : Prop :=
  ∀ v o o', HasTy env t v → Fresh u o → Fresh t o' → convert ren' u (convert ren t v u o) t o' = v

section

variable {env : Env} {ren ren' : Nat → Name → Name}

theorem convertEach_back (f f' : Val → Val → Val) (d d' : Val) : ∀ (vs os os' : List Val),
    (∀ v ∈ vs, ∀ o, o = d ∨ o ∈ os → ∀ o', o' = d' ∨ o' ∈ os' → f' (f v o) o' = v) →
    convertEach f' d' (convertEach f d vs os) os' = vs
  | [], os, os', _ => by cases os <;> simp [convertEach]
  | v :: vs, [], [], h => by
    simp only [convertEach, h v (by simp) d (by simp) d' (by simp), List.cons.injEq, true_and]
    exact convertEach_back f f' d d' vs [] [] (fun x hx o ho o' ho' => h x (by simp [hx]) o ho o' ho')
  | v :: vs, [], p' :: os', h => by
    simp only [convertEach, h v (by simp) d (by simp) p' (by simp), List.cons.injEq, true_and]
    exact convertEach_back f f' d d' vs [] os' (fun x hx o ho o' ho' => h x (by simp [hx]) o ho o' (by rcases ho' with h | h <;> simp [h]))
  | v :: vs, p :: os, [], h => by
    simp only [convertEach, h v (by simp) p (by simp) d' (by simp), List.cons.injEq, true_and]
    exact convertEach_back f f' d d' vs os [] (fun x hx o ho o' ho' => h x (by simp [hx]) o (by rcases ho with h | h <;> simp [h]) o' ho')
  | v :: vs, p :: os, p' :: os', h => by
    simp only [convertEach, h v (by simp) p (by simp) p' (by simp), List.cons.injEq, true_and]
    exact convertEach_back f f' d d' vs os os'
      (fun x hx o ho o' ho' => h x (by simp [hx]) o (by rcases ho with h | h <;> simp [h]) o' (by rcases ho' with h | h <;> simp [h]))

theorem back_each {a b : Ty} (h : BackTy env ren ren' a b) (vs os os' : List Val) (hv : ∀ v ∈ vs, HasTy env a v) (ho : ∀ o ∈ os, Fresh b o)
    (ho' : ∀ o ∈ os', Fresh a o) :
    convertEach (fun v o => convert ren' b v a o) (dflt a) (convertEach (fun v o => convert ren a v b o) (dflt b) vs os) os' = vs := by
  refine convertEach_back _ _ _ _ vs os os' ?_
  intro v hm o hmo o' hmo'
  refine h v o o' (hv v hm) ?_ ?_
  · rcases hmo with rfl | hmo
    · exact fresh_dflt b
    · exact ho o hmo
  · rcases hmo' with rfl | hmo'
    · exact fresh_dflt a
    · exact ho' o' hmo'

theorem back_vec {a b : Ty} (h : BackTy env ren ren' a b) : BackTy env ren ren' (.vec a) (.vec b) := by
  intro v o o' hv hf hf'
  cases v with
  | list vs =>
    cases o with
    | list os =>
      cases o' with
      | list os' =>
        simp only [HasTy] at hv
        simp only [Fresh] at hf hf'
        simp only [convert, Val.list.injEq]
        exact back_each h vs os os' hv.2.2.2 hf hf'
      | _ => simp [Fresh] at hf'
    | _ => simp [Fresh] at hf
  | _ => simp [HasTy] at hv

theorem back_arr {n m : Nat} {a b : Ty} (h : BackTy env ren ren' a b) : BackTy env ren ren' (.arr n a) (.arr m b) := by
  intro v o o' hv hf hf'
  cases v with
  | list vs =>
    cases o with
    | list os =>
      cases o' with
      | list os' =>
        simp only [HasTy] at hv
        simp only [Fresh] at hf hf'
        simp only [convert, Val.list.injEq]
        exact back_each h vs os os' hv.2.2 hf.2 hf'.2
      | _ => simp [Fresh] at hf'
    | _ => simp [Fresh] at hf
  | _ => simp [HasTy] at hv

theorem back_opt {s s' : Bool} {a b : Ty} (h : BackTy env ren ren' a b) : BackTy env ren ren' (.opt a s) (.opt b s') := by
  intro v o o' hv hf hf'
  cases v with
  | none => simp [convert]
  | some x =>
    simp only [HasTy] at hv
    simp only [convert, Val.some.injEq]
    exact h x _ _ hv (fresh_dflt b) (fresh_dflt a)
  | _ => simp [HasTy] at hv

/-- The elements stay where they are. -/
theorem back_seq {k : Coll} {a b : Ty} (hk : k ≠ .ring 0) (hval : ∀ l l' : List Val, l.length = l'.length → k.Valid id l → k.Valid id l')
    (h : BackTy env ren ren' a b) : BackTy env ren ren' (.coll k a) (.coll k b) := by
  intro v o o' hv hf hf'
  cases v with
  | list vs =>
    simp only [HasTy] at hv
    simp only [convert, Val.list.injEq]
    have e : vs.map ((fun v => convert ren' b v a (dflt a)) ∘ fun v => convert ren a v b (dflt b)) = vs :=
      map_same _ vs (fun v hm => h v _ _ (hv.2.2 v hm) (fresh_dflt b) (fresh_dflt a))
    rw [collAdd_valid k id (vs.map fun v => convert ren a v b (dflt b)) [] (hval vs _ (by simp) hv.2.1) hk, List.nil_append, List.map_map, e, collAdd_valid k id vs [] hv.2.1 hk, List.nil_append]
  | _ => simp [HasTy] at hv

/-- The elements are the same. -/
theorem back_set {k : Coll} {a b : Ty} (hk : k ≠ .ring 0) (h : ∀ v, HasTy env a v → convert ren a v b (dflt b) = v)
    (h' : ∀ v, HasTy env a v → convert ren' b v a (dflt a) = v) : BackTy env ren ren' (.coll k a) (.coll k b) := by
  intro v o o' hv hf hf'
  cases v with
  | list vs =>
    simp only [HasTy] at hv
    simp only [convert, Val.list.injEq]
    rw [map_same _ vs (fun v hm => h v (hv.2.2 v hm)), collAdd_valid k id vs [] hv.2.1 hk, List.nil_append,
      map_same _ vs (fun v hm => h' v (hv.2.2 v hm)), collAdd_valid k id vs [] hv.2.1 hk, List.nil_append]
  | _ => simp [HasTy] at hv

theorem valid_keys (k : Coll) (g : Val → Val) : ∀ (l : List Val), (∀ x ∈ l, fstVal (g x) = fstVal x) → k.Valid fstVal l → k.Valid fstVal (l.map g) := by
  intro l h hv
  cases k with
  | deque => trivial
  | ring n => simpa [Coll.Valid] using hv
  | ordered lt =>
    simp only [Coll.Valid, List.pairwise_map] at hv ⊢
    exact hv.imp_of_mem (fun ha hb hr => by rw [h _ ha, h _ hb]; exact hr)
  | hashed eq =>
    simp only [Coll.Valid, List.pairwise_map] at hv ⊢
    exact hv.imp_of_mem (fun ha hb hr => by rw [h _ ha, h _ hb]; exact hr)

/-- The keys are the same. -/
theorem back_map {k : Coll} {a b a' b' : Ty} (hk : k ≠ .ring 0) (h : ∀ v, HasTy env a v → convert ren a v a' (dflt a') = v)
    (h' : ∀ v, HasTy env a v → convert ren' a' v a (dflt a) = v) (hb : BackTy env ren ren' b b') : BackTy env ren ren' (.map k a b) (.map k a' b') := by
  intro v o o' hv hf hf'
  cases v with
  | list vs =>
    simp only [HasTy] at hv
    simp only [convert, Val.list.injEq]
    rw [collAdd_valid k fstVal (vs.map _) [] ?_ hk, List.nil_append, List.map_map, map_same _ vs ?_, collAdd_valid k fstVal vs [] hv.2.1 hk, List.nil_append]
    · intro v hm
      obtain ⟨x, y, rfl, h1, h2⟩ := hv.2.2 v hm
      simp only [Function.comp, convertPair, h x h1, h' x h1, hb y _ _ h2 (fresh_dflt b') (fresh_dflt b)]
    · rw [List.nil_append]
      refine valid_keys k _ vs ?_ hv.2.1
      intro v hm
      obtain ⟨x, y, rfl, h1, h2⟩ := hv.2.2 v hm
      simp only [convertPair, h x h1, fstVal]
  | _ => simp [HasTy] at hv

theorem back_var {ts us : List Ty} (hl : ts.length = us.length) (h : ∀ (i : Nat) (t u : Ty), ts[i]? = some t → us[i]? = some u → BackTy env ren ren' t u) :
    BackTy env ren ren' (.var ts) (.var us) := by
  intro v o o' hv hf hf'
  cases v with
  | alt i x =>
    simp only [HasTy] at hv
    simp only [convert]
    by_cases hi : i < ts.length
    · have e1 : ts[i]? = some ts[i] := List.getElem?_eq_getElem hi
      have e2 : us[i]? = some (us[i]'(hl ▸ hi)) := List.getElem?_eq_getElem (hl ▸ hi)
      simp only [converts_get ren ts i _ e1, e2, convert, converts_get ren' us i _ e2, e1]
      rw [h i _ _ e1 e2 x _ _ (hasTyAt_get env ts i x _ hv.2 e1) (fresh_dflt _) (fresh_dflt _)]
    · have e1 : ts[i]? = none := List.getElem?_eq_none (by omega)
      have e2 : us[i]? = none := List.getElem?_eq_none (by omega)
      have e3 : (converts ren ts)[i]? = none := List.getElem?_eq_none (by rw [converts_len]; omega)
      have e4 : (converts ren' us)[i]? = none := List.getElem?_eq_none (by rw [converts_len]; omega)
      simp only [e3, e2, convert, e4, e1]
  | _ => simp [HasTy] at hv

theorem back_all : ∀ (ts us : List Ty), List.Forall₂ (BackTy env ren ren') ts us → ∀ (vs os os' : List Val), HasTys env ts vs → Freshs us os → Freshs ts os' →
    convertAll (converts ren' us) (convertAll (converts ren ts) vs us os) ts os' = vs
  | _, _, .nil, vs, os, os', hv, hf, hf' => by
    cases vs with
    | nil => simp [convertAll, converts]
    | cons _ _ => simp [HasTys] at hv
  | _, _, .cons (a := t) (b := u) (l₁ := ts) (l₂ := us) h hs, vs, os, os', hv, hf, hf' => by
    cases vs with
    | nil => simp [HasTys] at hv
    | cons v vs =>
      cases os with
      | nil => simp [Freshs] at hf
      | cons o os =>
        cases os' with
        | nil => simp [Freshs] at hf'
        | cons o' os' =>
          simp only [HasTys] at hv
          simp only [Freshs] at hf hf'
          simp only [converts, convertAll, h v o o' hv.1 hf.1 hf'.1, back_all ts us hs vs os os' hv.2 hf.2 hf'.2]

theorem back_tuple {ts us : List Ty} (h : List.Forall₂ (BackTy env ren ren') ts us) : BackTy env ren ren' (.struct none ts) (.struct none us) := by
  intro v o o' hv hf hf'
  cases v with
  | list vs =>
    cases o with
    | list os =>
      cases o' with
      | list os' =>
        simp only [HasTy] at hv
        simp only [Fresh] at hf hf'
        simp only [convert, Val.list.injEq]
        exact back_all ts us h vs os os' hv hf hf'
      | _ => simp [Fresh] at hf'
    | _ => simp [Fresh] at hf
  | _ => simp [HasTy] at hv

theorem back_struct {i j : SInfo} {ts us : List Ty} (hi : i.names.length = ts.length) (hj : j.names.length = us.length)
    (hn : (i.names.map (ren j.idx)).Nodup) (hm : (j.names.map (ren' i.idx)).Nodup)
    (hk : ∀ n ∈ i.names, ren j.idx n ∈ j.names ∧ ren' i.idx (ren j.idx n) = n)
    (h : ∀ (k m : Nat) (n : Name) (t u : Ty), i.names[k]? = some n → ts[k]? = some t → j.names[m]? = some (ren j.idx n) → us[m]? = some u → BackTy env ren ren' t u) :
    BackTy env ren ren' (.struct (some i) ts) (.struct (some j) us) := by
  intro v o o' hv hf hf'
  cases v with
  | list vs =>
    cases o with
    | list os =>
      cases o' with
      | list os' =>
        simp only [HasTy] at hv
        simp only [Fresh] at hf hf'
        have hlv := hasTys_length env ts vs hv
        have hlo := freshs_length us os hf
        have hlo' := freshs_length ts os' hf'
        obtain ⟨ws, e, l1, l2, _⟩ := convertFields_spec ren i j ts us vs os hj hlo hn
        obtain ⟨ws', e', l1', l2', _⟩ := convertFields_spec ren' j i us ts ws os' hi hlo' hm
        rw [e, e', Val.list.injEq]
        apply List.ext_getElem (by omega)
        intro k hk1 hk2
        have e1 : i.names[k]? = some i.names[k] := List.getElem?_eq_getElem (by omega)
        have e2 : ts[k]? = some ts[k] := List.getElem?_eq_getElem (by omega)
        have e3 : vs[k]? = some vs[k] := List.getElem?_eq_getElem (by omega)
        have e4 : os'[k]? = some os'[k] := List.getElem?_eq_getElem (by omega)
        obtain ⟨hin, hback⟩ := hk i.names[k] (List.getElem_mem _)
        obtain ⟨m, hm'⟩ := List.getElem?_of_mem hin
        have hlt : m < j.names.length := (List.getElem?_eq_some_iff.1 hm').1
        have e5 : us[m]? = some us[m] := List.getElem?_eq_getElem (by omega)
        have e6 : os[m]? = some os[m] := List.getElem?_eq_getElem (by omega)
        have f1 := l2 k m _ _ _ _ _ _ e1 e2 e3 hm' e5 e6 rfl
        have f2 := l2' m k _ _ _ _ _ _ hm' e5 f1 e1 e2 e4 hback
        rw [h k m _ _ _ e1 e2 hm' e5 _ _ _ (hasTys_get env ts vs k _ _ hv e2 e3) (fresh_get us os m _ _ hf e5 e6) (fresh_get ts os' k _ _ hf' e2 e4)] at f2
        rw [List.getElem?_eq_getElem hk1, Option.some.injEq] at f2
        exact f2
      | _ => simp [Fresh] at hf'
    | _ => simp [Fresh] at hf
  | _ => simp [HasTy] at hv

/-- Types without parts. -/
def leafTy : Ty → Bool
  | .num _ _ | .bool | .enm _ _ | .time _ _ | .str _ => true
  | _ => false

theorem back_leaf {t u : Ty} (h : leafTy t = true) (h' : leafTy u = true) : BackTy env ren ren' t u := by
  intro v o o' _ _ _
  cases t <;> simp [leafTy] at h <;> cases u <;> simp [leafTy] at h' <;> simp [convert]

end

theorem leaf_ofKind {k : Kind} (h : isLeaf k = true) (O : Orders) (i : Nat) (l : List Ty) : leafTy (ofKind O i k l) = true := by
  cases k <;> simp [isLeaf] at h <;> simp [ofKind, leafTy]

/-- The same type in two programs. -/
theorem same_convert {O : Orders} {env : Env} {fm : CTy → Name → Name} {V₁ V₂ : List CTy} {S : Schema} {a : CTy} (hn : V₂.Nodup) (ho : Ok a)
    (hV : ∀ s, Part s a → isRefl s = true → s ∈ V₂) (hS : schemaOf O V₂ = some S) (hl : (structV V₂).length ≤ 2 ^ 16) (hp : Proper fm a) (v o : Val)
    (hv : HasTy env (toTy O (structV V₁) a) v) (hf : Fresh (toTy O (structV V₂) a) o) :
    convert (renOf fm V₂) (toTy O (structV V₁) a) v (toTy O (structV V₂) a) o = v := by
  rw [convert_src (renOf fm V₂) O O (structV V₁) (structV V₂) a ho]
  exact convert_refl env S _ _ _ _ (wellFormed_of O fm V₂ hn a ho hV hp) (c105_described_user O V₂ a S ho hn hV hS hl)
    ((value_iff O _ env a ho v).2 ((value_iff O _ env a ho v).1 hv)) hf

/-- What is known about one of the programs. -/
structure Side (O : Orders) (V : List CTy) (S : Schema) : Prop where
  nodup : V.Nodup
  schema : schemaOf O V = some S
  short : (structV V).length ≤ 2 ^ 16

theorem Tables.side {O : Orders} {cap : Nat} {V : List CTy} {t : CTy} {S : Schema} (h : Tables O cap V t S) : Side O V S :=
  ⟨h.nodup, h.schema, structs_short h.small⟩

section

variable {O : Orders} {env : Env} {fm fm' : CTy → Name → Name} {V₁ V₂ : List CTy} {S₁ S₂ : Schema}

mutual
theorem keeps_back (X₁ : Side O V₁ S₁) (X₂ : Side O V₂ S₂) : ∀ {t u : CTy}, Keeps fm fm' t u → Ok t → Ok u →
    (∀ s, Part s t → isRefl s = true → s ∈ V₁) → (∀ s, Part s u → isRefl s = true → s ∈ V₂) →
    BackTy env (renOf fm V₂) (renOf fm' V₁) (toTy O (structV V₁) t) (toTy O (structV V₂) u)
  | _, _, .leaf k l as bs h1 h2, _, _, _, _ => by
    simp only [toTy]
    exact back_leaf (leaf_ofKind h1 _ _ _) (leaf_ofKind h2 _ _ _)
  | _, _, .vec a b h, ho, ho', h1, h2 => by
    have hb := keeps_back X₁ X₂ h ho.2.1 ho'.2.1 (fun s hs hr => h1 s (arg_part ho (by simp) hs hr) hr) (fun s hs hr => h2 s (arg_part ho' (by simp) hs hr) hr)
    simp only [toTy, toTys, ofKind]; exact back_vec hb
  | _, _, .arr n a b h, ho, ho', h1, h2 => by
    have hb := keeps_back X₁ X₂ h ho.2.1 ho'.2.1 (fun s hs hr => h1 s (arg_part ho (by simp) hs hr) hr) (fun s hs hr => h2 s (arg_part ho' (by simp) hs hr) hr)
    simp only [toTy, toTys, ofKind]; exact back_arr hb
  | _, _, .opt a b h, ho, ho', h1, h2 => by
    have hb := keeps_back X₁ X₂ h ho.2.1 ho'.2.1 (fun s hs hr => h1 s (arg_part ho (by simp) hs hr) hr) (fun s hs hr => h2 s (arg_part ho' (by simp) hs hr) hr)
    simp only [toTy, toTys, ofKind]; exact back_opt hb
  | _, _, .ptr _ _ a b h, ho, ho', h1, h2 => by
    have hb := keeps_back X₁ X₂ h ho.2.1 ho'.2.1 (fun s hs hr => h1 s (arg_part ho (by simp) hs hr) hr) (fun s hs hr => h2 s (arg_part ho' (by simp) hs hr) hr)
    simp only [toTy, toTys, ofKind]; exact back_opt hb
  | _, _, .atomic a b h, ho, ho', h1, h2 => by
    have hb := keeps_back X₁ X₂ h ho.2.1 ho'.2.1 (fun s hs hr => h1 s (arg_part ho (by simp) hs hr) hr) (fun s hs hr => h2 s (arg_part ho' (by simp) hs hr) hr)
    simp only [toTy, toTys, ofKind]; exact hb
  | _, _, .seq k a b hk h, ho, ho', h1, h2 => by
    have hb := keeps_back X₁ X₂ h ho.2.1 ho'.2.1 (fun s hs hr => h1 s (arg_part ho (by simp) hs hr) hr) (fun s hs hr => h2 s (arg_part ho' (by simp) hs hr) hr)
    cases k <;> simp [isSeq] at hk
    · simp only [toTy, toTys, ofKind]; exact back_seq (by simp) (fun _ _ _ _ => trivial) hb
    · simp only [toTy, toTys, ofKind]
      refine back_seq (by simp; omega) (fun l l' e h => ?_) hb
      simp only [Coll.Valid] at h ⊢
      omega
  | _, _, .set k a hk hne hp hp', ho, ho', h1, h2 => by
    have p1 : ∀ s, Part s a → isRefl s = true → s ∈ V₁ := fun s hs hr => h1 s (arg_part ho (by simp) hs hr) hr
    have p2 : ∀ s, Part s a → isRefl s = true → s ∈ V₂ := fun s hs hr => h2 s (arg_part ho' (by simp) hs hr) hr
    have f1 := fun v (hv : HasTy env (toTy O (structV V₁) a) v) => same_convert (V₁ := V₁) X₂.nodup ho.2.1 p2 X₂.schema X₂.short hp v _ hv (fresh_dflt _)
    have f2 := fun v (hv : HasTy env (toTy O (structV V₁) a) v) => same_convert (V₁ := V₂) X₁.nodup ho.2.1 p1 X₁.schema X₁.short hp' v _
      ((value_iff O (structV V₂) env a ho.2.1 v).2 ((value_iff O _ env a ho.2.1 v).1 hv)) (fresh_dflt _)
    cases k <;> simp [isColl] at hk <;> simp only [toTy, toTys, ofKind] <;> refine back_set ?_ f1 f2 <;> simp at hne ⊢
    exact hne
  | _, _, .map k a b b' hk hp hp' h, ho, ho', h1, h2 => by
    have hb := keeps_back X₁ X₂ h ho.2.2.1 ho'.2.2.1 (fun s hs hr => h1 s (arg_part ho (by simp) hs hr) hr) (fun s hs hr => h2 s (arg_part ho' (by simp) hs hr) hr)
    have p1 : ∀ s, Part s a → isRefl s = true → s ∈ V₁ := fun s hs hr => h1 s (arg_part ho (by simp) hs hr) hr
    have p2 : ∀ s, Part s a → isRefl s = true → s ∈ V₂ := fun s hs hr => h2 s (arg_part ho' (by simp) hs hr) hr
    have f1 := fun v (hv : HasTy env (toTy O (structV V₁) a) v) => same_convert (V₁ := V₁) X₂.nodup ho.2.1 p2 X₂.schema X₂.short hp v _ hv (fresh_dflt _)
    have f2 := fun v (hv : HasTy env (toTy O (structV V₁) a) v) => same_convert (V₁ := V₂) X₁.nodup ho.2.1 p1 X₁.schema X₁.short hp' v _
      ((value_iff O (structV V₂) env a ho.2.1 v).2 ((value_iff O _ env a ho.2.1 v).1 hv)) (fresh_dflt _)
    cases k <;> simp [isMap] at hk <;> simp only [toTy, toTys, ofKind] <;> exact back_map (by simp) f1 f2 hb
  | _, _, .pair as bs h, ho, ho', h1, h2 => by
    have hb := keeps_backs X₁ X₂ h ho.2 ho'.2 (fun a ha s hs hr => h1 s (arg_part ho ha hs hr) hr) (fun a ha s hs hr => h2 s (arg_part ho' ha hs hr) hr)
    simp only [toTy, ofKind]; exact back_tuple hb
  | _, _, .var as bs h, ho, ho', h1, h2 => by
    have hb := keeps_backs X₁ X₂ h ho.2 ho'.2 (fun a ha s hs hr => h1 s (arg_part ho ha hs hr) hr) (fun a ha s hs hr => h2 s (arg_part ho' ha hs hr) hr)
    simp only [toTy, ofKind]
    refine back_var hb.length_eq ?_
    intro i t u ht hu
    obtain ⟨hi, rfl⟩ := List.getElem?_eq_some_iff.1 ht
    obtain ⟨hi', rfl⟩ := List.getElem?_eq_some_iff.1 hu
    exact hb.get hi hi'
  | _, _, .refl i j ns ms as bs hn hm hk h, ho, ho', h1, h2 => by
    obtain ⟨p, e1, e2, -⟩ := struct_idx (O := O) X₁.nodup (h1 _ (.self _) rfl)
    obtain ⟨q, e3, e4, -⟩ := struct_idx (O := O) X₂.nodup (h2 _ (.self _) rfl)
    have hr1 : renOf fm' V₁ p = fm' (.node (.refl i ns) as) := by funext n; simp only [renOf, e2]
    have hr2 : renOf fm V₂ q = fm (.node (.refl j ms) bs) := by funext n; simp only [renOf, e4]
    have hl1 : ns.length = as.length := by simpa [okNode] using ho.1
    have hl2 : ms.length = bs.length := by simpa [okNode] using ho'.1
    rw [e1, e3]
    refine back_struct (by simpa [toTys_length] using hl1) (by simpa [toTys_length] using hl2) (by rw [hr2]; exact hn) (by rw [hr1]; exact hm)
      (by rw [hr1, hr2]; exact hk) ?_
    intro k m n T U g1 g2 g3 g4
    rw [hr2] at g3
    rw [toTys_get] at g2 g4
    obtain ⟨a, ha, rfl⟩ := Option.map_eq_some_iff.1 g2
    obtain ⟨b, hb, rfl⟩ := Option.map_eq_some_iff.1 g4
    have hma := List.mem_of_getElem? ha
    have hmb := List.mem_of_getElem? hb
    exact keeps_back X₁ X₂ (h k m n a b g1 ha g3 hb) (okAll_mem ho.2 hma) (okAll_mem ho'.2 hmb)
      (fun s hs hr => h1 s (arg_part ho hma hs hr) hr) (fun s hs hr => h2 s (arg_part ho' hmb hs hr) hr)
theorem keeps_backs (X₁ : Side O V₁ S₁) (X₂ : Side O V₂ S₂) : ∀ {ts us : List CTy}, KeepAll fm fm' ts us → OkAll ts → OkAll us →
    (∀ a ∈ ts, ∀ s, Part s a → isRefl s = true → s ∈ V₁) → (∀ a ∈ us, ∀ s, Part s a → isRefl s = true → s ∈ V₂) →
    List.Forall₂ (BackTy env (renOf fm V₂) (renOf fm' V₁)) (toTys O (structV V₁) ts) (toTys O (structV V₂) us)
  | _, _, .nil, _, _, _, _ => .nil
  | _, _, .cons a b as bs h h', ho, ho', h1, h2 =>
    .cons (keeps_back X₁ X₂ h ho.1 ho'.1 (h1 a (by simp)) (h2 b (by simp)))
      (keeps_backs X₁ X₂ h' ho.2 ho'.2 (fun a ha => h1 a (by simp [ha])) (fun a ha => h2 a (by simp [ha])))
end

end

end Verif.Mp
