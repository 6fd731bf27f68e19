import Verif.Vts.Same

/-!
# Version tolerant serialization: fields whose types do not match
-/

namespace Verif.Vts

open Verif.Serialize

/-- All types are in the table. -/
def InRange (names : List Name) (p : Proto) : Prop := ∀ f ∈ p, ∀ k, f.2 = some k → k < names.length

/-- Types that are different: one is a structure and the other is not, or their names are different. -/
def Incompatible (names : List Name) (a b : Option Nat) : Prop :=
  match a, b with
  | none, none => False
  | some x, some y => names[x]? ≠ names[y]?
  | _, _ => True

theorem check_total (names : List Name) (a b : Option Nat) (ha : ∀ k, a = some k → k < names.length)
    (hb : ∀ k, b = some k → k < names.length) :
    checkTypesCompatible names a b = .ok () ∨ checkTypesCompatible names a b = .throw .io := by
  unfold checkTypesCompatible
  split
  · exact Or.inl rfl
  · cases a with
    | none => exact Or.inr rfl
    | some x =>
      cases b with
      | none => exact Or.inr rfl
      | some y =>
        simp only [areTypeNamesEqual, List.getElem?_eq_getElem (ha x rfl), List.getElem?_eq_getElem (hb y rfl),
          Res.ok_bind]
        split
        · exact Or.inl rfl
        · exact Or.inr rfl

theorem check_incompatible (names : List Name) (a b : Option Nat) (ha : ∀ k, a = some k → k < names.length)
    (hb : ∀ k, b = some k → k < names.length) (h : Incompatible names a b) :
    checkTypesCompatible names a b = .throw .io := by
  unfold checkTypesCompatible
  cases a with
  | none =>
    cases b with
    | none => exact absurd h (by simp [Incompatible])
    | some y => simp
  | some x =>
    cases b with
    | none => simp
    | some y =>
      simp only [Incompatible, List.getElem?_eq_getElem (ha x rfl), List.getElem?_eq_getElem (hb y rfl), ne_eq,
        Option.some.injEq] at h
      have hne : x ≠ y := by
        intro e
        subst e
        exact h rfl
      rw [if_neg (by simpa using hne)]
      simp only [areTypeNamesEqual, List.getElem?_eq_getElem (ha x rfl), List.getElem?_eq_getElem (hb y rfl),
        Res.ok_bind]
      rw [if_neg (by simpa using h)]

theorem mapFields_total (names : List Name) (rn : Name → Name) (right : Proto) (hr : InRange names right) :
    ∀ fs : Proto, InRange names fs →
    (∃ m, mapFields names rn right fs = .ok m) ∨ mapFields names rn right fs = .throw .io
  | [], _ => Or.inl ⟨[], rfl⟩
  | (n, ty) :: fs, hf => by
    have ih := mapFields_total names rn right hr fs (fun f h => hf f (by simp [h]))
    simp only [mapFields]
    cases hx : right.findIdx? (fun f => f.1 == rn n) with
    | none =>
      simp only
      rcases ih with ⟨m, h⟩ | h <;> rw [h]
      · exact Or.inl ⟨none :: m, rfl⟩
      · exact Or.inr rfl
    | some j =>
      have hj : j < right.length := by
        rw [List.findIdx?_eq_some_iff_getElem] at hx
        exact hx.1
      simp only [List.getElem?_eq_getElem hj]
      rcases check_total names ty right[j].2 (fun k h => hf (n, ty) (by simp) k h)
        (fun k h => hr _ (List.getElem_mem hj) k h) with h1 | h1 <;> rw [h1]
      · simp only [Res.ok_bind]
        rcases ih with ⟨m, h⟩ | h <;> rw [h]
        · exact Or.inl ⟨some j :: m, rfl⟩
        · exact Or.inr rfl
      · exact Or.inr rfl

theorem mapFields_mismatch (names : List Name) (rn : Name → Name) (right : Proto) (hr : InRange names right)
    (hn : (right.map (·.1)).Nodup) : ∀ fs : Proto, InRange names fs →
    (∃ f ∈ fs, ∃ f' ∈ right, rn f.1 = f'.1 ∧ Incompatible names f.2 f'.2) →
    mapFields names rn right fs = .throw .io
  | [], _, h => by simp at h
  | (n, ty) :: fs, hf, h => by
    have ih := mapFields_mismatch names rn right hr hn fs (fun f h => hf f (by simp [h]))
    have tot := mapFields_total names rn right hr fs (fun f h => hf f (by simp [h]))
    obtain ⟨f, hm, f', hm', e, hi⟩ := h
    simp only [mapFields]
    rcases List.mem_cons.mp hm with rfl | hm
    · obtain ⟨j, hj, rfl⟩ := List.getElem_of_mem hm'
      have hx : right.findIdx? (fun f => f.1 == rn n) = some j := by
        rw [List.findIdx?_eq_some_iff_getElem]
        refine ⟨hj, by simpa using e.symm, ?_⟩
        intro k hk
        have hp := List.pairwise_iff_getElem.mp (List.nodup_iff_pairwise_ne.mp hn) k j
          (by rw [List.length_map]; omega) (by rw [List.length_map]; omega) hk
        simp only [List.getElem_map] at hp
        simp only [beq_iff_eq]
        intro h
        exact hp (h.trans e)
      simp only [hx, List.getElem?_eq_getElem hj]
      rw [check_incompatible names _ _ (fun k h => hf (n, ty) (by simp) k h)
        (fun k h => hr _ (List.getElem_mem hj) k h) hi]
      rfl
    · have ih := ih ⟨f, hm, f', hm', e, hi⟩
      rw [ih]
      cases hx : right.findIdx? (fun f => f.1 == rn n) with
      | none => rfl
      | some j =>
        have hj : j < right.length := by
          rw [List.findIdx?_eq_some_iff_getElem] at hx
          exact hx.1
        simp only [List.getElem?_eq_getElem hj]
        rcases check_total names ty right[j].2 (fun k h => hf (n, ty) (by simp) k h)
          (fun k h => hr _ (List.getElem_mem hj) k h) with h1 | h1 <;> rw [h1]
        · rfl
        · rfl

section

variable {nm₁ : Ty → Name} {g : Cfg} {S₁ : Schema}

theorem attach_inRange : ∀ (p : Proto) (ts : List Ty),
    InRange (g.S.fields.map g.nm) (List.zipWith (fun f t => (f.1, attachTy nm₁ g t)) p ts)
  | [], ts => by intro f hf; simp at hf
  | _ :: _, [] => by intro f hf; simp at hf
  | x :: p, t :: ts => by
    intro f hf k hk
    simp only [List.zipWith_cons_cons, List.mem_cons] at hf
    rcases hf with rfl | hf
    · simp only [attachTy] at hk
      split at hk
      · cases hk
      · rw [findName, List.findIdx?_eq_some_iff_getElem] at hk
        exact hk.1
    · exact attach_inRange p ts f hf k hk

theorem described_inRange : ∀ (p : Proto) (ts : List Ty), DescribesFields g.S p ts →
    InRange (g.S.fields.map g.nm) p
  | [], ts, _ => by intro f hf; simp at hf
  | (n, ty) :: p, ts, h => by
    cases ts with
    | nil => simp [DescribesFields] at h
    | cons t ts =>
      simp only [DescribesFields] at h
      intro f hf k hk
      rcases List.mem_cons.mp hf with rfl | hf
      · simp only at hk
        subst hk
        rw [List.length_map]
        exact (List.getElem?_eq_some_iff.mp h.1.2).1
      · exact described_inRange p ts h.2 f hf k hk

/-- A field of the new structure has the name of a field of the old one but another type. -/
def Mismatch (nm₁ : Ty → Name) (g : Cfg) (i j : SInfo) (ts us : List Ty) : Prop :=
  ∃ (k m : Nat) (n : Name) (t u : Ty), i.names[k]? = some n ∧ ts[k]? = some t ∧
    j.names[m]? = some (g.ren j.idx n) ∧ us[m]? = some u ∧
    (isStruct t ≠ isStruct u ∨ isStruct t = false ∧ g.tm (nm₁ t) ≠ g.nm u)

theorem findProtoMap_mismatch {old : List Proto} (hO : OldOk nm₁ g S₁ old) (i j : SInfo) (ts us : List Ty)
    (hK : Known nm₁ g S₁) (hd : Described S₁ (.struct (some i) ts)) (hd' : Described g.S (.struct (some j) us))
    (hn : j.names.Nodup) (hm : Mismatch nm₁ g i j ts us) (c : Cache) (hc : c i.idx = none) :
    findProtoMap g old i.idx j.idx c = (.throw .io, c.set i.idx (j.idx, [])) := by
  simp only [Described] at hd hd'
  obtain ⟨hi, ⟨p, hp1, hp2, hp3⟩, _⟩ := hd
  obtain ⟨hj, ⟨q, hq1, hq2, hq3⟩, _⟩ := hd'
  have hold := hO i.idx p ts hp1 hp3
  obtain ⟨k, m, n, t, u, h1, h2, h3, h4, h5⟩ := hm
  have hlp := describes_length S₁ p ts hp3
  have hlq := describes_length g.S q us hq3
  have hk : k < p.length := by
    have := (List.getElem?_eq_some_iff.mp h2).1
    omega
  have hmq : m < q.length := by
    have := (List.getElem?_eq_some_iff.mp h4).1
    omega
  have hkp := List.getElem?_eq_getElem hk
  have hmp := List.getElem?_eq_getElem hmq
  have d1 := describes_get S₁ p ts k _ t hp3 hkp h2
  have d2 := describes_get g.S q us m _ u hq3 hmp h4
  have e1 : p[k].1 = n := by
    rw [← hp2, List.getElem?_map, hkp, Option.map_some, Option.some.injEq] at h1
    exact h1
  have e2 : q[m].1 = g.ren j.idx n := by
    rw [← hq2, List.getElem?_map, hmp, Option.map_some, Option.some.injEq] at h3
    exact h3
  have hmap : mapFields (g.S.fields.map g.nm) (g.ren j.idx) q
      (List.zipWith (fun f t => (f.1, attachTy nm₁ g t)) p ts) = .throw .io := by
    refine mapFields_mismatch _ _ q (described_inRange q us hq3) (by rw [hq2]; exact hn) _ (attach_inRange p ts) ?_
    refine ⟨(p[k].1, attachTy nm₁ g t), ?_, q[m], List.getElem_mem hmq, ?_, ?_⟩
    · refine List.mem_of_getElem? (i := k) ?_
      rw [List.getElem?_zipWith, hkp, h2]
    · rw [e1, e2]
    · simp only [attachTy]
      cases ht : isStruct t with
      | true =>
        rcases h5 with h5 | ⟨h5, _⟩
        · have hu : isStruct u = false := by
            rw [ht] at h5
            simpa using h5
          cases hqm : q[m].2 with
          | none => rw [hqm] at d2; simp only at d2; rw [hu] at d2; cases d2
          | some y => simp [Incompatible]
        · rw [ht] at h5; cases h5
      | false =>
        have hin : ∃ x, findName (g.S.fields.map g.nm) (g.tm (nm₁ t)) = some x ∧
            (g.S.fields.map g.nm)[x]? = some (g.tm (nm₁ t)) := by
          cases hpk : p[k].2 with
          | none => rw [hpk] at d1; simp only at d1; rw [ht] at d1; cases d1
          | some y =>
            rw [hpk] at d1
            exact findName_get (hK p (List.mem_of_getElem? hp1) p[k] (List.getElem_mem hk) y hpk t d1.2)
        obtain ⟨x, hx1, hx2⟩ := hin
        simp only [Bool.false_eq_true, if_false, hx1]
        cases hqm : q[m].2 with
        | none => simp [Incompatible]
        | some y =>
          rw [hqm] at d2
          simp only [Incompatible, hx2, List.getElem?_map, d2.2, Option.map_some, ne_eq, Option.some.injEq]
          rcases h5 with h5 | ⟨_, h5⟩
          · rw [ht, d2.1] at h5
            exact absurd rfl h5
          · exact h5
  simp only [findProtoMap, hc, hold, hq1, mapPrototypes, hmap, Res.throw_bind]

end

end Verif.Vts
