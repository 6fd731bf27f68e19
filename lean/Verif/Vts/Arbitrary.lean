import Verif.Vts.Spec
import Verif.Serialize.Safety

/-!
# Version tolerant reading of arbitrary bytes

`hookC`, `skipC`, `readC`: the reader that tests the index of the structure, as the assertions of the code say
(`Reader.h:345, 357`).
-/

namespace Verif.Vts

open Verif.Serialize

/-! ### The reader that tests -/

/-- `hookV` with a test of the index. -/
def hookC (g : Cfg) (old : List Proto) (skip : Option Nat → Rd Cache Unit) : Hook Cache := fun info rds vs =>
  match info with
  | none => readFields rds vs
  | some si => do
    let i ← readStructIndex
    if i < old.length then do
      let m ← findProtoMapR g old i si.idx
      if m.isEmpty then readFields rds vs
      else
        match old[i]?, g.S.protos[si.idx]? with
        | some p, some q => readMapped (g.S.fields.map g.nm) g.allowDelete skip q rds (p.zip m) vs
        | _, _ => .ub
    else Rd.fail .corruption

/-- `skipField` with a test of the index. -/
def skipC (g : Cfg) (old : List Proto) : Nat → Option Nat → Rd Cache Unit
  | 0, _ => .ub
  | fuel + 1, some k =>
    match g.S.fields[k]? with
    | some t => do
      let _ ← readTy g.env (hookC g old (skipC g old fuel)) t (dflt t)
      pure ()
    | none => .ub
  | fuel + 1, none => do
    let i ← readStructIndex
    if i < old.length then
      match old[i]? with
      | some p => skipAll (skipC g old fuel) p
      | none => .ub
    else Rd.fail .corruption

/-- `readV` with tests of the indices. -/
def readC (g : Cfg) (fuel : Nat) (t : Ty) (o : Val) (s : List UInt8) : Res (Val × List UInt8) := do
  let (old, s') ← readOldPrototypes g s
  match readTy g.env (hookC g old (skipC g old fuel)) t o (fun _ => none) s' with
  | .ok (v, _, s'') => .ok (v, s'')
  | .throw e => .throw e
  | .ub => .ub

/-! ### The tables -/

theorem decStr_some : ∀ vs : List Val, (∀ v ∈ vs, ∃ x, v = .num x ∧ x < 256 ^ 1) → ∃ n, decStr vs = some n
  | [], _ => ⟨[], rfl⟩
  | v :: vs, h => by
    obtain ⟨x, rfl, _⟩ := h v (by simp)
    obtain ⟨n, hn⟩ := decStr_some vs (fun w hw => h w (by simp [hw]))
    exact ⟨UInt8.ofNat x :: n, by simp [decStr, hn]⟩

theorem decNames_some (env : Env) : ∀ vs : List Val, (∀ v ∈ vs, Legal env (.str 1) v) → ∃ n, decNames vs = some n
  | [], _ => ⟨[], rfl⟩
  | v :: vs, h => by
    have hv := h v (by simp)
    obtain ⟨n, hn⟩ := decNames_some env vs (fun w hw => h w (by simp [hw]))
    cases v with
    | list s =>
      simp only [Legal] at hv
      obtain ⟨a, ha⟩ := decStr_some s hv.2
      exact ⟨a :: n, by simp [decNames, ha, hn]⟩
    | _ => simp [Legal] at hv

theorem decFields_some (env : Env) : ∀ vs : List Val, (∀ v ∈ vs, Legal env (.struct none [.str 1, .num 8]) v) → ∃ n, decFields vs = some n
  | [], _ => ⟨[], rfl⟩
  | v :: vs, h => by
    have hv := h v (by simp)
    obtain ⟨n, hn⟩ := decFields_some env vs (fun w hw => h w (by simp [hw]))
    cases v with
    | list s =>
      simp only [Legal] at hv
      match s, hv with
      | [a, b], hv =>
        simp only [Legals, and_true] at hv
        cases a with
        | list a =>
          cases b with
          | num b =>
            have h1 := hv.1
            simp only [Legal] at h1
            obtain ⟨x, hx⟩ := decStr_some a h1.2
            exact ⟨(x, b) :: n, by simp [decFields, hx, hn]⟩
          | _ => simp [Legal] at hv
        | _ => simp [Legal] at hv
      | [], hv => simp [Legals] at hv
      | [_], hv => simp [Legals] at hv
      | _ :: _ :: _ :: _, hv => simp [Legals] at hv
    | _ => simp [Legal] at hv

theorem decProtos_some (env : Env) : ∀ vs : List Val, (∀ v ∈ vs, Legal env (.struct none [.vec (.struct none [.str 1, .num 8])]) v) →
    ∃ n, decProtos vs = some n
  | [], _ => ⟨[], rfl⟩
  | v :: vs, h => by
    have hv := h v (by simp)
    obtain ⟨n, hn⟩ := decProtos_some env vs (fun w hw => h w (by simp [hw]))
    cases v with
    | list s =>
      simp only [Legal] at hv
      match s, hv with
      | [a], hv =>
        simp only [Legals, and_true] at hv
        cases a with
        | list a =>
          rw [Legal] at hv
          obtain ⟨x, hx⟩ := decFields_some env a hv
          exact ⟨x :: n, by simp [decProtos, hx, hn]⟩
        | _ => simp [Legal] at hv
      | [], hv => simp [Legals] at hv
      | _ :: _ :: _, hv => simp [Legals] at hv
    | _ => simp [Legal] at hv

theorem decMeta_some (env : Env) (v : Val) (hv : Legal env metaTy v) : ∃ n, decMeta v = some n := by
  unfold metaTy at hv
  cases v with
  | list s =>
    rw [Legal] at hv
    match s, hv with
    | [a, b], hv =>
      simp only [Legals, and_true] at hv
      cases a with
      | list a =>
        cases b with
        | list b =>
          rw [Legal, Legal] at hv
          obtain ⟨x, hx⟩ := decNames_some env a hv.1
          obtain ⟨y, hy⟩ := decProtos_some env b hv.2
          exact ⟨(x, y), by simp [decMeta, hx, hy]⟩
        | _ => simp [Legal] at hv
      | _ => simp [Legal] at hv
    | [], hv => simp [Legals] at hv
    | [_], hv => simp [Legals] at hv
    | _ :: _ :: _ :: _, hv => simp [Legals] at hv
  | _ => simp [Legal] at hv

/-- All types in the tables read are types of the reading program. -/
def OldOK (n : Nat) (old : List Proto) : Prop := ∀ p ∈ old, ∀ f ∈ p, ∀ k, f.2 = some k → k < n

theorem attachFields_safe (old_tm new_tm : List Name) : ∀ fs, attachFields old_tm new_tm fs ≠ .ub ∧
    ∀ p, attachFields old_tm new_tm fs = .ok p → ∀ f ∈ p, ∀ k, f.2 = some k → k < new_tm.length
  | [] => by simp [attachFields]
  | (n, ty) :: fs => by
    obtain ⟨h1, h2⟩ := attachFields_safe old_tm new_tm fs
    simp only [attachFields]
    by_cases ht : ty = 2 ^ 64 - 1
    · rw [if_pos ht]
      rcases hr : attachFields old_tm new_tm fs with r | e | _
      · simp only [Res.ok_bind]
        refine ⟨nofun, ?_⟩
        rintro p hp f hf k hk
        cases hp
        rcases List.mem_cons.1 hf with rfl | hf
        · simp at hk
        · exact h2 r hr f hf k hk
      · exact ⟨nofun, nofun⟩
      · exact absurd hr h1
    · rw [if_neg ht]
      rcases old_tm[ty]? with _ | tn
      · exact ⟨nofun, nofun⟩
      · simp only
        rcases hf' : findName new_tm tn with _ | k'
        · exact ⟨nofun, nofun⟩
        · simp only
          rcases hr : attachFields old_tm new_tm fs with r | e | _
          · simp only [Res.ok_bind]
            refine ⟨nofun, ?_⟩
            rintro p hp f hf k hk
            cases hp
            rcases List.mem_cons.1 hf with rfl | hf
            · simp only [Option.some.injEq] at hk
              subst hk
              exact (List.findIdx?_eq_some_iff_getElem.1 hf').1
            · exact h2 r hr f hf k hk
          · exact ⟨nofun, nofun⟩
          · exact absurd hr h1

theorem attachMetadata_safe (old_tm new_tm : List Name) : ∀ ps, attachMetadata old_tm new_tm ps ≠ .ub ∧
    ∀ old, attachMetadata old_tm new_tm ps = .ok old → OldOK new_tm.length old
  | [] => by simp [attachMetadata, OldOK]
  | p :: ps => by
    obtain ⟨h1, h2⟩ := attachMetadata_safe old_tm new_tm ps
    obtain ⟨h3, h4⟩ := attachFields_safe old_tm new_tm p
    simp only [attachMetadata]
    rcases ha : attachFields old_tm new_tm p with a | e | _
    · simp only [Res.ok_bind]
      rcases hb : attachMetadata old_tm new_tm ps with b | e | _
      · simp only [Res.ok_bind]
        refine ⟨nofun, ?_⟩
        rintro old ho q hq
        cases ho
        rcases List.mem_cons.1 hq with rfl | hq
        · exact h4 _ ha
        · exact h2 _ hb q hq
      · exact ⟨nofun, nofun⟩
      · exact absurd hb h1
    · exact ⟨nofun, nofun⟩
    · exact absurd ha h3

theorem readOldPrototypes_safe (g : Cfg) (hc : g.env.cap < 2 ^ 64) (s : List UInt8) : readOldPrototypes g s ≠ .ub ∧
    ∀ old s', readOldPrototypes g s = .ok (old, s') → OldOK g.S.fields.length old ∧ s' <:+ s := by
  have hck : Checked ⟨none, g.env.cap⟩ metaTy := by simpa [metaTy, Checked, CheckedAll] using hc
  have hs := readTy_safe ⟨none, g.env.cap⟩ plainHook (plainHook_safe (σ := Unit) (I := fun _ => True) (N := s.length) ⟨none, g.env.cap⟩) metaTy (dflt metaTy)
    (structs_true _) hck (legal_dflt _ _ hck) () s trivial (Nat.le_refl _)
  unfold readOldPrototypes Serialize.read
  rcases hr : readTy ⟨none, g.env.cap⟩ plainHook metaTy (dflt metaTy) () s with ⟨v, c, s1⟩ | e | _
  · rw [hr] at hs
    obtain ⟨⟨tn, ps⟩, hd⟩ := decMeta_some _ v hs.1
    simp only [Res.ok_bind, hd]
    obtain ⟨h1, h2⟩ := attachMetadata_safe (tn.map g.tm) (g.S.fields.map g.nm) ps
    rcases ha : attachMetadata (tn.map g.tm) (g.S.fields.map g.nm) ps with a | e | _
    · simp only [Res.ok_bind]
      refine ⟨nofun, ?_⟩
      rintro old s' ho
      cases ho
      have := h2 _ ha
      rw [List.length_map] at this
      exact ⟨this, hs.2.2⟩
    · exact ⟨nofun, nofun⟩
    · exact absurd ha h1
  · exact ⟨nofun, nofun⟩
  · rw [hr] at hs
    exact hs.elim

/-! ### The maps -/

/-- The tables describe the structure. -/
def StructD (S : Schema) : Option SInfo → List Ty → Prop
  | none, _ => True
  | some si, ts => ∃ q, S.protos[si.idx]? = some q ∧ q.length = ts.length ∧ ∀ f ∈ q, ∀ k, f.2 = some k → k < S.fields.length

theorem describesFields_len {S : Schema} : ∀ (p : Proto) (ts : List Ty), DescribesFields S p ts →
    p.length = ts.length ∧ ∀ f ∈ p, ∀ k, f.2 = some k → k < S.fields.length
  | [], [], _ => by simp
  | [], _ :: _, h => by simp [DescribesFields] at h
  | _ :: _, [], h => by simp [DescribesFields] at h
  | (n, ty) :: p, t :: ts, h => by
    simp only [DescribesFields] at h
    obtain ⟨h1, h2⟩ := describesFields_len p ts h.2
    refine ⟨by simp [h1], ?_⟩
    intro f hf k hk
    rcases List.mem_cons.1 hf with rfl | hf
    · simp only at hk
      subst hk
      have := h.1.2
      exact (List.getElem?_eq_some_iff.1 this).1
    · exact h2 f hf k hk

mutual

theorem described_structs {S : Schema} : ∀ t, Described S t → Structs (StructD S) t
  | .num _ _, _ => by simp [Structs]
  | .bool, _ => by simp [Structs]
  | .enm _ _, _ => by simp [Structs]
  | .time _ _, _ => by simp [Structs]
  | .str _, _ => by simp [Structs]
  | .vec t, h => by simp only [Described] at h; simp only [Structs]; exact described_structs t h
  | .arr _ t, h => by simp only [Described] at h; simp only [Structs]; exact described_structs t h
  | .opt t _, h => by simp only [Described] at h; simp only [Structs]; exact described_structs t h
  | .coll _ t, h => by simp only [Described] at h; simp only [Structs]; exact described_structs t h
  | .map _ kt vt, h => by
    simp only [Described] at h; simp only [Structs]; exact ⟨described_structs kt h.1, described_structs vt h.2⟩
  | .var ts, h => by simp only [Described] at h; simp only [Structs]; exact described_structsAll ts h
  | .struct none ts, h => by
    simp only [Described] at h; simp only [Structs, StructD]; exact ⟨trivial, described_structsAll ts h⟩
  | .struct (some si) ts, h => by
    simp only [Described] at h
    simp only [Structs, StructD]
    obtain ⟨_, ⟨p, h1, _, h2⟩, h3⟩ := h
    exact ⟨⟨p, h1, describesFields_len p ts h2⟩, described_structsAll ts h3⟩

theorem described_structsAll {S : Schema} : ∀ ts, DescribedAll S ts → StructsAll (StructD S) ts
  | [], _ => by simp [StructsAll]
  | t :: ts, h => by
    simp only [DescribedAll] at h; simp only [StructsAll]; exact ⟨described_structs t h.1, described_structsAll ts h.2⟩

end

/-- The map leads from the fields of `p` to fields of `q` whose types can be compared. -/
def MapOK (p q : Proto) (m : List (Option Nat)) : Prop :=
  m.length = p.length ∧ ∀ (k : Nat) (f : Name × Option Nat) (j : Nat), p[k]? = some f → m[k]? = some (some j) →
    ∃ f', q[j]? = some f' ∧ (f.2 = f'.2 ∨ (f.2.isSome = true ∧ f'.2.isSome = true))

/-- What the maps that are kept are like. -/
def CI (g : Cfg) (old : List Proto) (c : Cache) : Prop :=
  ∀ i n m, c i = some (n, m) → i < old.length ∧ (m = [] ∨ ∃ p q, old[i]? = some p ∧ g.S.protos[n]? = some q ∧ MapOK p q m)

theorem check_safe (names : List Name) (o n : Option Nat) (ho : ∀ k, o = some k → k < names.length) (hn : ∀ k, n = some k → k < names.length) :
    checkTypesCompatible names o n ≠ .ub ∧ (checkTypesCompatible names o n = .ok () → o = n ∨ (o.isSome = true ∧ n.isSome = true)) := by
  unfold checkTypesCompatible
  by_cases h : o = n
  · simp [h]
  · rw [if_neg h]
    rcases o with _ | a
    · rcases n with _ | b
      · exact absurd rfl h
      · exact ⟨nofun, nofun⟩
    · rcases n with _ | b
      · exact ⟨nofun, nofun⟩
      · simp only [areTypeNamesEqual, List.getElem?_eq_getElem (ho a rfl), List.getElem?_eq_getElem (hn b rfl), Res.ok_bind]
        split
        · exact ⟨nofun, fun _ => .inr ⟨rfl, rfl⟩⟩
        · exact ⟨nofun, nofun⟩

theorem equal_safe (names : List Name) (o n : Option Nat) (ho : ∀ k, o = some k → k < names.length) (hn : ∀ k, n = some k → k < names.length)
    (h : o = n ∨ (o.isSome = true ∧ n.isSome = true)) : areTypesEqual names o n ≠ .ub := by
  unfold areTypesEqual
  by_cases e : o = n
  · rw [if_pos e]; nofun
  · rw [if_neg e]
    rcases o with _ | a
    · rcases n with _ | b
      · exact absurd rfl e
      · simp at h
    · rcases n with _ | b
      · simp at h
      · simp only [areTypeNamesEqual, List.getElem?_eq_getElem (ho a rfl), List.getElem?_eq_getElem (hn b rfl)]
        nofun

theorem mapFields_safe (names : List Name) (rn : Name → Name) (right : Proto) (hr : ∀ f ∈ right, ∀ k, f.2 = some k → k < names.length) :
    ∀ left : Proto, (∀ f ∈ left, ∀ k, f.2 = some k → k < names.length) →
      mapFields names rn right left ≠ .ub ∧ ∀ v, mapFields names rn right left = .ok v → MapOK left right v
  | [], _ => by simp [mapFields, MapOK]
  | (n, ty) :: fs, hl => by
    obtain ⟨h1, h2⟩ := mapFields_safe names rn right hr fs (fun f hf => hl f (by simp [hf]))
    simp only [mapFields]
    rcases hj : right.findIdx? (fun f => f.1 == rn n) with _ | j
    · simp only [hj]
      rcases hv : mapFields names rn right fs with v | e | _
      · simp only [Res.ok_bind]
        refine ⟨nofun, ?_⟩
        rintro w hw
        cases hw
        obtain ⟨h3, h4⟩ := h2 v hv
        refine ⟨by simp [h3], ?_⟩
        intro k f j hk hm
        cases k with
        | zero => simp at hm
        | succ k => exact h4 k f j (by simpa using hk) (by simpa using hm)
      · exact ⟨nofun, nofun⟩
      · exact absurd hv h1
    · have hjl := (List.findIdx?_eq_some_iff_getElem.1 hj).1
      simp only [hj, List.getElem?_eq_getElem hjl]
      obtain ⟨h5, h6⟩ := check_safe names ty right[j].2 (hl (n, ty) (by simp)) (hr _ (List.getElem_mem hjl))
      rcases hc : checkTypesCompatible names ty right[j].2 with u | e | _
      · simp only [Res.ok_bind]
        rcases hv : mapFields names rn right fs with v | e | _
        · simp only [Res.ok_bind]
          refine ⟨nofun, ?_⟩
          rintro w hw
          cases hw
          obtain ⟨h3, h4⟩ := h2 v hv
          refine ⟨by simp [h3], ?_⟩
          intro k f j' hk hm
          cases k with
          | zero =>
            simp only [List.getElem?_cons_zero, Option.some.injEq] at hk hm
            subst hk hm
            exact ⟨right[j], List.getElem?_eq_getElem hjl, h6 hc⟩
          | succ k => exact h4 k f j' (by simpa using hk) (by simpa using hm)
        · exact ⟨nofun, nofun⟩
        · exact absurd hv h1
      · exact ⟨nofun, nofun⟩
      · exact absurd hc h5

theorem mapPrototypes_safe (names : List Name) (rn : Name → Name) (left right : Proto) (hr : ∀ f ∈ right, ∀ k, f.2 = some k → k < names.length)
    (hl : ∀ f ∈ left, ∀ k, f.2 = some k → k < names.length) :
    mapPrototypes names rn left right ≠ .ub ∧ ∀ v, mapPrototypes names rn left right = .ok v → v = [] ∨ MapOK left right v := by
  obtain ⟨h1, h2⟩ := mapFields_safe names rn right hr left hl
  unfold mapPrototypes
  rcases hv : mapFields names rn right left with v | e | _
  · simp only [Res.ok_bind]
    split
    · exact ⟨nofun, fun v hv => by cases hv; exact .inl rfl⟩
    · exact ⟨nofun, fun w hw => by cases hw; exact .inr (h2 v hv)⟩
  · exact ⟨nofun, nofun⟩
  · exact absurd hv h1

section

variable {g : Cfg} {old : List Proto} (hO : OldOK g.S.fields.length old)

include hO

theorem findProtoMapR_safe {N : Nat} (i n : Nat) (q : Proto) (hi : i < old.length) (hq : g.S.protos[n]? = some q)
    (hqf : ∀ f ∈ q, ∀ k, f.2 = some k → k < g.S.fields.length) :
    Safe (CI g old) N (findProtoMapR g old i n) (fun m => m = [] ∨ MapOK old[i] q m) := by
  intro c s hI _
  unfold findProtoMapR findProtoMap
  rcases hc : c i with _ | ⟨n', m⟩
  · simp only [List.getElem?_eq_getElem hi, hq]
    obtain ⟨h1, h2⟩ := mapPrototypes_safe (g.S.fields.map g.nm) (g.ren n) old[i] q (by simpa using hqf) (by simpa using hO _ (List.getElem_mem hi))
    rcases hm : mapPrototypes (g.S.fields.map g.nm) (g.ren n) old[i] q with m | e | _
    · simp only
      refine ⟨h2 m hm, ?_, List.suffix_refl s⟩
      intro i' n' m' h
      simp only [Cache.set] at h
      split at h
      · rename_i e
        simp only [Option.some.injEq, Prod.mk.injEq] at h
        obtain ⟨rfl, rfl⟩ := h
        subst e
        exact ⟨hi, (h2 m hm).imp id (fun h => ⟨_, q, List.getElem?_eq_getElem hi, hq, h⟩)⟩
      · exact hI i' n' m' h
    · trivial
    · exact absurd hm h1
  · simp only
    by_cases hn : n ≠ n'
    · rw [if_pos hn]; trivial
    · rw [if_neg hn]
      have : n = n' := by simpa using hn
      subst this
      obtain ⟨_, h⟩ := hI i n m hc
      refine ⟨?_, hI, List.suffix_refl s⟩
      rcases h with h | ⟨p, q', h1, h2, h3⟩
      · exact .inl h
      · rw [List.getElem?_eq_getElem hi] at h1
        rw [hq] at h2
        cases h1
        cases h2
        exact .inr h3

end

theorem Safe.mono {σ α : Type} {I : σ → Prop} {M N : Nat} {rd : Rd σ α} {P : α → Prop} (h : Safe I N rd P) (hm : M ≤ N) : Safe I M rd P :=
  fun c s hI hs => h c s hI (Nat.le_trans hs hm)

theorem Safe.weaken {σ α : Type} {I : σ → Prop} {N : Nat} {rd : Rd σ α} {P Q : α → Prop} (h : Safe I N rd P) (hq : ∀ a, P a → Q a) : Safe I N rd Q := by
  intro c s hI hs
  have := h c s hI hs
  rcases hr : rd c s with ⟨a, c', s'⟩ | e | _
  · rw [hr] at this
    exact ⟨hq a this.1, this.2⟩
  · trivial
  · rw [hr] at this
    exact this

theorem legals_set (env : Env) : ∀ (ts : List Ty) (vs : List Val) (j : Nat) (t : Ty) (v : Val), Legals env ts vs → ts[j]? = some t → Legal env t v →
    Legals env ts (vs.set j v)
  | [], _, _, _, _, _, h, _ => by simp at h
  | _ :: _, [], _, _, _, h, _, _ => by simp [Legals] at h
  | t' :: ts, v' :: vs, 0, t, v, h, h1, h2 => by
    simp only [List.getElem?_cons_zero, Option.some.injEq] at h1
    subst h1
    simp only [Legals] at h
    simp only [List.set_cons_zero, Legals]
    exact ⟨h2, h.2⟩
  | t' :: ts, v' :: vs, j + 1, t, v, h, h1, h2 => by
    simp only [Legals] at h
    simp only [List.set_cons_succ, Legals]
    exact ⟨h.1, legals_set env ts vs j t v h.2 (by simpa using h1) h2⟩

theorem legals_get (env : Env) : ∀ (ts : List Ty) (vs : List Val) (j : Nat) (t : Ty), Legals env ts vs → ts[j]? = some t →
    ∃ v, vs[j]? = some v ∧ Legal env t v
  | [], _, _, _, _, h => by simp at h
  | _ :: _, [], _, _, h, _ => by simp [Legals] at h
  | t' :: ts, v' :: vs, 0, t, h, h1 => by
    simp only [List.getElem?_cons_zero, Option.some.injEq] at h1
    subst h1
    simp only [Legals] at h
    exact ⟨v', rfl, h.1⟩
  | t' :: ts, v' :: vs, j + 1, t, h, h1 => by
    simp only [Legals] at h
    obtain ⟨v, h2, h3⟩ := legals_get env ts vs j t h.2 (by simpa using h1)
    exact ⟨v, by simpa using h2, h3⟩

/-- The loop over the fields of the old structure. -/
theorem readMapped_safe {I : Cache → Prop} {N : Nat} {env : Env} (names : List Name) (ad : Bool) (skip : Option Nat → Rd Cache Unit) (q : Proto) (ts : List Ty)
    (rds : List (Val → Rd Cache Val)) (hq : q.length = ts.length) (hqf : ∀ f ∈ q, ∀ k, f.2 = some k → k < names.length) (hr : rds.length = ts.length)
    (hs : ∀ (i : Nat) (t : Ty) (rd : Val → Rd Cache Val) (o : Val), ts[i]? = some t → rds[i]? = some rd → Legal env t o → Safe I N (rd o) (Legal env t))
    (hsk : ∀ ty : Option Nat, (∀ k, ty = some k → k < names.length) → Safe I N (skip ty) (fun _ => True)) :
    ∀ (p : Proto) (m : List (Option Nat)) (vs : List Val), (∀ f ∈ p, ∀ k, f.2 = some k → k < names.length) → MapOK p q m → Legals env ts vs →
      Safe I N (readMapped names ad skip q rds (p.zip m) vs) (Legals env ts)
  | [], m, vs, _, _, hl => by
    simp only [List.zip_nil_left, readMapped]
    exact Safe.pure _ hl
  | f :: p, [], vs, _, hm, _ => by simp [MapOK] at hm
  | f :: p, none :: m, vs, hp, hm, hl => by
    have hm' : MapOK p q m := ⟨by simpa using hm.1, fun k f' j h1 h2 => hm.2 (k + 1) f' j (by simpa using h1) (by simpa using h2)⟩
    simp only [List.zip_cons_cons, readMapped]
    split
    · exact Safe.bind (hsk f.2 (hp f (by simp))) (fun _ _ => readMapped_safe names ad skip q ts rds hq hqf hr hs hsk p m vs (fun f hf => hp f (by simp [hf])) hm' hl)
    · exact Safe.fail _
  | f :: p, some j :: m, vs, hp, hm, hl => by
    have hm' : MapOK p q m := ⟨by simpa using hm.1, fun k f' j h1 h2 => hm.2 (k + 1) f' j (by simpa using h1) (by simpa using h2)⟩
    obtain ⟨f', hf', hty⟩ := hm.2 0 f j rfl rfl
    have hj := (List.getElem?_eq_some_iff.1 hf').1
    have hjt : j < ts.length := by omega
    have hjr : j < rds.length := by omega
    obtain ⟨v, hv, hlv⟩ := legals_get env ts vs j ts[j] hl (List.getElem?_eq_getElem hjt)
    simp only [List.zip_cons_cons, readMapped, hf', List.getElem?_eq_getElem hjr, hv]
    refine Safe.bind (Safe.lift (P := fun _ => True) ?_ (fun _ _ => trivial)) (fun eq _ => ?_)
    · exact equal_safe names f.2 f'.2 (hp f (by simp)) (hqf f' (List.mem_of_getElem? hf')) hty
    · split
      · refine Safe.bind (hs j ts[j] rds[j] v (List.getElem?_eq_getElem hjt) (List.getElem?_eq_getElem hjr) hlv) (fun v' hv' => ?_)
        exact readMapped_safe names ad skip q ts rds hq hqf hr hs hsk p m _ (fun f hf => hp f (by simp [hf])) hm'
          (legals_set env ts vs j ts[j] v' hl (List.getElem?_eq_getElem hjt) hv')
      · exact Safe.fail _

/-- Two bytes are read first. -/
theorem index_safe {I : Cache → Prop} {N : Nat} {α : Type} {P : α → Prop} (k : Nat → Rd Cache α) (h : 2 ≤ N → ∀ i, Safe I (N - 2) (k i) P) :
    Safe I N (readStructIndex >>= k) P := by
  intro c s hI hN
  simp only [readStructIndex, Rd.bind_def, readRaw]
  by_cases h2 : s.length < 2
  · rw [if_pos h2]; trivial
  · rw [if_neg h2]
    simp only [Rd.pure_def]
    have := h (by omega) (leVal (s.take 2)) c (s.drop 2) hI (by simp; omega)
    rcases hk : k (leVal (s.take 2)) c (s.drop 2) with ⟨a, c', s'⟩ | e | _
    · rw [hk] at this
      exact ⟨this.1, this.2.1, this.2.2.trans (List.drop_suffix 2 s)⟩
    · trivial
    · rw [hk] at this
      exact this

section

variable {g : Cfg} {old : List Proto} (hO : OldOK g.S.fields.length old)

include hO

theorem hookC_safe {N : Nat} (skip : Option Nat → Rd Cache Unit)
    (hsk : 2 ≤ N → ∀ ty : Option Nat, (∀ k, ty = some k → k < g.S.fields.length) → Safe (CI g old) (N - 2) (skip ty) (fun _ => True)) :
    HookSafe (CI g old) N (StructD g.S) g.env (hookC g old skip) := by
  intro info ts rds olds hd hl hr hs
  rcases info with _ | si
  · exact plainHook_safe (D := fun _ _ => True) g.env none ts rds olds trivial hl hr hs
  · obtain ⟨q, hq, hql, hqf⟩ := hd
    simp only [hookC]
    refine index_safe _ (fun h2 i => ?_)
    split
    · rename_i hi
      refine Safe.bind (findProtoMapR_safe hO i si.idx q hi hq hqf) (fun m hm => ?_)
      split
      · exact plainHook_safe (D := fun _ _ => True) g.env none ts rds olds trivial hl hr
          (fun i t rd o h1 h2 h3 => Safe.mono (hs i t rd o h1 h2 h3) (by omega))
      · rename_i hne
        simp only [List.getElem?_eq_getElem hi, hq]
        have hm' : MapOK old[i] q m := by
          rcases hm with rfl | h
          · simp at hne
          · exact h
        exact readMapped_safe _ _ skip q ts rds hql (by simpa using hqf) hr (fun i t rd o h1 h2 h3 => Safe.mono (hs i t rd o h1 h2 h3) (by omega))
          (fun ty hty => hsk h2 ty (by simpa using hty)) old[i] m olds (by simpa using hO _ (List.getElem_mem hi)) hm' hl
    · exact Safe.fail _

theorem skipC_safe (hF : ∀ t ∈ g.S.fields, Described g.S t ∧ Checked g.env t) : ∀ (fuel N : Nat), N < fuel → ∀ ty : Option Nat,
    (∀ k, ty = some k → k < g.S.fields.length) → Safe (CI g old) N (skipC g old fuel ty) (fun _ => True)
  | 0, N, h, _, _ => absurd h (Nat.not_lt_zero N)
  | fuel + 1, N, h, some k, hk => by
    have hk' := hk k rfl
    simp only [skipC, List.getElem?_eq_getElem hk']
    obtain ⟨h1, h2⟩ := hF _ (List.getElem_mem hk')
    refine Safe.bind (readTy_safe g.env _ (hookC_safe hO (N := N) (skipC g old fuel) (fun h2 ty hty => skipC_safe hF fuel (N - 2) (by omega) ty hty)) _ _
      (described_structs _ h1) h2 (legal_dflt _ _ h2)) (fun _ _ => Safe.pure _ trivial)
  | fuel + 1, N, h, none, _ => by
    simp only [skipC]
    refine index_safe _ (fun h2 i => ?_)
    split
    · rename_i hi
      simp only [List.getElem?_eq_getElem hi]
      have key : ∀ p : Proto, (∀ f ∈ p, ∀ k, f.2 = some k → k < g.S.fields.length) → Safe (CI g old) (N - 2) (skipAll (skipC g old fuel) p) (fun _ => True) := by
        intro p hp
        induction p with
        | nil => exact Safe.pure _ trivial
        | cons f p ih =>
          simp only [skipAll]
          exact Safe.bind (skipC_safe hF fuel (N - 2) (by omega) f.2 (hp f (by simp))) (fun _ _ => ih (fun f hf => hp f (by simp [hf])))
      exact key _ (hO _ (List.getElem_mem hi))
    · exact Safe.fail _

end

end Verif.Vts
