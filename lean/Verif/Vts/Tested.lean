import Verif.Vts.Arbitrary

/-!
# The reader of the code and the reader that tests the indices differ only where the test fails
-/

namespace Verif.Vts

open Verif.Serialize

/-- Maps are kept only for structures of the tables. -/
def Kept (old : List Proto) (c : Cache) : Prop := ∀ i x, c i = some x → i < old.length

/-- `rd` does what `rd'` does, or is undefined where `rd'` throws. -/
def Rel {α : Type} (old : List Proto) (rd rd' : Rd Cache α) : Prop :=
  ∀ c s, Kept old c → (rd c s = rd' c s ∧ ∀ a c' s', rd c s = .ok (a, c', s') → Kept old c') ∨ (rd c s = .ub ∧ rd' c s = .throw .corruption)

variable {old : List Proto}

theorem Rel.bind {α β : Type} {f f' : Rd Cache α} {k k' : α → Rd Cache β} (hf : Rel old f f') (hk : ∀ a, Rel old (k a) (k' a)) : Rel old (f >>= k) (f' >>= k') := by
  intro c s hc
  simp only [Rd.bind_def]
  rcases hf c s hc with ⟨h1, h2⟩ | ⟨h1, h2⟩
  · rw [← h1]
    rcases hr : f c s with ⟨a, c', s'⟩ | e | _
    · exact hk a c' s' (h2 a c' s' hr)
    · exact .inl ⟨rfl, nofun⟩
    · exact .inl ⟨rfl, nofun⟩
  · rw [h1, h2]
    exact .inr ⟨rfl, rfl⟩

theorem Rel.same {α : Type} {f : Rd Cache α} (h : ∀ c s a c' s', f c s = .ok (a, c', s') → c' = c) : Rel old f f :=
  fun c s hc => .inl ⟨rfl, fun a c' s' hr => by rw [h c s a c' s' hr]; exact hc⟩

theorem Rel.pure {α : Type} (a : α) : Rel old (Pure.pure a : Rd Cache α) (Pure.pure a) :=
  Rel.same fun c s b c' s' h => by rw [Rd.pure_def] at h; cases h; rfl

theorem Rel.fail {α : Type} (e : Exn) : Rel old (Rd.fail e : Rd Cache α) (Rd.fail e) := Rel.same fun c s b c' s' h => by simp [Rd.fail] at h

theorem Rel.ub {α : Type} : Rel old (Rd.ub : Rd Cache α) Rd.ub := Rel.same fun c s b c' s' h => by simp [Rd.ub] at h

theorem Rel.lift {α : Type} (r : Res α) : Rel old (Rd.lift r : Rd Cache α) (Rd.lift r) :=
  Rel.same fun c s b c' s' h => by cases r <;> simp [Rd.lift] at h; exact h.2.1.symm

theorem Rel.readRaw (n : Nat) : Rel old (readRaw n) (readRaw n) :=
  Rel.same fun c s b c' s' h => by
    unfold Serialize.readRaw at h
    split at h
    · cases h
    · cases h; rfl

theorem Rel.readSize : Rel old readSize readSize := Rel.bind (Rel.readRaw 8) fun _ => Rel.pure _

theorem Rel.readStructIndex : Rel old readStructIndex readStructIndex := Rel.bind (Rel.readRaw 2) fun _ => Rel.pure _

theorem readBits_rel : ∀ n aggr mask, Rel old (readBits n aggr mask) (readBits n aggr mask)
  | 0, _, _ => by simp only [readBits]; exact Rel.pure _
  | n + 1, aggr, mask => by
    simp only [readBits]
    split
    · exact Rel.bind (Rel.readRaw 1) fun _ => Rel.bind (readBits_rel n _ _) fun _ => Rel.pure _
    · exact Rel.bind (readBits_rel n _ _) fun _ => Rel.pure _

theorem readEach_rel {rd rd' : Val → Rd Cache Val} (h : ∀ o, Rel old (rd o) (rd' o)) : ∀ vs, Rel old (readEach rd vs) (readEach rd' vs)
  | [] => Rel.pure _
  | v :: vs => Rel.bind (h v) fun _ => Rel.bind (readEach_rel h vs) fun _ => Rel.pure _

theorem readVector_rel {rd rd' : Val → Rd Cache Val} (h : ∀ o, Rel old (rd o) (rd' o)) (k : EK) (vs : List Val) :
    Rel old (readVector k rd vs) (readVector k rd' vs) := by
  cases k with
  | raw n => exact Rel.bind (Rel.readRaw _) fun _ => Rel.pure _
  | each => exact readEach_rel h vs
  | packed => exact readBits_rel _ _ _
  | bad => exact Rel.ub

theorem readColl_rel {rd rd' : Rd Cache Val} (h : Rel old rd rd') (k : Coll) (key : Val → Val) : ∀ n acc, Rel old (readColl k key rd n acc) (readColl k key rd' n acc)
  | 0, _ => Rel.pure _
  | n + 1, _ => Rel.bind h fun _ => Rel.bind (Rel.lift _) fun a => readColl_rel h k key n a

/-- Readers of fields, one by one. -/
def Rels (old : List Proto) : List (Val → Rd Cache Val) → List (Val → Rd Cache Val) → Prop
  | [], [] => True
  | rd :: rds, rd' :: rds' => (∀ o, Rel old (rd o) (rd' o)) ∧ Rels old rds rds'
  | _, _ => False

theorem rels_get : ∀ {rds rds' : List (Val → Rd Cache Val)}, Rels old rds rds' → ∀ i : Nat,
    (rds[i]? = none ∧ rds'[i]? = none) ∨ ∃ rd rd', rds[i]? = some rd ∧ rds'[i]? = some rd' ∧ ∀ o, Rel old (rd o) (rd' o)
  | [], [], _, i => by simp
  | [], _ :: _, h, _ => by simp [Rels] at h
  | _ :: _, [], h, _ => by simp [Rels] at h
  | rd :: rds, rd' :: rds', h, 0 => .inr ⟨rd, rd', rfl, rfl, h.1⟩
  | rd :: rds, rd' :: rds', h, i + 1 => by simpa using rels_get h.2 i

theorem readFields_rel : ∀ {rds rds' : List (Val → Rd Cache Val)}, Rels old rds rds' → ∀ vs, Rel old (readFields rds vs) (readFields rds' vs)
  | [], [], _, [] => Rel.pure _
  | [], [], _, _ :: _ => Rel.ub
  | [], _ :: _, h, _ => by simp [Rels] at h
  | _ :: _, [], h, _ => by simp [Rels] at h
  | _ :: _, _ :: _, _, [] => Rel.ub
  | _ :: _, _ :: _, h, v :: vs => Rel.bind (h.1 v) fun _ => Rel.bind (readFields_rel h.2 vs) fun _ => Rel.pure _

section

variable {env : Env} {h h' : Hook Cache} (hh : ∀ info rds rds' vs, Rels old rds rds' → Rel old (h info rds vs) (h' info rds' vs))

set_option linter.unusedSectionVars false

include hh

mutual

theorem readTy_rel : ∀ (t : Ty) (o : Val), Rel old (readTy env h t o) (readTy env h' t o)
  | .num n _, o => by simp only [readTy]; exact Rel.bind (Rel.readRaw n) fun _ => Rel.pure _
  | .bool, o => by simp only [readTy]; exact Rel.bind (Rel.readRaw 1) fun _ => Rel.pure _
  | .enm n c, o => by
    simp only [readTy]
    refine Rel.bind (Rel.readRaw n) fun _ => ?_
    split
    · exact Rel.fail _
    · exact Rel.pure _
  | .time p q, o => by simp only [readTy]; exact Rel.bind (Rel.readRaw 8) fun _ => Rel.bind (Rel.lift _) fun _ => Rel.pure _
  | .str c, o => by
    simp only [readTy]
    refine Rel.bind Rel.readSize fun _ => ?_
    split
    · exact Rel.fail _
    · exact Rel.bind (Rel.lift _) fun _ => Rel.bind (Rel.readRaw _) fun _ => Rel.pure _
  | .vec t, o => by
    simp only [readTy]
    refine Rel.bind Rel.readSize fun _ => ?_
    cases o with
    | list vs => exact Rel.bind (Rel.lift _) fun _ => Rel.bind (readVector_rel (readTy_rel t) _ _) fun _ => Rel.pure _
    | _ => exact Rel.ub
  | .arr n t, o => by
    simp only [readTy]
    cases o with
    | list vs => exact Rel.bind (readVector_rel (readTy_rel t) _ _) fun _ => Rel.pure _
    | _ => exact Rel.ub
  | .opt t _, o => by
    simp only [readTy]
    refine Rel.bind (Rel.readRaw 1) fun _ => ?_
    split
    · exact Rel.bind (readTy_rel t _) fun _ => Rel.pure _
    · exact Rel.pure _
  | .coll k t, o => by
    simp only [readTy]
    refine Rel.bind Rel.readSize fun _ => ?_
    cases o with
    | list vs => exact Rel.bind (readColl_rel (readTy_rel t _) _ _ _ _) fun _ => Rel.pure _
    | _ => exact Rel.ub
  | .map k kt vt, o => by
    simp only [readTy]
    refine Rel.bind Rel.readSize fun _ => ?_
    cases o with
    | list vs =>
      exact Rel.bind (readColl_rel (Rel.bind (readTy_rel kt _) fun _ => Rel.bind (readTy_rel vt _) fun _ => Rel.pure _) _ _ _ _) fun _ => Rel.pure _
    | _ => exact Rel.ub
  | .var ts, o => by
    simp only [readTy]
    refine Rel.bind Rel.readSize fun i => ?_
    rcases rels_get (readTys_rel ts) i with ⟨h1, h2⟩ | ⟨rd, rd', h1, h2, h3⟩
    · rw [h1, h2]
      exact Rel.ub
    · rw [h1, h2]
      rcases (dflt.dflts ts)[i]? with _ | d
      · exact Rel.ub
      · exact Rel.bind (h3 d) fun _ => Rel.pure _
  | .struct info ts, o => by
    simp only [readTy]
    cases o with
    | list vs => exact Rel.bind (hh info _ _ vs (readTys_rel ts)) fun _ => Rel.pure _
    | _ => exact Rel.ub

theorem readTys_rel : ∀ ts : List Ty, Rels old (readTys env h ts) (readTys env h' ts)
  | [] => by simp [readTys, Rels]
  | t :: ts => by simp only [readTys, Rels]; exact ⟨readTy_rel t, readTys_rel ts⟩

end

end

theorem readMapped_rel (names : List Name) (ad : Bool) {skip skip' : Option Nat → Rd Cache Unit} (hs : ∀ ty, Rel old (skip ty) (skip' ty)) (q : Proto)
    {rds rds' : List (Val → Rd Cache Val)} (hr : Rels old rds rds') : ∀ (l : List ((Name × Option Nat) × Option Nat)) (vs : List Val),
    Rel old (readMapped names ad skip q rds l vs) (readMapped names ad skip' q rds' l vs)
  | [], vs => Rel.pure _
  | (f, none) :: ps, vs => by
    simp only [readMapped]
    split
    · exact Rel.bind (hs f.2) fun _ => readMapped_rel names ad hs q hr ps vs
    · exact Rel.fail _
  | (f, some j) :: ps, vs => by
    simp only [readMapped]
    rcases rels_get hr j with ⟨h1, h2⟩ | ⟨rd, rd', h1, h2, h3⟩
    · rw [h1, h2]
      rcases q[j]? with _ | nf <;> exact Rel.ub
    · rw [h1, h2]
      rcases q[j]? with _ | nf
      · exact Rel.ub
      · rcases vs[j]? with _ | v
        · exact Rel.ub
        · refine Rel.bind (Rel.lift _) fun eq => ?_
          split
          · exact Rel.bind (h3 v) fun _ => readMapped_rel names ad hs q hr ps _
          · exact Rel.fail _

theorem findProtoMapR_rel (g : Cfg) (i n : Nat) (hi : i < old.length) : Rel old (findProtoMapR g old i n) (findProtoMapR g old i n) := by
  intro c s hc
  refine .inl ⟨rfl, ?_⟩
  intro a c' s' h
  unfold findProtoMapR findProtoMap at h
  rcases hci : c i with _ | ⟨n', m⟩
  · rw [hci] at h
    simp only [List.getElem?_eq_getElem hi] at h
    rcases hq : g.S.protos[n]? with _ | q
    · rw [hq] at h
      simp at h
    · rw [hq] at h
      simp only at h
      rcases hm : mapPrototypes (g.S.fields.map g.nm) (g.ren n) old[i] q with m | e | _
      · rw [hm] at h
        simp only [Res.ok.injEq, Prod.mk.injEq] at h
        obtain ⟨_, rfl, _⟩ := h
        intro i' x hx
        simp only [Cache.set] at hx
        split at hx
        · rename_i e
          exact e ▸ hi
        · exact hc i' x hx
      · rw [hm] at h
        simp at h
      · rw [hm] at h
        simp at h
  · rw [hci] at h
    simp only at h
    by_cases hn : n ≠ n'
    · rw [if_pos hn] at h
      simp at h
    · rw [if_neg hn] at h
      simp only [Res.ok.injEq, Prod.mk.injEq] at h
      obtain ⟨_, rfl, _⟩ := h
      exact hc

theorem hook_rel (g : Cfg) {skip skip' : Option Nat → Rd Cache Unit} (hs : ∀ ty, Rel old (skip ty) (skip' ty)) (info : Option SInfo)
    (rds rds' : List (Val → Rd Cache Val)) (vs : List Val) (hr : Rels old rds rds') : Rel old (hookV g old skip info rds vs) (hookC g old skip' info rds' vs) := by
  rcases info with _ | si
  · exact readFields_rel hr vs
  · simp only [hookV, hookC]
    refine Rel.bind Rel.readStructIndex fun i => ?_
    by_cases hi : i < old.length
    · rw [if_pos hi]
      refine Rel.bind (findProtoMapR_rel g i si.idx hi) fun m => ?_
      split
      · exact readFields_rel hr vs
      · rw [List.getElem?_eq_getElem hi]
        rcases g.S.protos[si.idx]? with _ | q
        · exact Rel.ub
        · exact readMapped_rel _ _ hs q hr _ vs
    · rw [if_neg hi]
      intro c s hc
      refine .inr ⟨?_, rfl⟩
      have h0 : c i = none := by
        rcases hx : c i with _ | x
        · rfl
        · exact absurd (hc i x hx) hi
      have h1 : old[i]? = none := List.getElem?_eq_none (by omega)
      simp only [Rd.bind_def, findProtoMapR, findProtoMap, h0, h1]

theorem skip_rel (g : Cfg) : ∀ (fuel : Nat) (ty : Option Nat), Rel old (skipField g old fuel ty) (skipC g old fuel ty)
  | 0, ty => by cases ty <;> exact Rel.ub
  | fuel + 1, some k => by
    simp only [skipField, skipC]
    rcases g.S.fields[k]? with _ | t
    · exact Rel.ub
    · exact Rel.bind (readTy_rel (fun info rds rds' vs hr => hook_rel g (skip_rel g fuel) info rds rds' vs hr) t _) fun _ => Rel.pure _
  | fuel + 1, none => by
    simp only [skipField, skipC]
    refine Rel.bind Rel.readStructIndex fun i => ?_
    by_cases hi : i < old.length
    · rw [if_pos hi, List.getElem?_eq_getElem hi]
      have key : ∀ p : Proto, Rel old (skipAll (skipField g old fuel) p) (skipAll (skipC g old fuel) p) := by
        intro p
        induction p with
        | nil => exact Rel.pure _
        | cons f p ih => exact Rel.bind (skip_rel g fuel f.2) fun _ => ih
      exact key _
    · rw [if_neg hi, List.getElem?_eq_none (by omega)]
      exact fun c s _ => .inr ⟨rfl, rfl⟩

/-- The two readers of a whole object. -/
theorem readV_readC (g : Cfg) (fuel : Nat) (t : Ty) (o : Val) (s : List UInt8) :
    readV g fuel t o s = readC g fuel t o s ∨ (readV g fuel t o s = .ub ∧ readC g fuel t o s = .throw .corruption) := by
  unfold readV readC
  rcases readOldPrototypes g s with ⟨old, s'⟩ | e | _
  · simp only [Res.ok_bind]
    unfold readBody
    rcases readTy_rel (env := g.env) (fun info rds rds' vs hr => hook_rel g (skip_rel (old := old) g fuel) info rds rds' vs hr) t o (fun _ => none) s' (fun i x h => by simp at h)
      with ⟨h, _⟩ | ⟨h1, h2⟩
    · rw [h]
      exact .inl rfl
    · rw [h1, h2]
      exact .inr ⟨rfl, rfl⟩
  · exact .inl rfl
  · exact .inl rfl

end Verif.Vts
