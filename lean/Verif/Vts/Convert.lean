import Verif.Vts.Lemmas

namespace Verif.Vts

open Verif.Serialize

theorem readTys_get {σ : Type} (env : Env) (h : Hook σ) : ∀ (us : List Ty) (j : Nat) (u : Ty), us[j]? = some u →
    (readTys env h us)[j]? = some (readTy env h u)
  | [], j, u, hj => by simp at hj
  | t :: ts, 0, u, hj => by simp at hj; subst hj; simp [readTys]
  | t :: ts, j + 1, u, hj => by
    simp only [List.getElem?_cons_succ] at hj
    simp only [readTys, List.getElem?_cons_succ]
    exact readTys_get env h ts j u hj

theorem readTys_len {σ : Type} (env : Env) (h : Hook σ) : ∀ us : List Ty, (readTys env h us).length = us.length
  | [] => rfl
  | _ :: us => by simp [readTys, readTys_len env h us]

theorem dflts_get : ∀ (us : List Ty) (j : Nat) (u : Ty), us[j]? = some u → (dflt.dflts us)[j]? = some (dflt u)
  | [], j, u, hj => by simp at hj
  | t :: ts, 0, u, hj => by simp at hj; subst hj; simp [dflt.dflts]
  | t :: ts, j + 1, u, hj => by
    simp only [List.getElem?_cons_succ] at hj
    simp only [dflt.dflts, List.getElem?_cons_succ]
    exact dflts_get ts j u hj

theorem described_get (S : Schema) : ∀ (us : List Ty) (j : Nat) (u : Ty), DescribedAll S us → us[j]? = some u →
    Described S u
  | [], j, u, _, hj => by simp at hj
  | t :: ts, 0, u, h, hj => by simp at hj; subst hj; simp only [DescribedAll] at h; exact h.1
  | t :: ts, j + 1, u, h, hj => by
    simp only [List.getElem?_cons_succ] at hj
    simp only [DescribedAll] at h
    exact described_get S ts j u h.2 hj

theorem fresh_get : ∀ (us : List Ty) (os : List Val) (j : Nat) (u : Ty) (o : Val), Freshs us os → us[j]? = some u →
    os[j]? = some o → Fresh u o
  | [], os, j, u, o, _, hj, _ => by simp at hj
  | t :: ts, os, j, u, o, h, hj, ho => by
    cases os with
    | nil => simp [Freshs] at h
    | cons x os =>
      simp only [Freshs] at h
      cases j with
      | zero => simp at hj ho; subst hj ho; exact h.1
      | succ j =>
        simp only [List.getElem?_cons_succ] at hj ho
        exact fresh_get ts os j u o h.2 hj ho

theorem freshs_length : ∀ (us : List Ty) (os : List Val), Freshs us os → os.length = us.length
  | [], os, h => by cases os with
    | nil => rfl
    | cons _ _ => simp [Freshs] at h
  | t :: ts, os, h => by
    cases os with
    | nil => simp [Freshs] at h
    | cons x os =>
      simp only [Freshs] at h
      simp [freshs_length ts os h.2]

theorem describes_get (S : Schema) : ∀ (p : Proto) (ts : List Ty) (j : Nat) (f : Name × Option Nat) (t : Ty),
    DescribesFields S p ts → p[j]? = some f → ts[j]? = some t →
    (match f.2 with
      | none => isStruct t = true
      | some k => isStruct t = false ∧ S.fields[k]? = some t)
  | [], ts, j, f, t, _, hj, _ => by simp at hj
  | (n, ty) :: p, ts, j, f, t, h, hj, ht => by
    cases ts with
    | nil => simp [DescribesFields] at h
    | cons x ts =>
      simp only [DescribesFields] at h
      cases j with
      | zero => simp at hj ht; subst hj ht; exact h.1
      | succ j =>
        simp only [List.getElem?_cons_succ] at hj ht
        exact describes_get S p ts j f t h.2 hj ht

theorem describes_length (S : Schema) : ∀ (p : Proto) (ts : List Ty), DescribesFields S p ts → p.length = ts.length
  | [], ts, h => by cases ts with
    | nil => rfl
    | cons _ _ => simp [DescribesFields] at h
  | (n, ty) :: p, ts, h => by
    cases ts with
    | nil => simp [DescribesFields] at h
    | cons x ts =>
      simp only [DescribesFields] at h
      simp [describes_length S p ts h.2]

/-! ### Containers -/

theorem collInsert_add (k : Coll) (hk : k ≠ .ring 0) (key : Val → Val) (x : Val) (l : List Val) :
    collInsert k key x l = .ok (collAdd k key l x) := by
  cases k with
  | deque => rfl
  | ring cap =>
    have : cap ≠ 0 := by intro h; subst h; exact hk rfl
    simp only [collInsert, collAdd]
    rw [if_neg this]
    split <;> rfl
  | ordered lt => rfl
  | hashed eq => rfl

section

variable {σ : Type} {I : σ → Prop}

theorem writeEach_conv_coll (k : Coll) (hk : k ≠ .ring 0) (key : Val → Val) (wr : Val → Res (List UInt8))
    (rd : Rd σ Val) (F : Val → Val) (N : Nat) : ∀ (vs acc : List Val) (bs : List UInt8), writeEach wr vs = .ok bs →
    bs.length ≤ N →
    (∀ v ∈ vs, ∀ b, wr v = .ok b → b.length ≤ N → Exact I rd b (F v)) →
    Exact I (readColl k key rd vs.length acc) bs ((vs.map F).foldl (collAdd k key) acc)
  | [], acc, bs, h, _, _ => by
    simp only [writeEach, Res.ok.injEq] at h
    subst h
    exact Exact.pure acc
  | v :: vs, acc, bs, h, hN, hr => by
    simp only [writeEach] at h
    obtain ⟨b1, e1, h⟩ := Res.bind_eq_ok.mp h
    obtain ⟨b2, e2, h⟩ := Res.bind_eq_ok.mp h
    simp only [Res.ok.injEq] at h
    subst h
    simp only [List.length_append] at hN
    simp only [List.length_cons, readColl, List.map_cons, List.foldl_cons]
    refine Exact.bind (hr v (by simp) b1 e1 (by omega)) ?_
    refine Exact.nil_bind (Exact.lift (collInsert_add k hk key (F v) acc)) ?_
    exact writeEach_conv_coll k hk key wr rd F N vs _ b2 e2 (by omega) (fun w hw => hr w (by simp [hw]))

theorem writeEach_conv_each (wr : Val → Res (List UInt8)) (rd : Val → Rd σ Val) (F : Val → Val → Val) (N : Nat) :
    ∀ (vs os : List Val) (bs : List UInt8), os.length = vs.length → writeEach wr vs = .ok bs → bs.length ≤ N →
    (∀ v ∈ vs, ∀ o ∈ os, ∀ b, wr v = .ok b → b.length ≤ N → Exact I (rd o) b (F v o)) →
    Exact I (readEach rd os) bs (List.zipWith F vs os)
  | [], os, bs, hl, h, _, _ => by
    have : os = [] := List.eq_nil_of_length_eq_zero hl
    subst this
    simp only [writeEach, Res.ok.injEq] at h
    subst h
    exact Exact.pure []
  | v :: vs, os, bs, hl, h, hN, hr => by
    cases os with
    | nil => simp at hl
    | cons o os =>
      simp only [writeEach] at h
      obtain ⟨b1, e1, h⟩ := Res.bind_eq_ok.mp h
      obtain ⟨b2, e2, h⟩ := Res.bind_eq_ok.mp h
      simp only [Res.ok.injEq] at h
      subst h
      simp only [List.length_append] at hN
      simp only [readEach, List.zipWith_cons_cons]
      refine Exact.bind (hr v (by simp) o (by simp) b1 e1 (by omega)) ?_
      refine Exact.bind_nil (writeEach_conv_each wr rd F N vs os b2 (by simpa using hl) e2 (by omega)
        (fun w hw p hp => hr w (by simp [hw]) p (by simp [hp]))) (Exact.pure _)

theorem convertEach_zipWith (F : Val → Val → Val) (d : Val) : ∀ (vs os os' : List Val),
    os' = os.take vs.length ++ List.replicate (vs.length - os.length) d →
    convertEach F d vs os = List.zipWith F vs os'
  | [], os, os', h => by simp at h; subst h; simp [convertEach]
  | v :: vs, [], os', h => by
    simp only [List.take_nil, List.length_cons, List.nil_append, List.length_nil, Nat.sub_zero,
      List.replicate_succ] at h
    subst h
    simp only [convertEach, List.zipWith_cons_cons]
    rw [convertEach_zipWith F d vs [] (List.replicate vs.length d) (by simp)]
  | v :: vs, o :: os, os', h => by
    simp only [List.length_cons, List.take_succ_cons, List.cons_append, Nat.add_sub_add_right] at h
    subst h
    simp only [convertEach, List.zipWith_cons_cons]
    rw [convertEach_zipWith F d vs os _ rfl]

end

/-! ### Conversion -/

section

variable (nm₁ : Ty → Name) (g : Cfg) (φ : Nat → Nat) (S₁ : Schema) (old : List Proto)

/-- The type of a field of the writing program as it is numbered by the reading program. -/
def attachTy (t : Ty) : Option Nat := if isStruct t then none else findName (g.S.fields.map g.nm) (g.tm (nm₁ t))

/-- What is known about the prototypes read from the stream. -/
def OldOk : Prop := ∀ (i : Nat) (p : Proto) (ts : List Ty), S₁.protos[i]? = some p → DescribesFields S₁ p ts →
  old[i]? = some (List.zipWith (fun f t => (f.1, attachTy nm₁ g t)) p ts)

/-- The invariant of the cache. -/
def Inv (c : Cache) : Prop := ∀ i n m, c i = some (n, m) → n = φ i ∧
  ∃ l r, old[i]? = some l ∧ g.S.protos[n]? = some r ∧
    mapPrototypes (g.S.fields.map g.nm) (g.ren n) l r = .ok m

theorem findProtoMap_exact (i : Nat) (l r : Proto) (m : List (Option Nat)) (hl : old[i]? = some l)
    (hr : g.S.protos[φ i]? = some r) (hm : mapPrototypes (g.S.fields.map g.nm) (g.ren (φ i)) l r = .ok m) :
    Exact (Inv g φ old) (findProtoMapR g old i (φ i)) [] m := by
  intro c hc
  refine ⟨fun rest => ?_, fun p hp hne => absurd (List.prefix_nil.mp hp) hne⟩
  simp only [findProtoMapR, findProtoMap, List.nil_append]
  cases hci : c i with
  | none =>
    simp only [hl, hr, hm]
    refine ⟨_, ?_, rfl⟩
    intro k n' m' hk
    simp only [Cache.set] at hk
    split at hk
    · rename_i heq
      subst heq
      simp only [Option.some.injEq, Prod.mk.injEq] at hk
      obtain ⟨rfl, rfl⟩ := hk
      exact ⟨rfl, l, r, hl, hr, hm⟩
    · exact hc k n' m' hk
  | some x =>
    obtain ⟨n', m'⟩ := x
    obtain ⟨rfl, l', r', hl', hr', hm'⟩ := hc i n' m' hci
    rw [hl] at hl'
    rw [hr] at hr'
    simp only [Option.some.injEq] at hl' hr'
    subst hl' hr'
    rw [hm] at hm'
    simp only [Res.ok.injEq] at hm'
    subst hm'
    exact ⟨c, hc, by simp⟩

/-- Reading what the other version wrote gives the converted value. -/
def P (t : Ty) : Prop := ∀ v u o bs f, HasTy g.env t v → Described S₁ t → Described g.S u → Evolves nm₁ g φ t u →
  Fresh u o → writeTy g.env preV t v = .ok bs → bs.length < f →
  Exact (Inv g φ old) (readTy g.env (hookV g old (skipField g old f)) u o) bs (convert g.ren t v u o)

/-- The condition for a removed field of the type `t`. -/
def CanSkip (t : Ty) : Prop :=
  (isStruct t = false ∧ ∃ (k : Nat) (u : Ty), g.S.fields[k]? = some u ∧
    (g.S.fields.map g.nm).findIdx? (· == g.tm (nm₁ t)) = some k ∧ Described g.S u ∧ Evolves nm₁ g φ t u) ∨
  (isStruct t = true ∧ Skips nm₁ g φ t)

/-- Skipping a field consumes its bytes. -/
def SkipP (t : Ty) : Prop := ∀ v bs f, HasTy g.env t v → Described S₁ t → CanSkip nm₁ g φ t →
  writeTy g.env preV t v = .ok bs → bs.length + 1 < f →
  Exact (Inv g φ old) (skipField g old f (attachTy nm₁ g t)) bs ()

variable {nm₁ g φ S₁ old}

theorem skip_simple (t : Ty) (hs : isStruct t = false) (hP : P nm₁ g φ S₁ old t) : SkipP nm₁ g φ S₁ old t := by
  intro v bs f hv hd hc hw hf
  rcases hc with ⟨_, k, u, h1, h2, h3, h4⟩ | ⟨h, _⟩
  · obtain ⟨f, rfl⟩ : ∃ f', f = f' + 1 := ⟨f - 1, by omega⟩
    have ha : attachTy nm₁ g t = some k := by
      unfold attachTy findName
      rw [if_neg (by simp [hs])]
      exact h2
    rw [ha]
    simp only [skipField, h1]
    exact Exact.bind_nil (hP v u (dflt u) bs f hv hd h3 h4 (fresh_dflt u) hw (by omega)) (Exact.pure _)
  · simp [hs] at h

theorem skipAll_exact (f : Nat) : ∀ (ts : List Ty), (∀ t ∈ ts, SkipP nm₁ g φ S₁ old t) →
    ∀ (p : Proto) (vs : List Val) (bs : List UInt8), HasTys g.env ts vs → DescribedAll S₁ ts →
    DescribesFields S₁ p ts → SkipsAll nm₁ g φ ts → writeFields (writeTys g.env preV ts) vs = .ok bs →
    bs.length + 1 < f →
    Exact (Inv g φ old) (skipAll (skipField g old f) (List.zipWith (fun x t => (x.1, attachTy nm₁ g t)) p ts)) bs ()
  | [], _, p, vs, bs, hv, _, hd, _, hw, _ => by
    cases vs with
    | nil =>
      cases p with
      | nil =>
        simp only [writeTys, writeFields, Res.ok.injEq] at hw
        subst hw
        exact Exact.pure ()
      | cons _ _ => simp [DescribesFields] at hd
    | cons _ _ => simp [HasTys] at hv
  | t :: ts, hP, p, vs, bs, hv, hD, hd, hs, hw, hf => by
    cases vs with
    | nil => simp [HasTys] at hv
    | cons v vs =>
      cases p with
      | nil => simp [DescribesFields] at hd
      | cons x p =>
        obtain ⟨n, ty⟩ := x
        simp only [HasTys] at hv
        simp only [DescribedAll] at hD
        simp only [DescribesFields] at hd
        simp only [SkipsAll] at hs
        simp only [writeTys, writeFields] at hw
        obtain ⟨b1, e1, hw⟩ := Res.bind_eq_ok.mp hw
        obtain ⟨b2, e2, hw⟩ := Res.bind_eq_ok.mp hw
        simp only [Res.ok.injEq] at hw
        subst hw
        simp only [List.length_append] at hf
        simp only [List.zipWith_cons_cons, skipAll]
        refine Exact.bind (hP t (by simp) v b1 f hv.1 hD.1 hs.1 e1 (by omega)) ?_
        exact skipAll_exact f ts (fun t ht => hP t (by simp [ht])) p vs b2 hv.2 hD.2 hd.2 hs.2 e2 (by omega)

theorem readStructIndex_exact {σ : Type} {I : σ → Prop} (i : Nat) (h : i < 2 ^ 16) :
    Exact I (readStructIndex : Rd σ Nat) (leBytes 2 i) i := by
  unfold readStructIndex
  refine Exact.bind_nil (Exact.readRaw _ 2 (by simp)) ?_
  rw [leVal_leBytes 2 i (by norm_num at h ⊢; exact h)]
  exact Exact.pure i

theorem skip_struct (ho : OldOk nm₁ g S₁ old) (si : SInfo) (ts : List Ty) (hP : ∀ t ∈ ts, SkipP nm₁ g φ S₁ old t) :
    SkipP nm₁ g φ S₁ old (.struct (some si) ts) := by
  intro v bs f hv hd hc hw hf
  cases v with
  | list vs =>
    simp only [HasTy] at hv
    simp only [Described] at hd
    obtain ⟨hi, ⟨p, hp1, hp2, hp3⟩, hD⟩ := hd
    rcases hc with ⟨h, _⟩ | ⟨_, hs⟩
    · simp [isStruct] at h
    · simp only [Skips] at hs
      simp only [writeTy] at hw
      obtain ⟨b, e, hw⟩ := Res.bind_eq_ok.mp hw
      simp only [Res.ok.injEq] at hw
      subst hw
      obtain ⟨f, rfl⟩ : ∃ f', f = f' + 1 := ⟨f - 1, by omega⟩
      have ha : attachTy nm₁ g (.struct (some si) ts) = none := by simp [attachTy, isStruct]
      rw [ha]
      simp only [skipField, preV]
      simp only [preV, List.length_append, leBytes_length] at hf
      refine Exact.bind (readStructIndex_exact si.idx hi) ?_
      simp only [ho si.idx p ts hp1 hp3]
      exact skipAll_exact f ts hP p vs b hv hD hp3 hs e (by omega)
  | _ => simp [HasTy] at hv

theorem evolves_elemKind {a b : Ty} (h : Evolves nm₁ g φ a b) : elemKind b = elemKind a := by
  cases a with
  | struct i ts =>
    cases b with
    | struct j us => rfl
    | _ => cases i <;> simp [Evolves] at h
  | _ => cases b <;> simp_all [Evolves, elemKind]

theorem vector_exact (a b : Ty) (hP : P nm₁ g φ S₁ old a) (vs os : List Val) (bs : List UInt8) (f : Nat)
    (hl : os.length = vs.length) (hne : ∀ n c, a ≠ .enm n c) (hv : ∀ v ∈ vs, HasTy g.env a v) (hd : Described S₁ a)
    (hd' : Described g.S b) (he : Evolves nm₁ g φ a b) (hf : ∀ o ∈ os, Fresh b o)
    (hw : writeVector (elemKind a) (writeTy g.env preV a) vs = .ok bs) (hlen : bs.length < f) :
    Exact (Inv g φ old) (readVector (elemKind b) (readTy g.env (hookV g old (skipField g old f)) b) os) bs
      (List.zipWith (fun v o => convert g.ren a v b o) vs os) := by
  have hk := evolves_elemKind he
  rw [hk]
  have same : ∀ (F : Val → Val → Val), (∀ v ∈ vs, ∀ o, F v o = v) → List.zipWith F vs os = vs := by
    intro F hF
    clear hw hv hf hlen
    induction vs generalizing os with
    | nil => simp
    | cons v vs ih =>
      cases os with
      | nil => simp at hl
      | cons o os =>
        simp only [List.zipWith_cons_cons, hF v (by simp)]
        rw [ih os (by simpa using hl) (fun w hw => hF w (by simp [hw]))]
  cases a with
  | enm n c => exact absurd rfl (hne n c)
  | num n =>
    rw [same _ (by intro v _ o; simp [convert])]
    have hv' : ∀ v ∈ vs, ∃ x, v = Val.num x ∧ x < 256 ^ n := fun v hv' => hasTy_num (hv v hv')
    simp only [elemKind, writeVector] at hw
    obtain ⟨l, s⟩ := splitNums_numBytes n vs bs [] hv' hw
    simp only [elemKind, readVector]
    refine Exact.bind_nil (Exact.readRaw bs _ (by rw [hl]; exact l)) ?_
    rw [List.append_nil] at s
    rw [hl, s]
    exact Exact.pure vs
  | bool =>
    rw [same _ (by intro v _ o; simp [convert])]
    obtain ⟨bs', e1, e2⟩ := toBools_map vs (fun v hv' => hasTy_bool (hv v hv'))
    simp only [elemKind, writeVector, e1, Res.ok_bind, Res.ok.injEq] at hw
    subst hw
    simp only [elemKind, readVector]
    rw [hl, e2, List.length_map]
    exact (writeBits_exact bs').2 0
  | _ =>
    exact writeEach_conv_each _ _ _ bs.length vs os bs hl hw (Nat.le_refl _) (by
      intro v hv' o ho' b' hb hb'
      exact hP v b o b' f (hv v hv') hd hd' he (hf o ho') hb (by omega))

theorem findName_get {names : List Name} {n : Name} (h : n ∈ names) : ∃ x, findName names n = some x ∧ names[x]? = some n := by
  unfold findName
  cases hx : names.findIdx? (· == n) with
  | none =>
    rw [List.findIdx?_eq_none_iff] at hx
    have := hx n h
    simp at this
  | some x =>
    rw [List.findIdx?_eq_some_iff_getElem] at hx
    obtain ⟨h1, h2, _⟩ := hx
    refine ⟨x, rfl, ?_⟩
    rw [List.getElem?_eq_getElem h1]
    simpa using h2

theorem items_ok (rn : Name → Name) (q : Proto) (us : List Ty) (os : List Val) (f N : Nat)
    (hq : DescribesFields g.S q us) (hD' : DescribedAll g.S us) (hfr : Freshs us os) (hNf : N + 1 < f) :
    ∀ (ts : List Ty), (∀ t ∈ ts, P nm₁ g φ S₁ old t ∧ SkipP nm₁ g φ S₁ old t) →
    ∀ (ns : List Name) (vs : List Val) (p : Proto) (bs : List UInt8), HasTys g.env ts vs → DescribedAll S₁ ts →
    DescribesFields S₁ p ts → p.map (·.1) = ns → EvolvesFields nm₁ g φ rn (q.map (·.1)) us ns ts →
    writeFields (writeTys g.env preV ts) vs = .ok bs → bs.length ≤ N →
    ∃ items : List Item,
      (items.map fun it => (it.n, it.ty)) = List.zipWith (fun x t => (x.1, attachTy nm₁ g t)) p ts ∧
      (items.map fun it => (rn it.n, it.f)) =
        (ns.map rn).zip (List.zipWith (fun f v => f v) (converts g.ren ts) vs) ∧
      (items.map fun it => rn it.n) = ns.map rn ∧ items.length = ts.length ∧
      items.flatMap (·.bs) = bs ∧
      ∀ it ∈ items, ItemOk (Inv g φ old) (g.S.fields.map g.nm) g.allowDelete rn (skipField g old f) q
        (readTys g.env (hookV g old (skipField g old f)) us) us os it
  | [], _, ns, vs, p, bs, hv, _, hd, hn, _, hw, _ => by
    cases vs with
    | nil =>
      cases p with
      | nil =>
        simp only [writeTys, writeFields, Res.ok.injEq] at hw
        subst hw
        simp only [List.map_nil] at hn
        subst hn
        exact ⟨[], by simp, by simp, by simp, rfl, rfl, by simp⟩
      | cons _ _ => simp [DescribesFields] at hd
    | cons _ _ => simp [HasTys] at hv
  | t :: ts, hP, ns, vs, p, bs, hv, hD, hd, hn, he, hw, hN => by
    cases vs with
    | nil => simp [HasTys] at hv
    | cons v vs =>
      cases p with
      | nil => simp [DescribesFields] at hd
      | cons x p =>
        obtain ⟨n, ty⟩ := x
        simp only [List.map_cons] at hn
        subst hn
        simp only [HasTys] at hv
        simp only [DescribedAll] at hD
        simp only [DescribesFields] at hd
        simp only [EvolvesFields] at he
        simp only [writeTys, writeFields] at hw
        obtain ⟨b1, e1, hw⟩ := Res.bind_eq_ok.mp hw
        obtain ⟨b2, e2, hw⟩ := Res.bind_eq_ok.mp hw
        simp only [Res.ok.injEq] at hw
        subst hw
        simp only [List.length_append] at hN
        obtain ⟨items, i1, i2, i3, i4, i5, i6⟩ := items_ok rn q us os f N hq hD' hfr hNf ts
          (fun t ht => hP t (by simp [ht])) (p.map (·.1)) vs p b2 hv.2 hD.2 hd.2 rfl he.2 e2 (by omega)
        refine ⟨⟨n, attachTy nm₁ g t, fun u o => convert g.ren t v u o, b1⟩ :: items, ?_, ?_, ?_, ?_, ?_, ?_⟩
        · simp [i1]
        · simp [i2, converts]
        · simp [i3]
        · simp [i4]
        · simp [i5]
        · intro it hit
          rcases List.mem_cons.mp hit with hit | hit
          · subst hit
            rcases he.1 with ⟨j, u, h1, h2, h3, h4, h5⟩ | ⟨h1, h2, h3⟩
            · left
              simp only [List.getElem?_map, Option.map_eq_some_iff] at h1
              obtain ⟨⟨n', r⟩, h1, h1'⟩ := h1
              simp only at h1'
              subst h1'
              have hjq : j < q.length := (List.getElem?_eq_some_iff.mp h1).1
              have hlq := describes_length g.S q us hq
              have hlo := freshs_length us os hfr
              have ho : os[j]? = some os[j] := List.getElem?_eq_getElem (by omega)
              refine ⟨j, r, u, _, os[j], h1, h2, readTys_get _ _ us j u h2, ho, ?_, ?_⟩
              · have hdg := describes_get g.S q us j _ u hq h1 h2
                cases r with
                | none =>
                  simp only at hdg
                  left
                  simp [attachTy, h3, hdg]
                | some k =>
                  simp only at hdg
                  right
                  have hnm := h4 hdg.1
                  have hmem : g.nm u ∈ g.S.fields.map g.nm := List.mem_map.mpr ⟨u, List.mem_of_getElem? hdg.2, rfl⟩
                  obtain ⟨y, hy1, hy2⟩ := findName_get hmem
                  refine ⟨y, k, g.nm u, ?_, rfl, hy2, ?_⟩
                  · simp [attachTy, h3, hdg.1, hnm, hy1]
                  · simp [hdg.2]
              · exact (hP t (by simp)).1 v u os[j] b1 f hv.1 hD.1 (described_get g.S us j u hD' h2) h5
                  (fresh_get us os j u _ hfr h2 ho) e1 (by omega)
            · right
              exact ⟨h1, h2, (hP t (by simp)).2 v b1 f hv.1 hD.1 h3 e1 (by omega)⟩
          · exact i6 it hit

theorem struct_conv (ho : OldOk nm₁ g S₁ old) (i : SInfo) (ts : List Ty)
    (hP : ∀ t ∈ ts, P nm₁ g φ S₁ old t ∧ SkipP nm₁ g φ S₁ old t) : P nm₁ g φ S₁ old (.struct (some i) ts) := by
  intro v u o bs f hv hd hd' he hf hw hlen
  cases v with
  | list vs =>
    cases u with
    | struct j us =>
      cases j with
      | none => simp [Evolves] at he
      | some j =>
        cases o with
        | list os =>
          simp only [HasTy] at hv
          simp only [Fresh] at hf
          simp only [Described] at hd hd'
          obtain ⟨hi, ⟨p, hp1, hp2, hp3⟩, hD⟩ := hd
          obtain ⟨hj, ⟨q, hq1, hq2, hq3⟩, hD'⟩ := hd'
          simp only [Evolves] at he
          obtain ⟨hφ, hne, hl1, hl2, hnd1, hnd2, hE⟩ := he
          simp only [writeTy] at hw
          obtain ⟨b, e, hw⟩ := Res.bind_eq_ok.mp hw
          simp only [Res.ok.injEq] at hw
          subst hw
          simp only [preV, List.length_append, leBytes_length] at hlen
          obtain ⟨items, i1, i2, i3, i4, i5, i6⟩ := items_ok (g.ren j.idx) q us os f b.length hq3 hD' hf (by omega) ts hP
            i.names vs p b hv hD hp3 hp2 (by rw [hq2]; exact hE) e (Nat.le_refl _)
          have hlq := describes_length g.S q us hq3
          have hlo := freshs_length us os hf
          have hitems : items ≠ [] ∨ q = [] := by
            rcases hne with h | h
            · left
              intro hc
              subst hc
              simp only [List.length_nil] at i4
              apply h
              apply List.eq_nil_of_length_eq_zero
              omega
            · right
              rw [h] at hq2
              simpa using hq2
          obtain ⟨m, hm, hx⟩ := struct_exact (I := Inv g φ old) (allowDelete := g.allowDelete)
            (names := g.S.fields.map g.nm) items (by rw [hq2]; exact hnd2)
            (by rw [i3]; exact hnd1) (by omega) (by omega) (by rw [readTys_len]; omega) i6 hitems
          rw [i1] at hm hx
          rw [i2, i5, hq2] at hx
          have hold := ho i.idx p ts hp1 hp3
          simp only [readTy, convert, preV]
          refine Exact.bind_nil ?_ (Exact.pure _)
          simp only [hookV]
          refine Exact.bind (readStructIndex_exact i.idx hi) ?_
          rw [← hφ] at hm hq1
          have := findProtoMap_exact g φ old i.idx _ q m hold hq1 hm
          rw [hφ] at this hq1
          refine Exact.nil_bind this ?_
          simp only [hold, hq1]
          exact hx
        | _ => simp [Fresh] at hf
    | _ => simp [Evolves] at he
  | _ => simp [HasTy] at hv

end

end Verif.Vts
