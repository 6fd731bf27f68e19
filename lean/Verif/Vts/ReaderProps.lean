import Verif.Vts.Props
import Verif.Vts.ReaderSpec
import Verif.Serialize.Safety

/-!
# A `Reader` that is used for several objects and streams: properties (C163)
-/

namespace Verif.Vts

open Verif.Serialize

/-! ### Lemmas -/

theorem writeObjects_ok (env : Env) : ∀ ts : List (Ty × Val), (∀ x ∈ ts, HasTy env x.1 x.2) →
    ∃ bs, writeObjects env ts = .ok bs
  | [], _ => ⟨[], rfl⟩
  | (t, v) :: ts, h => by
    obtain ⟨a, ha⟩ := writeTy_ok env t v (h (t, v) (by simp))
    obtain ⟨b, hb⟩ := writeObjects_ok env ts (fun x hx => h x (by simp [hx]))
    exact ⟨a ++ b, by simp [writeObjects, ha, hb]⟩

/-- Reading objects one after another, if every object is read with any cache satisfying the invariant. -/
theorem readObjects_exact {g : Cfg} {I : Cache → Prop} (fuel : Nat) (old : List Proto) :
    ∀ (xs : List (Pair × Val)) (bs : List UInt8),
    writeObjects g.env (xs.map fun x => (x.1.t, x.1.v)) = .ok bs → bs.length < fuel →
    (∀ x ∈ xs, ∀ b, writeTy g.env preV x.1.t x.1.v = .ok b → b.length < fuel →
      Exact I (readBody g fuel old x.1.u x.1.o) b x.2) →
    ∀ c, I c →
      (∀ rest, ∃ c', I c' ∧ (Reader.mk old c).readObjects g fuel (xs.map fun x => (x.1.u, x.1.o)) (bs ++ rest) =
        .ok (xs.map (·.2), ⟨old, c'⟩, rest)) ∧
      (∀ p, p <+: bs → p ≠ bs →
        (Reader.mk old c).readObjects g fuel (xs.map fun x => (x.1.u, x.1.o)) p = .throw .endOfFile)
  | [], bs, hw, _, _, c, hc => by
    simp only [List.map_nil, writeObjects, Res.ok.injEq] at hw
    subst hw
    refine ⟨fun rest => ⟨c, hc, rfl⟩, fun p hp hne => absurd (List.prefix_nil.mp hp) hne⟩
  | x :: xs, bs, hw, hlen, hx, c, hc => by
    simp only [List.map_cons, writeObjects] at hw
    obtain ⟨a, ha, hw⟩ := Res.bind_eq_ok.mp hw
    obtain ⟨b, hb, hw⟩ := Res.bind_eq_ok.mp hw
    simp only [Res.ok.injEq] at hw
    subst hw
    simp only [List.length_append] at hlen
    obtain ⟨h1, h2⟩ := hx x (by simp) a ha (by omega) c hc
    have ih := readObjects_exact fuel old xs b hb (by omega) (fun y hy => hx y (by simp [hy]))
    constructor
    · intro rest
      obtain ⟨c1, hc1, e1⟩ := h1 (b ++ rest)
      obtain ⟨c2, hc2, e2⟩ := (ih c1 hc1).1 rest
      refine ⟨c2, hc2, ?_⟩
      simp only [List.map_cons, Reader.readObjects, Reader.readObject, List.append_assoc, e1, Res.ok_bind, e2]
    · intro p hp hne
      simp only [List.map_cons, Reader.readObjects, Reader.readObject]
      rcases List.prefix_or_prefix_of_prefix hp (List.prefix_append a b) with h | h
      · by_cases e : p = a
        · subst e
          have hb' : ([] : List UInt8) ≠ b := by
            intro h
            apply hne
            rw [← h, List.append_nil]
          obtain ⟨c1, hc1, e1⟩ := h1 []
          rw [List.append_nil] at e1
          simp only [e1, Res.ok_bind, (ih c1 hc1).2 [] List.nil_prefix hb', Res.throw_bind]
        · simp only [h2 p h e, Res.throw_bind]
      · obtain ⟨q, rfl⟩ := h
        rw [List.prefix_append_right_inj] at hp
        obtain ⟨c1, hc1, e1⟩ := h1 q
        have hq : q ≠ b := by
          intro h
          exact hne (by rw [h])
        simp only [e1, Res.ok_bind, (ih c1 hc1).2 q hp hq, Res.throw_bind]

/-- `ReadOldPrototypes` of a `Reader` that has no prototypes. -/
theorem readTables_empty (dbg : Bool) (g : Cfg) (c : Cache) (s : List UInt8) :
    (Reader.mk [] c).readTables dbg g s = (match readOldPrototypes g s with
      | .ok (old, s') => .ok (⟨old, c⟩, s')
      | .throw e => .throw e
      | .ub => .ub) := by
  simp only [Reader.readTables, readOldPrototypes]
  cases Serialize.read ⟨none, g.env.cap⟩ metaTy (dflt metaTy) s with
  | ok x =>
    obtain ⟨v, s'⟩ := x
    simp only [List.isEmpty_nil, Bool.not_true, Bool.and_false, Bool.false_eq_true, if_false, Res.ok_bind]
    cases decMeta v with
    | none => rfl
    | some y =>
      obtain ⟨tn, ps⟩ := y
      simp only
      cases attachMetadata (tn.map g.tm) (g.S.fields.map g.nm) ps <;> rfl
  | throw e => rfl
  | ub => rfl

/-! ### The same program without tables -/

mutual

/-- Only what the hook does to the structures inside of the type matters. -/
theorem readTy_congr {σ : Type} (env : Env) (h h' : Hook σ) : ∀ t, Structs (fun i _ => h i = h' i) t →
    readTy env h t = readTy env h' t
  | .num _ _, _ => by funext o; simp only [readTy]
  | .bool, _ => by funext o; simp only [readTy]
  | .enm _ _, _ => by funext o; simp only [readTy]
  | .time _ _, _ => by funext o; simp only [readTy]
  | .str _, _ => by funext o; simp only [readTy]
  | .vec t, hs => by
    simp only [Structs] at hs
    funext o
    simp only [readTy, readTy_congr env h h' t hs]
  | .arr _ t, hs => by
    simp only [Structs] at hs
    funext o
    simp only [readTy, readTy_congr env h h' t hs]
  | .opt t _, hs => by
    simp only [Structs] at hs
    funext o
    simp only [readTy, readTy_congr env h h' t hs]
  | .coll _ t, hs => by
    simp only [Structs] at hs
    funext o
    simp only [readTy, readTy_congr env h h' t hs]
  | .map _ a b, hs => by
    simp only [Structs] at hs
    funext o
    simp only [readTy, readTy_congr env h h' a hs.1, readTy_congr env h h' b hs.2]
  | .var ts, hs => by
    simp only [Structs] at hs
    funext o
    simp only [readTy, readTys_congr env h h' ts hs]
  | .struct i ts, hs => by
    simp only [Structs] at hs
    funext o
    simp only [readTy, readTys_congr env h h' ts hs.2, hs.1]

theorem readTys_congr {σ : Type} (env : Env) (h h' : Hook σ) : ∀ ts, StructsAll (fun i _ => h i = h' i) ts →
    readTys env h ts = readTys env h' ts
  | [], _ => by simp only [readTys]
  | t :: ts, hs => by
    simp only [StructsAll] at hs
    simp only [readTys, readTy_congr env h h' t hs.1, readTys_congr env h h' ts hs.2]

end

/-- The structure has a prototype with different names that are not registered as old names. -/
def KnownStruct (g : Cfg) (i : SInfo) : Prop :=
  i.idx < 2 ^ 16 ∧ ∃ p, g.S.protos[i.idx]? = some p ∧ (p.map (·.1)).Nodup ∧ ∀ n ∈ p.map (·.1), g.ren i.idx n = n

mutual

theorem structs_known (g : Cfg) : ∀ t, Described g.S t → WellFormed g.ren t →
    Structs (fun i _ => ∀ si, i = some si → KnownStruct g si) t
  | .num _ _, _, _ => by simp [Structs]
  | .bool, _, _ => by simp [Structs]
  | .enm _ _, _, _ => by simp [Structs]
  | .time _ _, _, _ => by simp [Structs]
  | .str _, _, _ => by simp [Structs]
  | .vec t, hd, hw => by
    simp only [Described] at hd; simp only [WellFormed] at hw; simp only [Structs]
    exact structs_known g t hd hw
  | .arr _ t, hd, hw => by
    simp only [Described] at hd; simp only [WellFormed] at hw; simp only [Structs]
    exact structs_known g t hd hw
  | .opt t _, hd, hw => by
    simp only [Described] at hd; simp only [WellFormed] at hw; simp only [Structs]
    exact structs_known g t hd hw
  | .coll _ t, hd, hw => by
    simp only [Described] at hd; simp only [WellFormed] at hw; simp only [Structs]
    exact structs_known g t hd hw.2
  | .map _ a b, hd, hw => by
    simp only [Described] at hd; simp only [WellFormed] at hw; simp only [Structs]
    exact ⟨structs_known g a hd.1 hw.2.1, structs_known g b hd.2 hw.2.2⟩
  | .var ts, hd, hw => by
    simp only [Described] at hd; simp only [WellFormed] at hw; simp only [Structs]
    exact structsAll_known g ts hd hw
  | .struct none ts, hd, hw => by
    simp only [Described] at hd; simp only [WellFormed] at hw; simp only [Structs]
    exact ⟨(by intro si h; cases h), structsAll_known g ts hd hw⟩
  | .struct (some i) ts, hd, hw => by
    simp only [Described] at hd; simp only [WellFormed] at hw; simp only [Structs]
    obtain ⟨h1, ⟨p, h2, h3, _⟩, h4⟩ := hd
    refine ⟨?_, structsAll_known g ts h4 hw.2.2⟩
    intro si h
    cases h
    exact ⟨h1, p, h2, by rw [h3]; exact hw.1, by rw [h3]; exact hw.2.1⟩

theorem structsAll_known (g : Cfg) : ∀ ts, DescribedAll g.S ts → WellFormedAll g.ren ts →
    StructsAll (fun i _ => ∀ si, i = some si → KnownStruct g si) ts
  | [], _, _ => by simp only [StructsAll]
  | t :: ts, hd, hw => by
    simp only [DescribedAll] at hd; simp only [WellFormedAll] at hw; simp only [StructsAll]
    exact ⟨structs_known g t hd.1 hw.1, structsAll_known g ts hd.2 hw.2⟩

end

mutual

theorem structs_mono {D D' : Option SInfo → List Ty → Prop} (hD : ∀ i ts, D i ts → D' i ts) : ∀ t, Structs D t →
    Structs D' t
  | .num _ _, _ => by simp [Structs]
  | .bool, _ => by simp [Structs]
  | .enm _ _, _ => by simp [Structs]
  | .time _ _, _ => by simp [Structs]
  | .str _, _ => by simp [Structs]
  | .vec t, h => by simp only [Structs] at h ⊢; exact structs_mono hD t h
  | .arr _ t, h => by simp only [Structs] at h ⊢; exact structs_mono hD t h
  | .opt t _, h => by simp only [Structs] at h ⊢; exact structs_mono hD t h
  | .coll _ t, h => by simp only [Structs] at h ⊢; exact structs_mono hD t h
  | .map _ a b, h => by simp only [Structs] at h ⊢; exact ⟨structs_mono hD a h.1, structs_mono hD b h.2⟩
  | .var ts, h => by simp only [Structs] at h ⊢; exact structsAll_mono hD ts h
  | .struct i ts, h => by simp only [Structs] at h ⊢; exact ⟨hD i ts h.1, structsAll_mono hD ts h.2⟩

theorem structsAll_mono {D D' : Option SInfo → List Ty → Prop} (hD : ∀ i ts, D i ts → D' i ts) :
    ∀ ts, StructsAll D ts → StructsAll D' ts
  | [], _ => by simp only [StructsAll]
  | t :: ts, h => by simp only [StructsAll] at h ⊢; exact ⟨structs_mono hD t h.1, structsAll_mono hD ts h.2⟩

end

/-- Mapping a part of a prototype to the prototype. -/
theorem mapFields_self (names : List Name) (rn : Name → Name) : ∀ (pre p : Proto),
    ((pre ++ p).map (·.1)).Nodup → (∀ n ∈ (pre ++ p).map (·.1), rn n = n) →
    mapFields names rn (pre ++ p) p = .ok ((List.range' pre.length p.length).map some)
  | pre, [], _, _ => by simp [mapFields]
  | pre, f :: p, hn, hr => by
    have hf : (pre ++ f :: p)[pre.length]? = some f := by simp
    have hrn : rn f.1 = f.1 := hr f.1 (by simp)
    have hj : (pre ++ f :: p).findIdx? (fun x => x.1 == rn f.1) = some pre.length := by
      rw [hrn]
      exact posOf_of_get (q := pre ++ f :: p) hn (n := f.1) (r := f.2) hf
    have ih := mapFields_self names rn (pre ++ [f]) p (by simpa using hn) (by simpa using hr)
    simp only [List.append_assoc, List.singleton_append] at ih
    have hc : checkTypesCompatible names f.2 f.2 = .ok () := by simp [checkTypesCompatible]
    rw [show f :: p = (f.1, f.2) :: p from rfl, mapFields]
    simp only [Prod.mk.eta, hj, hf, hc, Res.ok_bind, ih]
    simp [List.range'_succ]

theorem mapPrototypes_self (names : List Name) (rn : Name → Name) (p : Proto) (hn : (p.map (·.1)).Nodup)
    (hr : ∀ n ∈ p.map (·.1), rn n = n) : mapPrototypes names rn p p = .ok [] := by
  have h := mapFields_self names rn [] p (by simpa using hn) (by simpa using hr)
  simp only [List.nil_append, List.length_nil] at h
  simp only [mapPrototypes, h, Res.ok_bind]
  rw [if_pos]
  simp [List.range_eq_range']

/-- All maps are trivial. -/
def TrivialMaps (c : Cache) : Prop := ∀ i n m, c i = some (n, m) → n = i ∧ m = []

theorem findProtoMap_trivial {g : Cfg} (i : SInfo) (hk : KnownStruct g i) :
    Exact TrivialMaps (findProtoMapR g g.S.protos i.idx i.idx) [] [] := by
  obtain ⟨_, p, hp, hn, hr⟩ := hk
  intro c hc
  refine ⟨fun rest => ?_, fun p hp hne => absurd (List.prefix_nil.mp hp) hne⟩
  simp only [findProtoMapR, findProtoMap, List.nil_append]
  cases hci : c i.idx with
  | none =>
    simp only [hp, mapPrototypes_self _ _ p hn hr]
    refine ⟨_, ?_, rfl⟩
    intro k n' m' hk
    simp only [Cache.set] at hk
    split at hk
    · rename_i heq
      subst heq
      simp only [Option.some.injEq, Prod.mk.injEq] at hk
      exact ⟨hk.1.symm, hk.2.symm⟩
    · exact hc k n' m' hk
  | some x =>
    obtain ⟨n', m'⟩ := x
    obtain ⟨rfl, rfl⟩ := hc i.idx n' m' hci
    exact ⟨c, hc, by simp⟩

open Classical in
/-- The hook of `ReadV` for the structures of the program, `skipIndexHook` for all others. -/
noncomputable def hookSame (g : Cfg) (skip : Option Nat → Rd Cache Unit) : Hook Cache := fun info rds vs =>
  if ∀ si, info = some si → KnownStruct g si then hookV g g.S.protos skip info rds vs
  else do
    let _ ← readRaw 2
    readFields rds vs

theorem hookSame_ok (g : Cfg) (skip : Option Nat → Rd Cache Unit) : HookOk TrivialMaps preV (hookSame g skip) := by
  intro info ws rds os vs bs h
  unfold hookSame
  split
  · rename_i hk
    cases info with
    | none => exact h.read
    | some si =>
      simp only [hookV, preV]
      refine Exact.bind (readStructIndex_exact si.idx (hk si rfl).1) ?_
      refine Exact.nil_bind (findProtoMap_trivial si (hk si rfl)) ?_
      exact h.read
  · rename_i hk
    cases info with
    | none => exact absurd (fun si h => by cases h) hk
    | some si => exact Exact.bind (Exact.readRaw (leBytes 2 si.idx) 2 (leBytes_length 2 si.idx)) h.read

/-- With the prototypes of the program itself what was written is read. -/
theorem readBody_same (g : Cfg) (fuel : Nat) (t : Ty) (v o : Val) (bs : List UInt8) (hd : Described g.S t)
    (hw : WellFormed g.ren t) (hv : HasTy g.env t v) (hf : Fresh t o) (hb : writeTy g.env preV t v = .ok bs) :
    Exact TrivialMaps (readBody g fuel g.S.protos t o) bs v := by
  obtain ⟨b, e, x⟩ := readTy_exact g.env preV (hookSame g (skipField g g.S.protos fuel)) (hookSame_ok g _) t v o hv hf
  rw [hb] at e
  cases e
  have : readTy g.env (hookSame g (skipField g g.S.protos fuel)) t =
      readTy g.env (hookV g g.S.protos (skipField g g.S.protos fuel)) t := by
    apply readTy_congr
    refine structs_mono ?_ t (structs_known g t hd hw)
    intro i ts hi
    funext rds vs
    simp only [hookSame, if_pos hi]
  rw [this] at x
  exact x

/-! ### C163 -/

/-- C163: one `Reader`, cleared after every stream, gives for every stream what a `Reader` made for that stream gives,
whatever streams came before, also if some of them ended with an exception that left the `Reader` in any state. -/
theorem c163_as_new (dbg : Bool) (g : Cfg) (fuel : Nat) (js : List Job) (outs : List Outcome)
    (h : Uses dbg g fuel Reader.new js outs) : outs = js.map (freshOutcome dbg g fuel) := by
  suffices H : ∀ r, Uses dbg g fuel r js outs → r = Reader.new → outs = js.map (freshOutcome dbg g fuel) from
    H _ h rfl
  clear h
  intro r hr
  induction hr with
  | nil _ => intro _; rfl
  | ok hs _ ih =>
    intro hn
    subst hn
    rw [List.map_cons, ← ih rfl]
    simp only [freshOutcome, hs]
  | throw r' hs _ ih =>
    intro hn
    subst hn
    rw [List.map_cons, ← ih rfl]
    simp only [freshOutcome, hs]

/-- C163: the tables are read once and the objects follow one after another, of any types; each of them is what a
single object would be (`convert`), and exactly the written bytes are read; a stream that is cut off is reported.  Not
covered: structures without fields that have got fields (C36). -/
theorem c163_session_partial (dbg : Bool) (nm₁ : Ty → Name) (g : Cfg) (φ : Nat → Nat) (S₁ : Schema) (xs : List Pair)
    (hF : Fits g.env.cap nm₁ S₁) (hK : Known nm₁ g S₁) (hx : ∀ x ∈ xs, x.Ok nm₁ g φ S₁) :
    ∃ bs, writeStream g.env nm₁ S₁ (xs.map fun x => (x.t, x.v)) = .ok bs ∧ ∀ fuel, bs.length < fuel →
      (∀ rest, freshOutcome dbg g fuel ⟨.tables, xs.map fun x => (x.u, x.o), bs ++ rest⟩ =
        .ok (xs.map fun x => convert g.ren x.t x.v x.u x.o, rest)) ∧
      (∀ p, p <+: bs → p ≠ bs →
        freshOutcome dbg g fuel ⟨.tables, xs.map fun x => (x.u, x.o), p⟩ = .throw .endOfFile) := by
  obtain ⟨ms, old, hm, ho, _, hr, hp⟩ := readOldPrototypes_ok hF hK
  obtain ⟨bs, hb⟩ := writeObjects_ok g.env (xs.map fun x => (x.t, x.v)) (by
    intro y hy
    obtain ⟨x, hx', rfl⟩ := List.mem_map.mp hy
    exact (hx x hx').value)
  refine ⟨ms ++ bs, by simp [writeStream, hm, hb], ?_⟩
  intro fuel hfuel
  simp only [List.length_append] at hfuel
  have hI : Inv g φ old (fun _ => none) := by intro i n m h; cases h
  have hX := readObjects_exact (g := g) (I := Inv g φ old) fuel old
    (xs.map fun x => (x, convert g.ren x.t x.v x.u x.o)) bs (by simpa [Function.comp_def] using hb) (by omega) (by
      intro y hy b h1 h2
      obtain ⟨x, hx', rfl⟩ := List.mem_map.mp hy
      have h := hx x hx'
      exact (conv_main (φ := φ) ho x.t).1 x.v x.u x.o b fuel h.value h.written h.readAs h.evolves h.fresh h1 h2)
    _ hI
  simp only [List.map_map, Function.comp_def] at hX
  obtain ⟨x1, x2⟩ := hX
  constructor
  · intro rest
    obtain ⟨c', _, e⟩ := x1 rest
    simp only [freshOutcome, Reader.session, Reader.start, Reader.new, readTables_empty, List.append_assoc, hr,
      Res.ok_bind, e]
  · intro p hpre hne
    simp only [freshOutcome, Reader.session, Reader.start, Reader.new, readTables_empty]
    rcases List.prefix_or_prefix_of_prefix hpre (List.prefix_append ms bs) with h | h
    · by_cases e : p = ms
      · subst e
        have hne' : ([] : List UInt8) ≠ bs := by
          intro h
          apply hne
          rw [← h, List.append_nil]
        have h3 := hr []
        rw [List.append_nil] at h3
        simp only [h3, Res.ok_bind, x2 [] List.nil_prefix hne']
      · simp only [hp p h e, Res.throw_bind]
    · obtain ⟨q, rfl⟩ := h
      rw [List.prefix_append_right_inj] at hpre
      have hq' : q ≠ bs := by
        intro h
        exact hne (by rw [h])
      simp only [hr, Res.ok_bind, x2 q hpre hq']

/-- C163: after `Initialize` the objects that the same program has written without tables are read back, whatever the
names of the types are. -/
theorem c163_same_program (dbg : Bool) (g : Cfg) (ts : List (Ty × Val)) (os : List Val)
    (hl : os.length = ts.length) (hv : ∀ x ∈ ts, HasTy g.env x.1 x.2 ∧ Described g.S x.1 ∧ WellFormed g.ren x.1)
    (ho : ∀ (k : Nat) (x : Ty × Val) (o : Val), ts[k]? = some x → os[k]? = some o → Fresh x.1 o) :
    ∃ bs, writeObjects g.env ts = .ok bs ∧ ∀ fuel, bs.length < fuel →
      (∀ rest, freshOutcome dbg g fuel ⟨.same, (ts.map (·.1)).zip os, bs ++ rest⟩ = .ok (ts.map (·.2), rest)) ∧
      (∀ p, p <+: bs → p ≠ bs → freshOutcome dbg g fuel ⟨.same, (ts.map (·.1)).zip os, p⟩ = .throw .endOfFile) := by
  obtain ⟨bs, hb⟩ := writeObjects_ok g.env ts (fun x hx => (hv x hx).1)
  refine ⟨bs, hb, fun fuel hfuel => ?_⟩
  let xs : List (Pair × Val) := List.zipWith (fun x o => (⟨x.1, x.2, x.1, o⟩, x.2)) ts os
  have e1 : (xs.map fun x => (x.1.t, x.1.v)) = ts := by
    apply List.ext_getElem
    · simp [xs, hl]
    · intro k h1 h2
      simp [xs]
  have e2 : (xs.map fun x => (x.1.u, x.1.o)) = (ts.map (·.1)).zip os := by
    apply List.ext_getElem
    · simp [xs]
    · intro k h1 h2
      simp [xs]
  have e3 : xs.map (·.2) = ts.map (·.2) := by
    apply List.ext_getElem
    · simp [xs, hl]
    · intro k h1 h2
      simp [xs]
  have hX := readObjects_exact (g := g) (I := TrivialMaps) fuel g.S.protos xs bs (by rw [e1]; exact hb) hfuel (by
    intro y hy b h1 _
    obtain ⟨k, hk⟩ := List.mem_iff_getElem?.mp hy
    simp only [xs, List.getElem?_zipWith] at hk
    cases ht : ts[k]? with
    | none => simp [ht] at hk
    | some x =>
      cases hok : os[k]? with
      | none => simp [ht, hok] at hk
      | some o =>
        simp only [ht, hok, Option.some.injEq] at hk
        subst hk
        obtain ⟨a1, a2, a3⟩ := hv x (List.mem_of_getElem? ht)
        exact readBody_same g fuel x.1 x.2 o b a2 a3 a1 (ho k x o ht hok) h1)
    (fun _ => none) (by intro i n m h; cases h)
  rw [e2, e3] at hX
  obtain ⟨x1, x2⟩ := hX
  have hs : ∀ s, freshOutcome dbg g fuel ⟨.same, (ts.map (·.1)).zip os, s⟩ =
      (match (Reader.mk g.S.protos fun _ => none).readObjects g fuel ((ts.map (·.1)).zip os) s with
        | .ok (vs, _, s) => .ok (vs, s)
        | .throw e => .throw e
        | .ub => .ub) := by
    intro s
    simp only [freshOutcome, Reader.session, Reader.start, Reader.initialize, Reader.new, List.isEmpty_nil,
      Bool.not_true, Bool.and_false, Bool.false_eq_true, if_false, Res.ok_bind, List.nil_append]
    try (cases (Reader.mk g.S.protos fun _ => none).readObjects g fuel ((ts.map (·.1)).zip os) s <;> rfl)
  constructor
  · intro rest
    obtain ⟨c', _, e⟩ := x1 rest
    rw [hs, e]
  · intro p hp hne
    rw [hs, x2 p hp hne]

/-- C163, both together: a stream with tables among any other streams that one `Reader` reads. -/
theorem c163_among_others_partial (dbg : Bool) (nm₁ : Ty → Name) (g : Cfg) (φ : Nat → Nat) (S₁ : Schema)
    (xs : List Pair) (hF : Fits g.env.cap nm₁ S₁) (hK : Known nm₁ g S₁) (hx : ∀ x ∈ xs, x.Ok nm₁ g φ S₁)
    (bs rest : List UInt8) (hw : writeStream g.env nm₁ S₁ (xs.map fun x => (x.t, x.v)) = .ok bs) (fuel : Nat)
    (hfuel : bs.length < fuel) (before after : List Job) (outs : List Outcome)
    (h : Uses dbg g fuel Reader.new
      (before ++ ⟨.tables, xs.map fun x => (x.u, x.o), bs ++ rest⟩ :: after) outs) :
    outs[before.length]? = some (.ok (xs.map fun x => convert g.ren x.t x.v x.u x.o, rest)) := by
  rw [c163_as_new dbg g fuel _ outs h]
  obtain ⟨b, e, r⟩ := c163_session_partial dbg nm₁ g φ S₁ xs hF hK hx
  rw [hw] at e
  cases e
  simp [(r fuel hfuel).1 rest]

/-! ### Samples -/

section Sample

/-- Two objects of the sample of C36: an `A`, then a `B`, then the `A` again. -/
def pairs : List Pair := [⟨a1, v1, a2, o2⟩, ⟨b1, .list [.num 5, .num 600], b2, .list [.num 0, .num 31, .num 0]⟩,
  ⟨a1, v1, a2, o2⟩]

theorem pairs_ok : ∀ x ∈ pairs, x.Ok sampleNm g2 φ2 s1 := by
  intro x hx
  simp only [pairs, List.mem_cons, List.not_mem_nil, or_false] at hx
  rcases hx with rfl | rfl | rfl
  · exact ⟨sample_hasTy, sample_described1, sample_described2, sample_evolves, sample_fresh⟩
  · exact ⟨by simp [b1, HasTy, HasTys], by simp [b1, s1, Described, DescribedAll, DescribesFields, isStruct],
      by simp [b2, g2, s2, Described, DescribedAll, DescribesFields, isStruct], sample_b,
      by simp [b2, Fresh, Freshs]⟩
  · exact ⟨sample_hasTy, sample_described1, sample_described2, sample_evolves, sample_fresh⟩

/-- The objects that are read. -/
def converted : List Val := [
  .list [.list [.num 600, .num 31, .num 5], .num 32, .list [.num 104, .num 105], .list [.list [.num 9, .num 0, .num 8]]],
  .list [.num 600, .num 31, .num 5],
  .list [.list [.num 600, .num 31, .num 5], .num 32, .list [.num 104, .num 105], .list [.list [.num 9, .num 0, .num 8]]]]

example : ∃ bs, writeStream g2.env sampleNm s1 (pairs.map fun x => (x.t, x.v)) = .ok bs ∧ ∀ fuel, bs.length < fuel →
    (∀ rest, freshOutcome true g2 fuel ⟨.tables, pairs.map fun x => (x.u, x.o), bs ++ rest⟩ =
      .ok (converted, rest)) ∧
    (∀ p, p <+: bs → p ≠ bs →
      freshOutcome true g2 fuel ⟨.tables, pairs.map fun x => (x.u, x.o), p⟩ = .throw .endOfFile) :=
  c163_session_partial true sampleNm g2 φ2 s1 pairs sample_fits sample_known pairs_ok

/-- `struct P { int32_t a; int32_t b; };` -/
def pab : Ty := .struct (some ⟨0, [[97], [98]]⟩) [.num 4, .num 4]

/-- `struct P { int32_t b; int32_t a; };`, as another program has it. -/
def pba : Ty := .struct (some ⟨0, [[98], [97]]⟩) [.num 4, .num 4]

/-- The tables of the first program. -/
def sab : Schema := ⟨[.num 4], [[([97], some 0), ([98], some 0)]]⟩

/-- The tables of the other program. -/
def sba : Schema := ⟨[.num 4], [[([98], some 0), ([97], some 0)]]⟩

/-- The reading program, which is the first one. -/
def gab : Cfg := ⟨⟨none, 1000⟩, sab, sampleNm, fun _ n => n, id, true⟩

/-- The stream of the first program with `a` = 1 and `b` = 2. -/
def streamAb : List UInt8 :=
  match writeStream gab.env sampleNm sab [(pab, .list [.num 1, .num 2])] with
  | .ok bs => bs
  | _ => []

/-- The stream of the other program with `b` = 4 and `a` = 3. -/
def streamBa : List UInt8 :=
  match writeStream gab.env sampleNm sba [(pba, .list [.num 4, .num 3])] with
  | .ok bs => bs
  | _ => []

/-- An object of the reading program. -/
def zeroAb : List (Ty × Val) := [(pab, .list [.num 0, .num 0])]

/-- A stream that was cut off, a stream of the other program, objects without tables. -/
def jobs : List Job := [⟨.tables, zeroAb, streamAb.take 40⟩, ⟨.tables, zeroAb, streamBa⟩,
  ⟨.same, zeroAb, [0, 0, 5, 0, 0, 0, 6, 0, 0, 0]⟩]

/-- The hypothesis of `c163_as_new` is satisfied by the sample, and its outcomes are as they should be. -/
theorem jobs_uses : Uses true gab 1000 Reader.new jobs [.throw .endOfFile, .ok ([.list [.num 3, .num 4]], []),
    .ok ([.list [.num 5, .num 6]], [])] := by
  refine Uses.throw ⟨[[]], fun _ => some (7, [none])⟩ (by rfl) ?_
  refine Uses.ok (r' := ⟨_, _⟩) (by rfl) ?_
  exact Uses.ok (r' := ⟨_, _⟩) (by rfl) (Uses.nil _)

/-- The hypotheses of `c163_among_others_partial` are satisfied by the second stream of the sample. -/
example : [Res.throw .endOfFile, .ok ([.list [.num 3, .num 4]], []), .ok ([.list [.num 5, .num 6]], [])][1]? =
    some (Res.ok ([convert gab.ren pba (.list [.num 4, .num 3]) pab (.list [.num 0, .num 0])], ([] : List UInt8))) := by
  refine c163_among_others_partial true sampleNm gab id sba
    [⟨pba, .list [.num 4, .num 3], pab, .list [.num 0, .num 0]⟩] ?_ ?_ ?_ streamBa [] (by rfl) 1000 (by decide)
    [⟨.tables, zeroAb, streamAb.take 40⟩] [⟨.same, zeroAb, [0, 0, 5, 0, 0, 0, 6, 0, 0, 0]⟩] _ ?_
  · constructor
    · simp [sba, gab]
    · simp [sba, gab, sampleNm]
    · simp [sba, gab]
    · intro p hp
      simp only [sba, List.mem_singleton] at hp
      subst hp
      refine ⟨by simp [gab], by simp, fun f hf => ?_⟩
      simp only [List.mem_cons, List.not_mem_nil, or_false] at hf
      rcases hf with rfl | rfl <;> simp [gab, sba]
  · intro p hp f hf k hk t ht
    simp only [sba, List.mem_singleton] at hp
    subst hp
    simp only [List.mem_cons, List.not_mem_nil, or_false] at hf
    rcases hf with rfl | rfl <;> cases hk <;> cases ht <;> simp [gab, sab, sampleNm]
  · intro x hx
    simp only [List.mem_singleton] at hx
    subst hx
    refine ⟨by simp [pba, HasTy, HasTys], by simp [pba, sba, Described, DescribedAll, DescribesFields, isStruct],
      by simp [pab, gab, sab, Described, DescribedAll, DescribesFields, isStruct], ?_, by simp [pab, Fresh, Freshs]⟩
    simp only [pba, pab, Evolves, EvolvesFields]
    refine ⟨rfl, Or.inl (by simp), rfl, rfl, by decide, by decide, ?_, ?_, trivial⟩
    · exact Or.inl ⟨1, .num 4, rfl, rfl, rfl, fun _ => rfl, by simp [Evolves]⟩
    · exact Or.inl ⟨0, .num 4, rfl, rfl, rfl, fun _ => rfl, by simp [Evolves]⟩
  · exact jobs_uses

example : ∃ bs, writeObjects gab.env [(pab, .list [.num 1, .num 2]), (.vec pab, .list [.list [.num 3, .num 4]])] =
    .ok bs ∧ ∀ fuel, bs.length < fuel →
      (∀ rest, freshOutcome true gab fuel ⟨.same, [(pab, dflt pab), (.vec pab, .list [])], bs ++ rest⟩ =
        .ok ([.list [.num 1, .num 2], .list [.list [.num 3, .num 4]]], rest)) ∧
      (∀ p, p <+: bs → p ≠ bs →
        freshOutcome true gab fuel ⟨.same, [(pab, dflt pab), (.vec pab, .list [])], p⟩ = .throw .endOfFile) := by
  refine c163_same_program true gab [(pab, .list [.num 1, .num 2]), (.vec pab, .list [.list [.num 3, .num 4]])]
    [dflt pab, .list []] rfl ?_ ?_
  · intro x hx
    simp only [List.mem_cons, List.not_mem_nil, or_false] at hx
    rcases hx with rfl | rfl
    · simp [pab, gab, sab, HasTy, HasTys, Described, DescribedAll, DescribesFields, isStruct, WellFormed, WellFormedAll]
    · simp [pab, gab, sab, HasTy, HasTys, Described, DescribedAll, DescribesFields, isStruct, WellFormed, WellFormedAll]
  · intro k x o h1 h2
    match k with
    | 0 => simp at h1 h2; subst h1 h2; exact fresh_dflt pab
    | 1 => simp at h1 h2; subst h1 h2; simp [Fresh]
    | k + 2 => simp at h1

/-- C163 is violated without `ClearPrototypes`: with assertions the program stops at the second stream; without them the
tables are replaced but the maps of the first stream are kept, and the members of the object are mixed up without any
exception: `a` = 4 and `b` = 3 instead of `a` = 3 and `b` = 4. -/
theorem c163_not_cleared_violated :
    (∃ r, Reader.new.session false gab 1000 .tables zeroAb streamAb = .ok ([.list [.num 1, .num 2]], r, []) ∧
      ∃ r', r.session false gab 1000 .tables zeroAb streamBa = .ok ([.list [.num 4, .num 3]], r', [])) ∧
    freshOutcome false gab 1000 ⟨.tables, zeroAb, streamBa⟩ = .ok ([.list [.num 3, .num 4]], []) ∧
    (∃ r, Reader.new.session true gab 1000 .tables zeroAb streamAb = .ok ([.list [.num 1, .num 2]], r, []) ∧
      r.session true gab 1000 .tables zeroAb streamBa = .ub) :=
  ⟨⟨_, by rfl, _, by rfl⟩, by rfl, _, by rfl, by rfl⟩

/-- C163 is violated when `Initialize` follows a stream with tables: without assertions the prototypes are added after
those of the stream, so objects of this program are read by the tables of the other one. -/
theorem c163_initialize_violated :
    ∃ r, Reader.new.session false gab 1000 .tables [] streamBa = .ok ([], r, [0, 0, 4, 0, 0, 0, 3, 0, 0, 0]) ∧
      (∃ r', r.session false gab 1000 .same zeroAb [0, 0, 1, 0, 0, 0, 2, 0, 0, 0] =
        .ok ([.list [.num 2, .num 1]], r', [])) ∧
      r.session true gab 1000 .same zeroAb [0, 0, 1, 0, 0, 0, 2, 0, 0, 0] = .ub ∧
      freshOutcome false gab 1000 ⟨.same, zeroAb, [0, 0, 1, 0, 0, 0, 2, 0, 0, 0]⟩ =
        .ok ([.list [.num 1, .num 2]], []) :=
  ⟨_, by rfl, ⟨_, by rfl⟩, by rfl, by rfl⟩

end Sample

end Verif.Vts
