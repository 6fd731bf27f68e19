import Verif.Vts.Convert

namespace Verif.Vts

open Verif.Serialize

section

variable {nm₁ : Ty → Name} {g : Cfg} {φ : Nat → Nat} {S₁ : Schema} {old : List Proto}

theorem writeTys_get (env : Env) (pre : Option SInfo → List UInt8) : ∀ (ts : List Ty) (j : Nat) (w : Val → Res (List UInt8)),
    (writeTys env pre ts)[j]? = some w → ∃ t, ts[j]? = some t ∧ w = writeTy env pre t
  | [], j, w, hj => by simp [writeTys] at hj
  | t :: ts, 0, w, hj => by
    simp only [writeTys, List.getElem?_cons_zero, Option.some.injEq] at hj
    exact ⟨t, rfl, hj.symm⟩
  | t :: ts, j + 1, w, hj => by
    simp only [writeTys, List.getElem?_cons_succ] at hj
    obtain ⟨t', h1, h2⟩ := writeTys_get env pre ts j w hj
    exact ⟨t', by simpa using h1, h2⟩

theorem converts_get (ren : Nat → Name → Name) : ∀ (ts : List Ty) (j : Nat) (t : Ty), ts[j]? = some t →
    (converts ren ts)[j]? = some (fun v u o => convert ren t v u o)
  | [], j, t, hj => by simp at hj
  | x :: ts, 0, t, hj => by simp at hj; subst hj; simp [converts]
  | x :: ts, j + 1, t, hj => by
    simp only [List.getElem?_cons_succ] at hj
    simp only [converts, List.getElem?_cons_succ]
    exact converts_get ren ts j t hj

theorem hasTyAt_get (env : Env) : ∀ (ts : List Ty) (i : Nat) (v : Val) (t : Ty), HasTyAt env ts i v → ts[i]? = some t →
    HasTy env t v
  | [], i, v, t, h, _ => by simp [HasTyAt] at h
  | x :: ts, 0, v, t, h, ht => by simp at ht; subst ht; simpa [HasTyAt] using h
  | x :: ts, i + 1, v, t, h, ht => by
    simp only [HasTyAt] at h
    exact hasTyAt_get env ts i v t h (by simpa using ht)

theorem evolvesAlts_get : ∀ (ts us : List Ty) (i : Nat) (t : Ty), EvolvesAlts nm₁ g φ ts us → ts[i]? = some t →
    ∃ u, us[i]? = some u ∧ Evolves nm₁ g φ t u
  | [], us, i, t, _, ht => by simp at ht
  | x :: ts, us, i, t, h, ht => by
    cases us with
    | nil => simp [EvolvesAlts] at h
    | cons u us =>
      simp only [EvolvesAlts] at h
      cases i with
      | zero => simp at ht; subst ht; exact ⟨u, rfl, h.1⟩
      | succ i =>
        obtain ⟨u', h1, h2⟩ := evolvesAlts_get ts us i t h.2 (by simpa using ht)
        exact ⟨u', by simpa using h1, h2⟩

theorem fields_conv (f N : Nat) (hNf : N < f) : ∀ (ts : List Ty), (∀ t ∈ ts, P nm₁ g φ S₁ old t) →
    ∀ (us : List Ty) (vs os : List Val) (bs : List UInt8), HasTys g.env ts vs → DescribedAll S₁ ts →
    DescribedAll g.S us → EvolvesAll nm₁ g φ ts us → Freshs us os → writeFields (writeTys g.env preV ts) vs = .ok bs →
    bs.length ≤ N →
    Exact (Inv g φ old) (readFields (readTys g.env (hookV g old (skipField g old f)) us) os) bs
      (convertAll (converts g.ren ts) vs us os)
  | [], _, us, vs, os, bs, hv, _, _, he, hf, hw, _ => by
    cases us with
    | nil =>
      cases vs with
      | nil =>
        cases os with
        | nil =>
          simp only [writeTys, writeFields, Res.ok.injEq] at hw
          subst hw
          exact Exact.pure []
        | cons _ _ => simp [Freshs] at hf
      | cons _ _ => simp [HasTys] at hv
    | cons _ _ => simp [EvolvesAll] at he
  | t :: ts, hP, us, vs, os, bs, hv, hD, hD', he, hf, hw, hN => by
    cases us with
    | nil => simp [EvolvesAll] at he
    | cons u us =>
      cases vs with
      | nil => simp [HasTys] at hv
      | cons v vs =>
        cases os with
        | nil => simp [Freshs] at hf
        | cons o os =>
          simp only [HasTys] at hv
          simp only [DescribedAll] at hD hD'
          simp only [EvolvesAll] at he
          simp only [Freshs] at hf
          simp only [writeTys, writeFields] at hw
          obtain ⟨b1, e1, hw⟩ := Res.bind_eq_ok.mp hw
          obtain ⟨b2, e2, hw⟩ := Res.bind_eq_ok.mp hw
          simp only [Res.ok.injEq] at hw
          subst hw
          simp only [List.length_append] at hN
          simp only [readTys, readFields, converts, convertAll]
          refine Exact.bind (hP t (by simp) v u o b1 f hv.1 hD.1 hD'.1 he.1 hf.1 e1 (by omega)) ?_
          exact Exact.bind_nil (fields_conv f N hNf ts (fun t ht => hP t (by simp [ht])) us vs os b2 hv.2 hD.2 hD'.2
            he.2 hf.2 e2 (by omega)) (Exact.pure _)

/-- The bytes of types without parts do not depend on the hook. -/
theorem leaf_conv (t : Ty) (v o : Val) (bs : List UInt8) (h : Hook Cache) (hv : HasTy g.env t v)
    (hw : writeTy g.env preV t v = .ok bs)
    (hleaf : (∃ n tag, t = .num n tag) ∨ t = .bool ∨ (∃ p q, t = .time p q) ∨ ∃ c, t = .str c) {I : Cache → Prop} :
    Exact I (readTy g.env h t o) bs v := by
  have hw' : writeTy g.env (fun _ => []) t v = .ok bs := by
    rcases hleaf with ⟨n, tag, rfl⟩ | rfl | ⟨p, q, rfl⟩ | ⟨c, rfl⟩ <;> cases v <;> simp_all [writeTy, HasTy]
  have hr : readTy g.env h t o = readTy g.env plainHook t o := by
    rcases hleaf with ⟨n, tag, rfl⟩ | rfl | ⟨p, q, rfl⟩ | ⟨c, rfl⟩ <;> simp [readTy]
  have hf : Fresh t o := by
    rcases hleaf with ⟨n, tag, rfl⟩ | rfl | ⟨p, q, rfl⟩ | ⟨c, rfl⟩ <;> simp [Fresh]
  rw [hr]
  obtain ⟨bs', e, x⟩ := readTy_exact g.env (fun _ => []) plainHook (plainHook_ok I) t v o hv hf
  rw [hw'] at e
  simp only [Res.ok.injEq] at e
  subst e
  exact x

mutual

theorem conv_main (ho : OldOk nm₁ g S₁ old) : ∀ t, P nm₁ g φ S₁ old t ∧ SkipP nm₁ g φ S₁ old t
  | .num n tag => by
    have hp : P nm₁ g φ S₁ old (.num n tag) := by
      intro v u o bs f hv hd hd' he hf hw hlen
      cases u <;> simp [Evolves] at he
      subst he
      rename_i tag'
      have hv' : HasTy g.env (.num n tag') v := by cases v <;> simp_all [HasTy]
      have hw' : writeTy g.env preV (.num n tag') v = .ok bs := by cases v <;> simp_all [writeTy]
      simp only [convert]
      exact leaf_conv _ v o bs _ hv' hw' (Or.inl ⟨n, tag', rfl⟩)
    exact ⟨hp, skip_simple _ rfl hp⟩
  | .bool => by
    have hp : P nm₁ g φ S₁ old .bool := by
      intro v u o bs f hv hd hd' he hf hw hlen
      cases u <;> simp [Evolves] at he
      simp only [convert]
      exact leaf_conv _ v o bs _ hv hw (Or.inr (Or.inl rfl))
    exact ⟨hp, skip_simple _ rfl hp⟩
  | .enm n c => by
    have hp : P nm₁ g φ S₁ old (.enm n c) := by
      intro v u o bs f hv hd hd' he hf hw hlen
      cases u <;> simp [Evolves] at he
      rename_i m d
      obtain ⟨rfl, hcd⟩ := he
      cases v with
      | num x =>
        simp only [HasTy] at hv
        simp only [writeTy] at hw
        rw [if_neg (by omega)] at hw
        simp only [Res.ok.injEq] at hw
        subst hw
        simp only [convert, readTy]
        refine Exact.bind_nil (Exact.readRaw _ n (by simp)) ?_
        rw [leVal_leBytes n x hv.2, if_neg (show ¬ d ≤ x by omega)]
        exact Exact.pure _
      | _ => simp [HasTy] at hv
    exact ⟨hp, skip_simple _ rfl hp⟩
  | .time p q => by
    have hp : P nm₁ g φ S₁ old (.time p q) := by
      intro v u o bs f hv hd hd' he hf hw hlen
      cases u <;> simp [Evolves] at he
      obtain ⟨rfl, rfl⟩ := he
      simp only [convert]
      exact leaf_conv _ v o bs _ hv hw (Or.inr (Or.inr (Or.inl ⟨p, q, rfl⟩)))
    exact ⟨hp, skip_simple _ rfl hp⟩
  | .str c => by
    have hp : P nm₁ g φ S₁ old (.str c) := by
      intro v u o bs f hv hd hd' he hf hw hlen
      cases u <;> simp [Evolves] at he
      subst he
      have : convert g.ren (.str c) v (.str c) o = v := by cases v <;> simp [convert]
      rw [this]
      exact leaf_conv _ v o bs _ hv hw (Or.inr (Or.inr (Or.inr ⟨c, rfl⟩)))
    exact ⟨hp, skip_simple _ rfl hp⟩
  | .vec a => by
    have hp : P nm₁ g φ S₁ old (.vec a) := by
      intro v u o bs f hv hd hd' he hf hw hlen
      cases u <;> simp [Evolves] at he
      rename_i b
      cases v with
      | list vs =>
        cases o with
        | list os =>
          simp only [HasTy] at hv
          simp only [Fresh] at hf
          simp only [Described] at hd hd'
          obtain ⟨hcap, hl, hne, hv⟩ := hv
          simp only [writeTy] at hw
          obtain ⟨b', e, hw⟩ := Res.bind_eq_ok.mp hw
          simp only [Res.ok.injEq] at hw
          subst hw
          simp only [List.length_append] at hlen
          have hrs : resize g.env (dflt b) vs.length os =
              .ok (os.take vs.length ++ List.replicate (vs.length - os.length) (dflt b)) := by
            simp only [resize]
            rw [if_neg (by omega)]
          simp only [readTy, convert]
          refine Exact.bind (Exact.readSize _ hl) ?_
          refine Exact.nil_bind (Exact.lift hrs) ?_
          rw [convertEach_zipWith _ (dflt b) vs os _ rfl]
          refine Exact.bind_nil (vector_exact a b (conv_main ho a).1 vs _ b' f (by simp; omega) hne hv hd hd' he ?_ e
            (by omega)) (Exact.pure _)
          intro x hx
          rw [List.mem_append] at hx
          rcases hx with hx | hx
          · exact hf x (List.mem_of_mem_take hx)
          · rw [(List.mem_replicate.mp hx).2]
            exact fresh_dflt b
        | _ => simp [Fresh] at hf
      | _ => simp [HasTy] at hv
    exact ⟨hp, skip_simple _ rfl hp⟩
  | .arr n a => by
    have hp : P nm₁ g φ S₁ old (.arr n a) := by
      intro v u o bs f hv hd hd' he hf hw hlen
      cases u <;> simp [Evolves] at he
      rename_i m b
      obtain ⟨rfl, he⟩ := he
      cases v with
      | list vs =>
        cases o with
        | list os =>
          simp only [HasTy] at hv
          simp only [Fresh] at hf
          simp only [Described] at hd hd'
          obtain ⟨hl, hne, hv⟩ := hv
          simp only [writeTy] at hw
          simp only [readTy, convert]
          rw [convertEach_zipWith _ (dflt b) vs os os (by
            have : os.length = vs.length := by omega
            simp [← this])]
          exact Exact.bind_nil (vector_exact a b (conv_main ho a).1 vs os bs f (by omega) hne hv hd hd' he hf.2 hw hlen)
            (Exact.pure _)
        | _ => simp [Fresh] at hf
      | _ => simp [HasTy] at hv
    exact ⟨hp, skip_simple _ rfl hp⟩
  | .opt a tag => by
    have hp : P nm₁ g φ S₁ old (.opt a tag) := by
      intro v u o bs f hv hd hd' he hf hw hlen
      cases u <;> simp [Evolves] at he
      rename_i b ptr
      simp only [Described] at hd hd'
      cases v with
      | none =>
        cases o with
        | none =>
          simp only [writeTy, Res.ok.injEq] at hw
          subst hw
          simp only [readTy, convert]
          refine Exact.bind_nil (Exact.readRaw _ 1 (by simp)) ?_
          have : (leVal (leBytes 1 0) != 0) = false := by decide
          rw [this]
          exact Exact.pure _
        | _ => simp [Fresh] at hf
      | some x =>
        simp only [HasTy] at hv
        simp only [writeTy] at hw
        obtain ⟨b', e, hw⟩ := Res.bind_eq_ok.mp hw
        simp only [Res.ok.injEq] at hw
        subst hw
        simp only [List.length_append] at hlen
        simp only [readTy, convert]
        refine Exact.bind (Exact.readRaw _ 1 (by simp)) ?_
        have : (leVal (leBytes 1 1) != 0) = true := by decide
        rw [this]
        exact Exact.bind_nil ((conv_main ho a).1 x b (dflt b) b' f hv hd hd' he (fresh_dflt b) e (by omega))
          (Exact.pure _)
      | _ => simp [HasTy] at hv
    exact ⟨hp, skip_simple _ rfl hp⟩
  | .coll k a => by
    have hp : P nm₁ g φ S₁ old (.coll k a) := by
      intro v u o bs f hv hd hd' he hf hw hlen
      cases u <;> simp [Evolves] at he
      rename_i k' b
      obtain ⟨hk, he⟩ := he
      simp only [Described] at hd hd'
      cases v with
      | list vs =>
        cases o with
        | list os =>
          simp only [HasTy] at hv
          simp only [Fresh] at hf
          subst hf
          obtain ⟨hl, _, hv⟩ := hv
          simp only [writeTy] at hw
          obtain ⟨b', e, hw⟩ := Res.bind_eq_ok.mp hw
          simp only [Res.ok.injEq] at hw
          subst hw
          simp only [List.length_append] at hlen
          simp only [readTy, convert]
          refine Exact.bind (Exact.readSize _ hl) ?_
          refine Exact.bind_nil (writeEach_conv_coll k' hk id _ _ _ b'.length vs [] b' e (Nat.le_refl _) ?_)
            (Exact.pure _)
          intro x hx c hc hc'
          exact (conv_main ho a).1 x b (dflt b) c f (hv x hx) hd hd' he (fresh_dflt b) hc (by omega)
        | _ => simp [Fresh] at hf
      | _ => simp [HasTy] at hv
    exact ⟨hp, skip_simple _ rfl hp⟩
  | .map k a a₂ => by
    have hp : P nm₁ g φ S₁ old (.map k a a₂) := by
      intro v u o bs f hv hd hd' he hf hw hlen
      cases u <;> simp [Evolves] at he
      rename_i k' b b₂
      obtain ⟨hk, he, he₂⟩ := he
      simp only [Described] at hd hd'
      cases v with
      | list vs =>
        cases o with
        | list os =>
          simp only [HasTy] at hv
          simp only [Fresh] at hf
          subst hf
          obtain ⟨hl, _, hv⟩ := hv
          simp only [writeTy] at hw
          obtain ⟨b', e, hw⟩ := Res.bind_eq_ok.mp hw
          simp only [Res.ok.injEq] at hw
          subst hw
          simp only [List.length_append] at hlen
          simp only [readTy, convert]
          refine Exact.bind (Exact.readSize _ hl) ?_
          refine Exact.bind_nil (writeEach_conv_coll k' hk fstVal _ _ _ b'.length vs [] b' e (Nat.le_refl _) ?_)
            (Exact.pure _)
          intro x hx c hc hc'
          obtain ⟨x1, x2, rfl, h1, h2⟩ := hv x hx
          simp only [writePair] at hc
          obtain ⟨c1, e1, hc⟩ := Res.bind_eq_ok.mp hc
          obtain ⟨c2, e2, hc⟩ := Res.bind_eq_ok.mp hc
          simp only [Res.ok.injEq] at hc
          subst hc
          simp only [List.length_append] at hc'
          simp only [readPair, convertPair]
          refine Exact.bind ((conv_main ho a).1 x1 b (dflt b) c1 f h1 hd.1 hd'.1 he (fresh_dflt b) e1 (by omega)) ?_
          exact Exact.bind_nil ((conv_main ho a₂).1 x2 b₂ (dflt b₂) c2 f h2 hd.2 hd'.2 he₂ (fresh_dflt b₂) e2
            (by omega)) (Exact.pure _)
        | _ => simp [Fresh] at hf
      | _ => simp [HasTy] at hv
    exact ⟨hp, skip_simple _ rfl hp⟩
  | .var ts => by
    have hp : P nm₁ g φ S₁ old (.var ts) := by
      intro v u o bs f hv hd hd' he hf hw hlen
      cases u <;> simp [Evolves] at he
      rename_i us
      simp only [Described] at hd hd'
      cases v with
      | alt i x =>
        simp only [HasTy] at hv
        simp only [writeTy] at hw
        cases hw' : (writeTys g.env preV ts)[i]? with
        | none => simp [hw'] at hw
        | some w =>
          simp only [hw'] at hw
          obtain ⟨b', e, hw⟩ := Res.bind_eq_ok.mp hw
          simp only [Res.ok.injEq] at hw
          subst hw
          simp only [List.length_append] at hlen
          obtain ⟨t, ht, rfl⟩ := writeTys_get _ _ ts i w hw'
          obtain ⟨u, hu, heu⟩ := evolvesAlts_get ts us i t he ht
          simp only [readTy, convert]
          refine Exact.bind (Exact.readSize _ hv.1) ?_
          simp only [readTys_get _ _ us i u hu, dflts_get us i u hu, converts_get g.ren ts i t ht, hu]
          exact Exact.bind_nil ((convs_main ho ts t (List.mem_of_getElem? ht)).1 x u (dflt u) b' f
            (hasTyAt_get g.env ts i x t hv.2 ht) (described_get S₁ ts i t hd ht) (described_get g.S us i u hd' hu) heu
            (fresh_dflt u) e (by omega)) (Exact.pure _)
      | _ => simp [HasTy] at hv
    exact ⟨hp, skip_simple _ rfl hp⟩
  | .struct none ts => by
    have hp : P nm₁ g φ S₁ old (.struct none ts) := by
      intro v u o bs f hv hd hd' he hf hw hlen
      cases u with
      | struct j us =>
        cases j with
        | some j => simp [Evolves] at he
        | none =>
          simp only [Evolves] at he
          simp only [Described] at hd hd'
          cases v with
          | list vs =>
            cases o with
            | list os =>
              simp only [HasTy] at hv
              simp only [Fresh] at hf
              simp only [writeTy] at hw
              obtain ⟨b', e, hw⟩ := Res.bind_eq_ok.mp hw
              simp only [Res.ok.injEq, preV, List.nil_append] at hw
              subst hw
              simp only [readTy, convert, hookV]
              exact Exact.bind_nil (fields_conv f b'.length hlen ts (fun t ht => (convs_main ho ts t ht).1) us vs os b'
                hv hd hd' he hf e (Nat.le_refl _)) (Exact.pure _)
            | _ => simp [Fresh] at hf
          | _ => simp [HasTy] at hv
      | _ => simp [Evolves] at he
    exact ⟨hp, skip_simple _ rfl hp⟩
  | .struct (some i) ts =>
    ⟨struct_conv ho i ts (convs_main ho ts), skip_struct ho i ts (fun t ht => (convs_main ho ts t ht).2)⟩

theorem convs_main (ho : OldOk nm₁ g S₁ old) : ∀ (ts : List Ty), ∀ t ∈ ts,
    P nm₁ g φ S₁ old t ∧ SkipP nm₁ g φ S₁ old t
  | [], t, ht => by simp at ht
  | x :: xs, t, ht => by
    rcases List.mem_cons.mp ht with h | h
    · rw [h]; exact conv_main ho x
    · exact convs_main ho xs t h

end

end

end Verif.Vts
