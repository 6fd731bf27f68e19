import Verif.Serialize.Lemmas

namespace Verif.Serialize

mutual

theorem fresh_dflt : ∀ t, Fresh t (dflt t)
  | .num _ _ | .bool | .enm _ _ | .time _ _ | .str _ => by simp [Fresh]
  | .vec _ => by simp [dflt, Fresh]
  | .arr n t => by
    simp only [dflt, Fresh, List.length_replicate, true_and]
    intro v hv
    rw [(List.mem_replicate.mp hv).2]
    exact fresh_dflt t
  | .opt _ _ => by simp [dflt, Fresh]
  | .coll _ _ => by simp [dflt, Fresh]
  | .map _ _ _ => by simp [dflt, Fresh]
  | .var _ => by simp [Fresh]
  | .struct _ ts => by
    simp only [dflt, Fresh]
    exact fresh_dflts ts

theorem fresh_dflts : ∀ ts, Freshs ts (dflt.dflts ts)
  | [] => by simp [dflt.dflts, Freshs]
  | t :: ts => by
    simp only [dflt.dflts, Freshs]
    exact ⟨fresh_dflt t, fresh_dflts ts⟩

end

theorem resize_ok (env : Env) (d : Val) (n : Nat) (vs : List Val) (h : n ≤ env.cap) :
    ∃ vs', resize env d n vs = .ok vs' ∧ vs'.length = n ∧ ∀ v ∈ vs', v ∈ vs ∨ v = d := by
  refine ⟨_, by simp only [resize]; rw [if_neg (by omega)], ?_, ?_⟩
  · simp
    omega
  · intro v hv
    rw [List.mem_append] at hv
    rcases hv with hv | hv
    · exact Or.inl (List.mem_of_mem_take hv)
    · exact Or.inr (List.mem_replicate.mp hv).2

section

variable {σ : Type} {I : σ → Prop} (env : Env) (pre : Option SInfo → List UInt8) (h : Hook σ)

mutual

theorem readTy_exact (hh : HookOk I pre h) : ∀ (t : Ty) (v old : Val), HasTy env t v → Fresh t old →
    ∃ bs, writeTy env pre t v = .ok bs ∧ Exact I (readTy env h t old) bs v
  | .num n _, v, old, ht, _ => by
    obtain ⟨x, rfl, hx⟩ := hasTy_num ht
    refine ⟨leBytes n x, by simp [writeTy], ?_⟩
    simp only [readTy]
    refine Exact.bind_nil (Exact.readRaw _ n (by simp)) ?_
    rw [leVal_leBytes n x hx]
    exact Exact.pure _
  | .bool, v, old, ht, _ => by
    obtain ⟨b, rfl⟩ := hasTy_bool ht
    refine ⟨leBytes 1 (if b then 1 else 0), by simp [writeTy], ?_⟩
    simp only [readTy]
    refine Exact.bind_nil (Exact.readRaw _ 1 (by simp)) ?_
    have : (leVal (leBytes 1 (if b then 1 else 0)) != 0) = b := by cases b <;> decide
    rw [this]
    exact Exact.pure _
  | .enm n count, v, old, ht, _ => by
    cases v with
    | num x =>
      simp only [HasTy] at ht
      refine ⟨leBytes n x, by simp only [writeTy]; rw [if_neg (by omega)], ?_⟩
      simp only [readTy]
      refine Exact.bind_nil (Exact.readRaw _ n (by simp)) ?_
      rw [leVal_leBytes n x ht.2, if_neg (show ¬ count ≤ x by omega)]
      exact Exact.pure _
    | _ => simp [HasTy] at ht
  | .time p q, v, old, ht, _ => by
    cases v with
    | int i =>
      simp only [HasTy] at ht
      obtain ⟨hp, hq, h1, h2, hd⟩ := ht
      obtain ⟨ns, e1, b1, b2, e2⟩ := time_roundtrip p q i hp hq h1 h2 hd
      refine ⟨leBytes 8 (ofInt64 ns), by simp [writeTy, e1], ?_⟩
      simp only [readTy]
      refine Exact.bind_nil (Exact.readRaw _ 8 (by simp)) ?_
      rw [leVal_leBytes 8 _ (by have := ofInt64_lt ns; norm_num at this ⊢; exact this), toInt64_ofInt64 ns b1 b2]
      exact Exact.nil_bind (Exact.lift e2) (Exact.pure _)
    | _ => simp [HasTy] at ht
  | .str c, v, old, ht, _ => by
    cases v with
    | list vs =>
      simp only [HasTy] at ht
      obtain ⟨hcap, hl, hb, hlim, hv⟩ := ht
      obtain ⟨bs, e⟩ := numBytes_ok c vs hv
      have hlimit : env.limit.any (· < vs.length * c % 2 ^ 64) = false := by
        rw [Nat.mod_eq_of_lt hb]
        cases hL : env.limit with
        | none => rfl
        | some L =>
          have := hlim L hL
          simp only [Option.any_some, decide_eq_false_iff_not]
          omega
      refine ⟨leBytes 8 vs.length ++ bs, by simp only [writeTy]; rw [hlimit]; simp [e], ?_⟩
      simp only [readTy]
      refine Exact.bind (Exact.readSize _ hl) ?_
      rw [hlimit]
      simp only [Bool.false_eq_true, if_false]
      obtain ⟨vs', e', l', _⟩ := resize_ok env (.num 0) vs.length [] hcap
      refine Exact.nil_bind (Exact.lift e') ?_
      rw [Nat.mod_eq_of_lt hb, l']
      obtain ⟨lb, s⟩ := splitNums_numBytes c vs bs (List.replicate (vs.length * c - vs.length * c) 0) hv e
      refine Exact.bind_nil (Exact.readRaw bs _ lb) ?_
      rw [s]
      exact Exact.pure _
    | _ => simp [HasTy] at ht
  | .vec t, v, old, ht, hf => by
    cases v with
    | list vs =>
      cases old with
      | list olds =>
        simp only [HasTy] at ht
        simp only [Fresh] at hf
        obtain ⟨hcap, hl, hne, hv⟩ := ht
        obtain ⟨os, e', l', m'⟩ := resize_ok env (dflt t) vs.length olds hcap
        obtain ⟨bs, e, x⟩ := writeVector_exact (I := I) env t (writeTy env pre t) (readTy env h t) vs os l' hne hv (by
          intro v hv' o ho
          refine readTy_exact hh t v o (hv v hv') ?_
          rcases m' o ho with h1 | h1
          · exact hf o h1
          · rw [h1]; exact fresh_dflt t)
        refine ⟨leBytes 8 vs.length ++ bs, by simp [writeTy, e], ?_⟩
        simp only [readTy]
        refine Exact.bind (Exact.readSize _ hl) ?_
        refine Exact.nil_bind (Exact.lift e') ?_
        exact Exact.bind_nil x (Exact.pure _)
      | _ => simp [Fresh] at hf
    | _ => simp [HasTy] at ht
  | .arr n t, v, old, ht, hf => by
    cases v with
    | list vs =>
      cases old with
      | list olds =>
        simp only [HasTy] at ht
        simp only [Fresh] at hf
        obtain ⟨hl, hne, hv⟩ := ht
        obtain ⟨bs, e, x⟩ := writeVector_exact (I := I) env t (writeTy env pre t) (readTy env h t) vs olds
          (by rw [hf.1, hl]) hne hv (by
          intro v hv' o ho
          exact readTy_exact hh t v o (hv v hv') (hf.2 o ho))
        refine ⟨bs, by simp [writeTy, e], ?_⟩
        simp only [readTy]
        exact Exact.bind_nil x (Exact.pure _)
      | _ => simp [Fresh] at hf
    | _ => simp [HasTy] at ht
  | .opt t _, v, old, ht, hf => by
    cases v with
    | none =>
      cases old with
      | none =>
        refine ⟨leBytes 1 0, by simp [writeTy], ?_⟩
        simp only [readTy]
        refine Exact.bind_nil (Exact.readRaw _ 1 (by simp)) ?_
        have : (leVal (leBytes 1 0) != 0) = false := by decide
        rw [this]
        exact Exact.pure _
      | _ => simp [Fresh] at hf
    | some x =>
      simp only [HasTy] at ht
      obtain ⟨bs, e, ex⟩ := readTy_exact hh t x (dflt t) ht (fresh_dflt t)
      refine ⟨leBytes 1 1 ++ bs, by simp [writeTy, e], ?_⟩
      simp only [readTy]
      refine Exact.bind (Exact.readRaw _ 1 (by simp)) ?_
      have : (leVal (leBytes 1 1) != 0) = true := by decide
      rw [this]
      exact Exact.bind_nil ex (Exact.pure _)
    | _ => simp [HasTy] at ht
  | .coll k t, v, old, ht, hf => by
    cases v with
    | list vs =>
      cases old with
      | list olds =>
        simp only [HasTy] at ht
        simp only [Fresh] at hf
        subst hf
        obtain ⟨hl, hval, hv⟩ := ht
        obtain ⟨bs, e, x⟩ := writeEach_coll (I := I) k id (writeTy env pre t) (readTy env h t (dflt t)) vs []
          (by simpa using hval) (fun v hv' => readTy_exact hh t v (dflt t) (hv v hv') (fresh_dflt t))
        refine ⟨leBytes 8 vs.length ++ bs, by simp [writeTy, e], ?_⟩
        simp only [readTy]
        refine Exact.bind (Exact.readSize _ hl) ?_
        exact Exact.bind_nil x (Exact.pure _)
      | _ => simp [Fresh] at hf
    | _ => simp [HasTy] at ht
  | .map k kt vt, v, old, ht, hf => by
    cases v with
    | list vs =>
      cases old with
      | list olds =>
        simp only [HasTy] at ht
        simp only [Fresh] at hf
        subst hf
        obtain ⟨hl, hval, hv⟩ := ht
        obtain ⟨bs, e, x⟩ := writeEach_coll (I := I) k fstVal (writePair (writeTy env pre kt) (writeTy env pre vt))
          (readPair (readTy env h kt (dflt kt)) (readTy env h vt (dflt vt))) vs []
          (by simpa using hval) (by
          intro v hv'
          obtain ⟨a, b, rfl, ha, hb⟩ := hv v hv'
          obtain ⟨b1, e1, x1⟩ := readTy_exact hh kt a (dflt kt) ha (fresh_dflt kt)
          obtain ⟨b2, e2, x2⟩ := readTy_exact hh vt b (dflt vt) hb (fresh_dflt vt)
          refine ⟨b1 ++ b2, by simp [writePair, e1, e2], ?_⟩
          simp only [readPair]
          exact Exact.bind x1 (Exact.bind_nil x2 (Exact.pure _)))
        refine ⟨leBytes 8 vs.length ++ bs, by simp [writeTy, e], ?_⟩
        simp only [readTy]
        refine Exact.bind (Exact.readSize _ hl) ?_
        exact Exact.bind_nil x (Exact.pure _)
      | _ => simp [Fresh] at hf
    | _ => simp [HasTy] at ht
  | .var ts, v, old, ht, _ => by
    cases v with
    | alt i x =>
      simp only [HasTy] at ht
      obtain ⟨w, rd, d, bs, e1, e2, e3, e4, x⟩ := readTys_at hh ts i x ht.2
      refine ⟨leBytes 8 i ++ bs, by simp [writeTy, e1, e4], ?_⟩
      simp only [readTy]
      refine Exact.bind (Exact.readSize _ ht.1) ?_
      simp only [e2, e3]
      exact Exact.bind_nil x (Exact.pure _)
    | _ => simp [HasTy] at ht
  | .struct info ts, v, old, ht, hf => by
    cases v with
    | list vs =>
      cases old with
      | list olds =>
        simp only [HasTy] at ht
        simp only [Fresh] at hf
        obtain ⟨bs, f⟩ := readTys_fields hh ts vs olds ht hf
        refine ⟨pre info ++ bs, by simp [writeTy, f.write], ?_⟩
        simp only [readTy]
        exact Exact.bind_nil (hh info _ _ _ _ _ f) (Exact.pure _)
      | _ => simp [Fresh] at hf
    | _ => simp [HasTy] at ht

theorem readTys_fields (hh : HookOk I pre h) : ∀ (ts : List Ty) (vs olds : List Val), HasTys env ts vs → Freshs ts olds →
    ∃ bs, Fields I (writeTys env pre ts) (readTys env h ts) olds vs bs
  | [], vs, olds, ht, hf => by
    cases vs with
    | nil =>
      cases olds with
      | nil => exact ⟨[], Fields.nil⟩
      | cons _ _ => simp [Freshs] at hf
    | cons _ _ => simp [HasTys] at ht
  | t :: ts, vs, olds, ht, hf => by
    cases vs with
    | nil => simp [HasTys] at ht
    | cons v vs =>
      cases olds with
      | nil => simp [Freshs] at hf
      | cons o os =>
        simp only [HasTys] at ht
        simp only [Freshs] at hf
        obtain ⟨b1, e1, x1⟩ := readTy_exact hh t v o ht.1 hf.1
        obtain ⟨b2, f2⟩ := readTys_fields hh ts vs os ht.2 hf.2
        exact ⟨b1 ++ b2, Fields.cons e1 x1 f2⟩

theorem readTys_at (hh : HookOk I pre h) : ∀ (ts : List Ty) (i : Nat) (v : Val), HasTyAt env ts i v →
    ∃ w rd d bs, (writeTys env pre ts)[i]? = some w ∧ (readTys env h ts)[i]? = some rd ∧
      (dflt.dflts ts)[i]? = some d ∧ w v = .ok bs ∧ Exact I (rd d) bs v
  | [], i, v, ht => by simp [HasTyAt] at ht
  | t :: ts, 0, v, ht => by
    simp only [HasTyAt] at ht
    obtain ⟨bs, e, x⟩ := readTy_exact hh t v (dflt t) ht (fresh_dflt t)
    exact ⟨writeTy env pre t, readTy env h t, dflt t, bs, by simp [writeTys], by simp [readTys], by simp [dflt.dflts], e, x⟩
  | t :: ts, i + 1, v, ht => by
    simp only [HasTyAt] at ht
    obtain ⟨w, rd, d, bs, e1, e2, e3, e4, x⟩ := readTys_at hh ts i v ht
    exact ⟨w, rd, d, bs, by simpa [writeTys] using e1, by simpa [readTys] using e2, by simpa [dflt.dflts] using e3, e4, x⟩

end

end

/-! ### Replacing types -/

mutual

theorem fresh_of_replaces (env : Env) : ∀ t v, Replaces t = true → HasTy env t v → Fresh t v
  | .num _ _, v, _, _ | .bool, v, _, _ | .enm _ _, v, _, _ | .time _ _, v, _, _ | .str _, v, _, _ | .var _, v, _, _ => by
    simp [Fresh]
  | .vec t, v, hr, ht => by
    cases v with
    | list vs =>
      simp only [HasTy] at ht
      simp only [Replaces] at hr
      simp only [Fresh]
      exact fun w hw => fresh_of_replaces env t w hr (ht.2.2.2 w hw)
    | _ => simp [HasTy] at ht
  | .arr n t, v, hr, ht => by
    cases v with
    | list vs =>
      simp only [HasTy] at ht
      simp only [Replaces] at hr
      simp only [Fresh]
      exact ⟨ht.1, fun w hw => fresh_of_replaces env t w hr (ht.2.2 w hw)⟩
    | _ => simp [HasTy] at ht
  | .opt _ _, _, hr, _ => by simp [Replaces] at hr
  | .coll _ _, _, hr, _ => by simp [Replaces] at hr
  | .map _ _ _, _, hr, _ => by simp [Replaces] at hr
  | .struct _ ts, v, hr, ht => by
    cases v with
    | list vs =>
      simp only [HasTy] at ht
      simp only [Replaces] at hr
      simp only [Fresh]
      exact fresh_of_replacesAll env ts vs hr ht
    | _ => simp [HasTy] at ht

theorem fresh_of_replacesAll (env : Env) : ∀ ts vs, ReplacesAll ts = true → HasTys env ts vs → Freshs ts vs
  | [], vs, _, ht => by
    cases vs with
    | nil => simp [Freshs]
    | cons _ _ => simp [HasTys] at ht
  | t :: ts, vs, hr, ht => by
    cases vs with
    | nil => simp [HasTys] at ht
    | cons v vs =>
      simp only [HasTys] at ht
      simp only [ReplacesAll, Bool.and_eq_true] at hr
      simp only [Freshs]
      exact ⟨fresh_of_replaces env t v hr.1 ht.1, fresh_of_replacesAll env ts vs hr.2 ht.2⟩

end

end Verif.Serialize
