import Verif.Vts.Same
import Verif.Serialize.Safety

/-! # The converted value is a value of the new type -/

namespace Verif.Vts

open Verif.Serialize

mutual

/-- New objects of the type have values of the type: an enumeration has an enumerator, a variant an alternative; a ring has a limit and the comparator of an ordered
container is transitive. -/
def Sound : Ty → Prop
  | .enm _ count => 0 < count
  | .time p q => 0 < p ∧ 0 < q
  | .vec t => (∀ n c, t ≠ .enm n c) ∧ Sound t
  | .arr _ t => (∀ n c, t ≠ .enm n c) ∧ Sound t
  | .opt t _ => Sound t
  | .coll k t => k.Good ∧ Sound t
  | .map k kt vt => k.Good ∧ Sound kt ∧ Sound vt
  | .var ts => ts ≠ [] ∧ SoundAll ts
  | .struct _ ts => SoundAll ts
  | _ => True

/-- All of them. -/
def SoundAll : List Ty → Prop
  | [] => True
  | t :: ts => Sound t ∧ SoundAll ts

end

mutual

theorem dflt_hasTy (env : Env) : ∀ (t : Ty), Sound t → HasTy env t (dflt t)
  | .num n _, _ => by simp [dflt, HasTy]
  | .bool, _ => by simp [dflt, HasTy]
  | .enm n c, h => by
    simp only [Sound] at h
    simp [dflt, HasTy, h]
  | .time p q, h => by
    simp only [Sound] at h
    simp [dflt, HasTy, h]
  | .str c, _ => by simp [dflt, HasTy]
  | .vec t, h => by
    simp only [Sound] at h
    simp only [dflt, HasTy, List.length_nil, List.not_mem_nil, false_implies, implies_true, and_true]
    exact ⟨Nat.zero_le _, by decide, h.1⟩
  | .arr n t, h => by
    simp only [Sound] at h
    simp only [dflt, HasTy, List.length_replicate, true_and]
    exact ⟨h.1, fun v hv => by rw [(List.mem_replicate.1 hv).2]; exact dflt_hasTy env t h.2⟩
  | .opt t _, _ => by simp [dflt, HasTy]
  | .coll k t, _ => by
    simp only [dflt, HasTy, List.length_nil, List.not_mem_nil, false_implies, implies_true, and_true]
    refine ⟨by decide, ?_⟩
    cases k <;> simp [Coll.Valid]
  | .map k kt vt, _ => by
    simp only [dflt, HasTy, List.length_nil, List.not_mem_nil, false_implies, implies_true, and_true]
    refine ⟨by decide, ?_⟩
    cases k <;> simp [Coll.Valid]
  | .var [], h => by simp [Sound] at h
  | .var (t :: ts), h => by
    simp only [Sound, SoundAll] at h
    simp only [dflt, HasTy, HasTyAt]
    exact ⟨by decide, dflt_hasTy env t h.2.1⟩
  | .struct _ ts, h => by
    simp only [Sound] at h
    simp only [dflt, HasTy]
    exact dflts_hasTy env ts h

theorem dflts_hasTy (env : Env) : ∀ (ts : List Ty), SoundAll ts → HasTys env ts (dflt.dflts ts)
  | [], _ => by simp [dflt.dflts, HasTys]
  | t :: ts, h => by
    simp only [SoundAll] at h
    simp only [dflt.dflts, HasTys]
    exact ⟨dflt_hasTy env t h.1, dflts_hasTy env ts h.2⟩

end

theorem soundAll_get : ∀ (ts : List Ty) (k : Nat) (t : Ty), SoundAll ts → ts[k]? = some t → Sound t
  | [], k, t, _, h => by simp at h
  | x :: ts, 0, t, hs, h => by simp at h; subst h; simp only [SoundAll] at hs; exact hs.1
  | x :: ts, k + 1, t, hs, h => by
    simp only [SoundAll] at hs
    exact soundAll_get ts k t hs.2 (by simpa using h)

theorem hasTys_of_get (env : Env) : ∀ (ts : List Ty) (vs : List Val), vs.length = ts.length →
    (∀ (k : Nat) (t : Ty) (v : Val), ts[k]? = some t → vs[k]? = some v → HasTy env t v) → HasTys env ts vs
  | [], vs, hl, _ => by cases vs with
    | nil => simp [HasTys]
    | cons _ _ => simp at hl
  | t :: ts, vs, hl, h => by
    cases vs with
    | nil => simp at hl
    | cons v vs =>
      simp only [HasTys]
      exact ⟨h 0 t v rfl rfl, hasTys_of_get env ts vs (by simpa using hl) (fun k t v h1 h2 => h (k + 1) t v (by simpa using h1) (by simpa using h2))⟩

theorem convertEach_length (f : Val → Val → Val) (d : Val) : ∀ (vs os : List Val), (convertEach f d vs os).length = vs.length
  | [], os => by simp [convertEach]
  | v :: vs, [] => by simp [convertEach, convertEach_length f d vs []]
  | v :: vs, o :: os => by simp [convertEach, convertEach_length f d vs os]

theorem convertEach_all (f : Val → Val → Val) (d : Val) (p : Val → Prop) : ∀ (vs os : List Val), (∀ v ∈ vs, p (f v d)) →
    (∀ v ∈ vs, ∀ o ∈ os, p (f v o)) → ∀ x ∈ convertEach f d vs os, p x
  | [], os, _, _ => by simp [convertEach]
  | v :: vs, [], h, h' => by
    intro x hx
    simp only [convertEach, List.mem_cons] at hx
    rcases hx with rfl | hx
    · exact h v (by simp)
    · exact convertEach_all f d p vs [] (fun x hx => h x (by simp [hx])) (by simp) x hx
  | v :: vs, o :: os, h, h' => by
    intro x hx
    simp only [convertEach, List.mem_cons] at hx
    rcases hx with rfl | hx
    · exact h' v (by simp) o (by simp)
    · exact convertEach_all f d p vs os (fun x hx => h x (by simp [hx])) (fun x hx y hy => h' x (by simp [hx]) y (by simp [hy])) x hx

theorem insertOrdered_length (lt : Val → Val → Bool) (key : Val → Val) (x : Val) : ∀ l : List Val, (insertOrdered lt key x l).length ≤ l.length + 1
  | [] => by simp [insertOrdered]
  | y :: l => by
    have := insertOrdered_length lt key x l
    simp only [insertOrdered]
    split
    · simpa using this
    · split <;> simp

/-- Adding one element keeps the order of a container; elements are those before and the new one. -/
theorem collAdd_good (k : Coll) (hk : k.Good) (key : Val → Val) (l : List Val) (x : Val) (h : k.Valid key l) :
    k.Valid key (collAdd k key l x) ∧ (collAdd k key l x).length ≤ l.length + 1 ∧ ∀ y ∈ collAdd k key l x, y ∈ l ∨ y = x := by
  cases k with
  | deque =>
    refine ⟨trivial, by simp [collAdd], fun y hy => ?_⟩
    simpa [collAdd] using hy
  | ring cap =>
    simp only [Coll.Valid, collAdd, Coll.Good] at *
    by_cases hc : l.length < cap
    · simp only [if_pos hc]
      exact ⟨by simp; omega, by simp, fun y hy => by simpa using hy⟩
    · simp only [if_neg hc]
      refine ⟨by simp; omega, by simp, fun y hy => ?_⟩
      rcases List.mem_append.1 hy with hy | hy
      · exact .inl (List.mem_of_mem_tail hy)
      · exact .inr (by simpa using hy)
  | ordered lt =>
    simp only [Coll.Valid, collAdd, Coll.Good] at *
    exact ⟨insertOrdered_pairwise lt key x l hk h, insertOrdered_length lt key x l, fun y hy => by
      have := insertOrdered_mem lt key x l y hy
      exact this.symm⟩
  | hashed eq =>
    simp only [Coll.Valid, collAdd, Coll.Good] at *
    by_cases hc : l.any (fun y => eq (key y) (key x)) = true
    · simp only [if_pos hc]
      exact ⟨h, by omega, fun y hy => .inl hy⟩
    · simp only [if_neg hc]
      refine ⟨?_, by simp, fun y hy => by simpa using hy⟩
      rw [List.pairwise_append]
      refine ⟨h, by simp, fun a ha b hb => ?_⟩
      simp only [List.mem_singleton] at hb
      subst hb
      simp only [List.any_eq_true, not_exists, not_and, Bool.not_eq_true] at hc
      exact hc a ha

theorem collAdd_all (k : Coll) (hk : k.Good) (key : Val → Val) : ∀ (vs acc : List Val), k.Valid key acc →
    k.Valid key (vs.foldl (collAdd k key) acc) ∧ (vs.foldl (collAdd k key) acc).length ≤ acc.length + vs.length ∧
      ∀ y ∈ vs.foldl (collAdd k key) acc, y ∈ acc ∨ y ∈ vs
  | [], acc, h => by simp [h]
  | x :: vs, acc, h => by
    obtain ⟨h1, h2, h3⟩ := collAdd_good k hk key acc x h
    obtain ⟨h4, h5, h6⟩ := collAdd_all k hk key vs _ h1
    refine ⟨h4, by simp only [List.foldl_cons, List.length_cons]; omega, fun y hy => ?_⟩
    rcases h6 y hy with hy | hy
    · rcases h3 y hy with hy | rfl
      · exact .inl hy
      · simp
    · simp [hy]

theorem valid_nil (k : Coll) (key : Val → Val) : k.Valid key [] := by
  cases k <;> simp [Coll.Valid]

/-- What has become of a field. -/
theorem evolvesFields_get (nm₁ : Ty → Name) (g : Cfg) (φ : Nat → Nat) (rn : Name → Name) (ms : List Name) (us : List Ty) :
    ∀ (ns : List Name) (ts : List Ty), EvolvesFields nm₁ g φ rn ms us ns ts → ∀ (k : Nat) (n : Name) (t : Ty), ns[k]? = some n → ts[k]? = some t →
      rn n ∈ ms → ∃ (j : Nat) (u : Ty), ms[j]? = some (rn n) ∧ us[j]? = some u ∧ Evolves nm₁ g φ t u
  | [], ts, _, k, n, t, h1, _, _ => by simp at h1
  | x :: ns, [], h, _, _, _, _, _, _ => by simp [EvolvesFields] at h
  | x :: ns, y :: ts, h, 0, n, t, h1, h2, h3 => by
    simp only [List.getElem?_cons_zero, Option.some.injEq] at h1 h2
    rw [← h1] at h3 ⊢
    rw [← h2]
    simp only [EvolvesFields] at h
    rcases h.1 with ⟨j, u, g1, g2, _, _, g3⟩ | ⟨hn, _⟩
    · exact ⟨j, u, g1, g2, g3⟩
    · exact absurd h3 hn
  | x :: ns, y :: ts, h, k + 1, n, t, h1, h2, h3 => by
    simp only [EvolvesFields] at h
    exact evolvesFields_get nm₁ g φ rn ms us ns ts h.2 k n t (by simpa using h1) (by simpa using h2) h3

theorem evolves_enm {nm₁ : Ty → Name} {g : Cfg} {φ : Nat → Nat} {a b : Ty} (h : Evolves nm₁ g φ a b) (ha : ∀ n c, a ≠ .enm n c) : ∀ n c, b ≠ .enm n c := by
  intro n c hb
  subst hb
  cases a <;> simp only [Evolves] at h
  exact ha _ _ rfl

theorem converts_length (ren : Nat → Name → Name) (ts : List Ty) : (converts ren ts).length = ts.length := converts_len ren ts

mutual

theorem convert_hasTy (env : Env) (nm₁ : Ty → Name) (g : Cfg) (φ : Nat → Nat) (ren : Nat → Name → Name) (hr : g.ren = ren) : ∀ (t u : Ty) (v o : Val),
    Evolves nm₁ g φ t u → Sound u → HasTy env t v → HasTy env u o → HasTy env u (convert ren t v u o)
  | .num n _, u, v, o, he, hs, hv, ho => by
    cases u <;> simp only [Evolves] at he
    subst he
    cases v <;> simp only [HasTy] at hv
    simpa [convert, HasTy] using hv
  | .bool, u, v, o, he, hs, hv, ho => by
    cases u <;> simp only [Evolves] at he
    cases v <;> simp only [HasTy] at hv
    simp [convert, HasTy]
  | .enm n c, u, v, o, he, hs, hv, ho => by
    cases u <;> simp only [Evolves] at he
    obtain ⟨rfl, he⟩ := he
    cases v <;> simp only [HasTy] at hv
    simp only [convert, HasTy]
    exact ⟨by omega, hv.2⟩
  | .time p q, u, v, o, he, hs, hv, ho => by
    cases u <;> simp only [Evolves] at he
    obtain ⟨rfl, rfl⟩ := he
    cases v <;> simp only [HasTy] at hv
    simpa only [convert, HasTy] using hv
  | .str c, u, v, o, he, hs, hv, ho => by
    cases u <;> simp only [Evolves] at he
    subst he
    cases v <;> simp only [HasTy] at hv
    simpa only [convert, HasTy] using hv
  | .vec a, u, v, o, he, hs, hv, ho => by
    cases u <;> simp only [Evolves] at he
    cases v <;> simp only [HasTy] at hv
    cases o <;> simp only [HasTy] at ho
    simp only [Sound] at hs
    simp only [convert, HasTy, convertEach_length]
    refine ⟨hv.1, hv.2.1, evolves_enm he hv.2.2.1, ?_⟩
    exact convertEach_all _ _ _ _ _ (fun v h => convert_hasTy env nm₁ g φ ren hr a _ v _ he hs.2 (hv.2.2.2 v h) (dflt_hasTy env _ hs.2))
      (fun v h o h' => convert_hasTy env nm₁ g φ ren hr a _ v o he hs.2 (hv.2.2.2 v h) (ho.2.2.2 o h'))
  | .arr n a, u, v, o, he, hs, hv, ho => by
    cases u <;> simp only [Evolves] at he
    obtain ⟨rfl, he⟩ := he
    cases v <;> simp only [HasTy] at hv
    cases o <;> simp only [HasTy] at ho
    simp only [Sound] at hs
    simp only [convert, HasTy, convertEach_length]
    refine ⟨hv.1, evolves_enm he hv.2.1, ?_⟩
    exact convertEach_all _ _ _ _ _ (fun v h => convert_hasTy env nm₁ g φ ren hr a _ v _ he hs.2 (hv.2.2 v h) (dflt_hasTy env _ hs.2))
      (fun v h o h' => convert_hasTy env nm₁ g φ ren hr a _ v o he hs.2 (hv.2.2 v h) (ho.2.2 o h'))
  | .opt a _, u, v, o, he, hs, hv, ho => by
    cases u <;> simp only [Evolves] at he
    simp only [Sound] at hs
    cases v <;> simp only [HasTy] at hv
    · simp only [convert, HasTy]
    · simp only [convert, HasTy]
      exact convert_hasTy env nm₁ g φ ren hr a _ _ _ he hs hv (dflt_hasTy env _ hs)
  | .coll _ a, u, v, o, he, hs, hv, ho => by
    cases u <;> simp only [Evolves] at he
    simp only [Sound] at hs
    cases v <;> simp only [HasTy] at hv
    simp only [convert, HasTy]
    rename_i k b vs
    obtain ⟨h1, h2, h3⟩ := collAdd_all k hs.1 id (vs.map fun v => convert ren a v b (dflt b)) [] (valid_nil k id)
    refine ⟨by simp at h2; omega, h1, fun y hy => ?_⟩
    rcases h3 y hy with hy | hy
    · simp at hy
    · obtain ⟨v, hv1, rfl⟩ := List.mem_map.1 hy
      exact convert_hasTy env nm₁ g φ ren hr a _ _ _ he.2 hs.2 (hv.2.2 v hv1) (dflt_hasTy env _ hs.2)
  | .map _ a b, u, v, o, he, hs, hv, ho => by
    cases u <;> simp only [Evolves] at he
    simp only [Sound] at hs
    cases v <;> simp only [HasTy] at hv
    simp only [convert, HasTy]
    rename_i k a' b' vs
    obtain ⟨h1, h2, h3⟩ := collAdd_all k hs.1 fstVal
      (vs.map (convertPair (fun v => convert ren a v a' (dflt a')) (fun v => convert ren b v b' (dflt b')))) [] (valid_nil k fstVal)
    refine ⟨by simp at h2; omega, h1, fun y hy => ?_⟩
    rcases h3 y hy with hy | hy
    · simp at hy
    · obtain ⟨v, hv1, rfl⟩ := List.mem_map.1 hy
      obtain ⟨x, z, rfl, g1, g2⟩ := hv.2.2 v hv1
      exact ⟨_, _, rfl, convert_hasTy env nm₁ g φ ren hr a _ _ _ he.2.1 hs.2.1 g1 (dflt_hasTy env _ hs.2.1),
        convert_hasTy env nm₁ g φ ren hr b _ _ _ he.2.2 hs.2.2 g2 (dflt_hasTy env _ hs.2.2)⟩
  | .var ts, u, v, o, he, hs, hv, ho => by
    cases u <;> simp only [Evolves] at he
    simp only [Sound] at hs
    cases v <;> simp only [HasTy] at hv
    rename_i us i v
    obtain ⟨t, u, h1, h2, h3⟩ := alts_hasTy env nm₁ g φ ren hr ts us i v he hs.2 hv.2
    simp only [convert, converts_get ren ts i t h1, h2, HasTy]
    exact ⟨hv.1, h3⟩
  | .struct none ts, u, v, o, he, hs, hv, ho => by
    cases u <;> try simp only [Evolves] at he
    rename_i j us
    rcases j with _ | j <;> simp only [Evolves] at he
    simp only [Sound] at hs
    cases v <;> simp only [HasTy] at hv
    cases o <;> simp only [HasTy] at ho
    simp only [convert, HasTy]
    exact converts_hasTy env nm₁ g φ ren hr ts us _ _ he hs hv ho
  | .struct (some i) ts, u, v, o, he, hs, hv, ho => by
    cases u <;> try simp only [Evolves] at he
    rename_i j us
    rcases j with _ | j <;> simp only [Evolves] at he
    simp only [Sound] at hs
    cases v <;> simp only [HasTy] at hv
    cases o <;> simp only [HasTy] at ho
    rename_i vs os
    obtain ⟨_, _, hl1, hl2, hn1, hn2, hf⟩ := he
    have hlv := hasTys_length env ts vs hv
    have hlo := hasTys_length env us os ho
    rw [hr] at hn1 hf
    obtain ⟨ws, e, w1, w2, w3⟩ := convertFields_spec ren i j ts us vs os hl2 hlo hn1
    rw [e, HasTy]
    refine hasTys_of_get env us ws w1 ?_
    intro m u w hu hw
    have hm : m < us.length := (List.getElem?_eq_some_iff.1 hu).1
    have e1 : j.names[m]? = some j.names[m] := List.getElem?_eq_getElem (by omega)
    have e2 : os[m]? = some os[m] := List.getElem?_eq_getElem (by omega)
    have hom := hasTys_get env us os m _ _ ho hu e2
    by_cases hc : j.names[m] ∈ i.names.map (ren j.idx)
    · obtain ⟨n, hn, hnn⟩ := List.mem_map.1 hc
      obtain ⟨k, hk, hkn⟩ := List.mem_iff_getElem.1 hn
      have e3 : i.names[k]? = some n := by rw [List.getElem?_eq_getElem hk, hkn]
      have e4 : ts[k]? = some ts[k] := List.getElem?_eq_getElem (by omega)
      have e5 : vs[k]? = some vs[k] := List.getElem?_eq_getElem (by omega)
      have := w2 k m n _ _ u _ _ e3 e4 e5 e1 hu e2 hnn
      rw [hw, Option.some.injEq] at this
      rw [this]
      obtain ⟨m', u', g1, g2, g3⟩ := evolvesFields_get nm₁ g φ _ _ _ _ _ hf k n _ e3 e4 (by rw [hnn]; exact List.getElem_mem _)
      have hmm : m' = m := by
        have h1 := (List.getElem?_eq_some_iff.1 g1)
        obtain ⟨hlt, h1⟩ := h1
        rw [hnn] at h1
        exact (List.getElem_inj hn2).1 h1
      rw [hmm, hu] at g2
      cases g2
      exact field_hasTy env nm₁ g φ ren hr ts k _ u _ _ e4 g3 (soundAll_get us m u hs hu) (hasTys_get env ts vs k _ _ hv e4 e5) hom
    · have := w3 m _ e1 hc
      rw [hw, e2, Option.some.injEq] at this
      rw [this]
      exact hom

theorem field_hasTy (env : Env) (nm₁ : Ty → Name) (g : Cfg) (φ : Nat → Nat) (ren : Nat → Name → Name) (hr : g.ren = ren) : ∀ (ts : List Ty) (k : Nat) (t u : Ty) (v o : Val),
    ts[k]? = some t → Evolves nm₁ g φ t u → Sound u → HasTy env t v → HasTy env u o → HasTy env u (convert ren t v u o)
  | [], k, t, u, v, o, h, _, _, _, _ => by simp at h
  | x :: ts, 0, t, u, v, o, h, he, hs, hv, ho => by
    simp only [List.getElem?_cons_zero, Option.some.injEq] at h
    rw [← h] at he hv ⊢
    exact convert_hasTy env nm₁ g φ ren hr x u v o he hs hv ho
  | x :: ts, k + 1, t, u, v, o, h, he, hs, hv, ho => field_hasTy env nm₁ g φ ren hr ts k t u v o (by simpa using h) he hs hv ho

theorem alts_hasTy (env : Env) (nm₁ : Ty → Name) (g : Cfg) (φ : Nat → Nat) (ren : Nat → Name → Name) (hr : g.ren = ren) : ∀ (ts us : List Ty) (i : Nat) (v : Val),
    EvolvesAlts nm₁ g φ ts us → SoundAll us → HasTyAt env ts i v → ∃ t u, ts[i]? = some t ∧ us[i]? = some u ∧ HasTyAt env us i (convert ren t v u (dflt u))
  | [], us, i, v, _, _, h => by simp [HasTyAt] at h
  | t :: ts, [], i, v, he, _, _ => by simp [EvolvesAlts] at he
  | t :: ts, u :: us, 0, v, he, hs, hv => by
    simp only [EvolvesAlts] at he
    simp only [SoundAll] at hs
    simp only [HasTyAt] at hv
    refine ⟨t, u, rfl, rfl, ?_⟩
    simp only [HasTyAt]
    exact convert_hasTy env nm₁ g φ ren hr t u v _ he.1 hs.1 hv (dflt_hasTy env u hs.1)
  | t :: ts, u :: us, i + 1, v, he, hs, hv => by
    simp only [EvolvesAlts] at he
    simp only [SoundAll] at hs
    simp only [HasTyAt] at hv
    obtain ⟨t', u', h1, h2, h3⟩ := alts_hasTy env nm₁ g φ ren hr ts us i v he.2 hs.2 hv
    exact ⟨t', u', by simpa using h1, by simpa using h2, by simpa only [HasTyAt] using h3⟩

theorem converts_hasTy (env : Env) (nm₁ : Ty → Name) (g : Cfg) (φ : Nat → Nat) (ren : Nat → Name → Name) (hr : g.ren = ren) : ∀ (ts us : List Ty) (vs os : List Val),
    EvolvesAll nm₁ g φ ts us → SoundAll us → HasTys env ts vs → HasTys env us os → HasTys env us (convertAll (converts ren ts) vs us os)
  | [], us, vs, os, he, _, hv, ho => by
    cases us with
    | nil => simp [converts, convertAll, HasTys]
    | cons _ _ => simp [EvolvesAll] at he
  | t :: ts, us, vs, os, he, hs, hv, ho => by
    cases us with
    | nil => simp [EvolvesAll] at he
    | cons u us =>
      cases vs with
      | nil => simp [HasTys] at hv
      | cons v vs =>
        cases os with
        | nil => simp [HasTys] at ho
        | cons o os =>
          simp only [EvolvesAll] at he
          simp only [SoundAll] at hs
          simp only [HasTys] at hv ho
          simp only [converts, convertAll, HasTys]
          exact ⟨convert_hasTy env nm₁ g φ ren hr t u v o he.1 hs.1 hv.1 ho.1, converts_hasTy env nm₁ g φ ren hr ts us vs os he.2 hs.2 hv.2 ho.2⟩

end

end Verif.Vts
