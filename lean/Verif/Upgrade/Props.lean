import Verif.Upgrade.Lemmas
import Verif.Mp.EvolutionProps

/-! # C144: the settings after an update of the program -/

namespace Verif.Upgrade

open Verif.Storage
open Verif.StorageFmt hiding Bytes

variable {V W : Type}

/-- C144 for any two formats such that the new program can read the values of the old one: the old program was stopped in `Save`, then the new program was
stopped in `Load` any number of times; the new program gets the settings saved before or those that were being saved. -/
theorem c144_old_or_new (w : Format V) (r : Format W) (c : V → W) (P : V → Prop) (Q : W → Prop) (hw : Reads w r c P) (hr : r.Good Q) (hPQ : ∀ v, P v → Q (c v))
    (K : Crash) (hK : Detects r K) (d : Files) (u v : V) (hu : P u) (hv : P v) (k : Nat) (f f' : Bytes × Bytes)
    (h : Crashed K (save w v) k (exec (save w u) d) f.1 f.2) (hi : Interrupted r K f f') (old : W) :
    answer r old f'.1 f'.2 = (c u, .ok true) ∨ answer r old f'.1 f'.2 = (c v, .ok true) := by
  obtain ⟨h1, h2⟩ := crashed_reads hw hK (m := w.enc u) (by rw [exec_save]; exact ⟨rfl, rfl, rfl, rfl⟩) hv k h
  have hQ : ∀ x, Holds r f.2 x → Q x := by
    intro x hx
    rcases h1 with h1 | h1
    · exact absurd h1 (holds_not_rejected hx)
    · have : Res.ok (x, f.2.length) = Res.ok (c v, f.2.length) := by rw [← hx, ← h1]
      cases this
      exact hPQ v hv
  have ha : answer r old f.1 f.2 = (c u, .ok true) ∨ answer r old f.1 f.2 = (c v, .ok true) := by
    rcases h1 with h1 | h1
    · rw [answer_master h1]
      rcases h2 h1 with e | e <;> rw [e]
      · exact .inl (loadFromFile_holds (hw.converted u hu) old)
      · exact .inr (loadFromFile_holds (hw.converted v hv) old)
    · exact .inr (answer_backup h1 old _)
  obtain ⟨h3, h4⟩ := c44_recovery_idempotent r Q hr K hK f f' hQ hi old
  rcases ha with h5 | h5 <;> rw [h5] at h3 h4
  · exact .inl (Prod.ext (h4 rfl).symm h3.symm)
  · exact .inr (Prod.ext (h4 rfl).symm h3.symm)

/-- C144: while the last `Save` has completed, another program cannot do harm with `Load`, whatever its format is, even if it is stopped in it: `Load` then gives
the same settings as before. -/
theorem c144_harmless (w : Format V) (r : Format W) (K : Crash) (hK : Detects w K) (hw : Rejected w []) (hr : Rejected r []) (m : Bytes) (o : W) (k : Nat) (m' b' : Bytes)
    (h : Crashed K (load r o (.opened m [])).1 k (.opened m []) m' b') (old : V) : m' = m ∧ answer w old m' b' = answer w old m [] := by
  have hl : (load r o (.opened m [])).1 = clearBackup := by
    simp [load, Files.opened, File.opened, loadFromFile_rejected hr]
  obtain ⟨hm, hb⟩ := h
  rw [hl, exec_clear_take] at hm hb
  have hm : m' = m := K.synced hm
  refine ⟨hm, ?_⟩
  have hbh := (frun_clear_take (File.opened []) (by simp [File.opened]) k).2
  have : Rejected w b' := by
    rcases hK _ _ hb with h | ⟨x, hx, h1, _⟩
    · exact h
    · have hx : x = [] := by
        rcases hbh x hx with hx | hx
        · simpa [File.opened] using hx
        · exact hx
      obtain ⟨e, he, hn⟩ := hw
      exact ⟨e, he, by rw [h1, hx, hn]⟩
  rw [answer_master this, answer_master hw, hm]

-- Another program is stopped in `Load` after two operations.
example : Crashed inOrder (load pairFmt 0 (.opened [1, 2, 3] [])).1 2 (.opened [1, 2, 3] []) [1, 2, 3] [] ∧ Rejected pairFmt [] := by
  refine ⟨⟨?_, ?_⟩, pairFmt_good.empty⟩
  · show _ ∈ _; decide
  · show _ ∈ _; decide

/-! ## The settings of a program -/

section Settings

open Verif.Serialize Verif.Vts Verif.Mp

/-- `HeaderedSerializable` for a type: version tolerant serialization with a header in a hashed file; `o` is the value of a new object. -/
abbrev settings (c : HashStream.Cfg) (env : Env) (h : Header) (g : Cfg) (fuel : Nat) (t : Ty) (o : Val) : Format Val :=
  hashed c (headered env h (vts g fuel t o))

/-- C144: the old program saved `u` and was stopped while it saved `v`; the types of the settings have changed as allowed (C143), the header has not; then the new
program gets `u` or `v`, converted, also if it was stopped in `Load`.  With the tables that the library derives; `fuel` bounds the recursion of the model. -/
theorem c144_settings_partial (O : Orders) (env : Env) (P : Mp.Prog) (V₂ : List CTy) (t₁ t₂ : CTy) (S₁ S₂ : Schema) (o₁ o₂ : Val)
    (h₁ : Tables O env.cap (variantOf noExtra t₁) t₁ S₁) (h₂ : Tables O env.cap V₂ t₂ S₂) (hF : P.F = V₂.filter (fun u => !isRefl u))
    (hb : Becomes P t₁ t₂) (hU : Usable O t₂) (hp : Proper P.fm t₂) (hf : Blank t₂ o₂) (ho : Value O env t₂ o₂)
    (henv : Env) (hdr : Header) (hh : HeaderOk henv hdr) (c : HashStream.Cfg) (hc : c.Good) (fm₁ : CTy → Name → Name) (tm₁ : Name → Name) (del₁ : Bool)
    (d : Files) (u v : Val) (hu : Value O env t₁ u) (hv : Value O env t₁ v) :
    ∃ N, ∀ fuel, N ≤ fuel →
      let old := settings c henv hdr (cfgOf env S₁ fm₁ (variantOf noExtra t₁) tm₁ del₁) fuel (toTy O (structV (variantOf noExtra t₁)) t₁) o₁
      let new := settings c henv hdr (cfgOf env S₂ P.fm V₂ id P.del) fuel (toTy O (structV V₂) t₂) o₂
      let now := fun x => convert (renOf P.fm V₂) (toTy O (structV (variantOf noExtra t₁)) t₁) x (toTy O (structV V₂) t₂) o₂
      ∀ k f f', Crashed inOrder (save old v) k (exec (save old u) d) f.1 f.2 → Interrupted new inOrder f f' → ∀ x,
        answer new x f'.1 f'.2 = (now u, .ok true) ∨ answer new x f'.1 f'.2 = (now v, .ok true) := by
  have hwf := wellFormed_of O P.fm V₂ h₂.nodup t₂ h₂.ok h₂.has hp
  have hd := c105_described_user O V₂ t₂ S₂ h₂.ok h₂.nodup h₂.has h₂.schema (structs_short h₂.small)
  have hfit := fits_of O _ S₂ env.cap h₂.schema h₂.oks h₂.small
  have hfr := (blank_iff O (structV V₂) t₂ h₂.ok o₂).2 hf
  obtain ⟨bu, wu, ru, tu⟩ := c143_reads_partial O env P (variantOf noExtra t₁) V₂ t₁ t₂ S₁ S₂ u o₂ h₁ (c143_structures t₁ h₁.ok) h₂ hF hb hu hf
  obtain ⟨bv, wv, rv, tv⟩ := c143_reads_partial O env P (variantOf noExtra t₁) V₂ t₁ t₂ S₁ S₂ v o₂ h₁ (c143_structures t₁ h₁.ok) h₂ hF hb hv hf
  have hval : ∀ x, Value O env t₁ x → HasTy env (toTy O (structV V₂) t₂)
      (convert (renOf P.fm V₂) (toTy O (structV (variantOf noExtra t₁)) t₁) x (toTy O (structV V₂) t₂) o₂) := by
    intro x hx
    obtain ⟨b1, y, e1, e2, e3⟩ := c143_value_partial O env P (variantOf noExtra t₁) V₂ t₁ t₂ S₁ S₂ x o₂ h₁ (c143_structures t₁ h₁.ok) h₂ hF hb hU hx hf ho
    obtain ⟨b2, e4, e5, _⟩ := c143_reads_partial O env P (variantOf noExtra t₁) V₂ t₁ t₂ S₁ S₂ x o₂ h₁ (c143_structures t₁ h₁.ok) h₂ hF hb hx hf
    rw [e1] at e4
    cases e4
    have := e5 (b1.length + 1) (by omega) []
    rw [e3 (b1.length + 1) (by omega) [], Res.ok.injEq, Prod.mk.injEq] at this
    rw [← this.1]
    exact (value_iff O _ env t₂ h₂.ok y).2 e2
  refine ⟨bu.length + bv.length + 1 +
    (written (writeV env nameTy S₂ (toTy O (structV V₂) t₂) (convert (renOf P.fm V₂) (toTy O (structV (variantOf noExtra t₁)) t₁) u (toTy O (structV V₂) t₂) o₂))).length +
    (written (writeV env nameTy S₂ (toTy O (structV V₂) t₂) (convert (renOf P.fm V₂) (toTy O (structV (variantOf noExtra t₁)) t₁) v (toTy O (structV V₂) t₂) o₂))).length, ?_⟩
  intro fuel hN old new now k f f' hcr hi x
  have hgood : (vts (cfgOf env S₂ P.fm V₂ id P.del) fuel (toTy O (structV V₂) t₂) o₂).Good (VtsOk (cfgOf env S₂ P.fm V₂ id P.del) fuel (toTy O (structV V₂) t₂)) :=
    vts_good _ fuel _ o₂ hfr hfit (fun _ _ => rfl) hwf hd
  have hQu : VtsOk (cfgOf env S₂ P.fm V₂ id P.del) fuel (toTy O (structV V₂) t₂) (now u) := ⟨hval u hu, by
    show (written (writeV env nameTy S₂ (toTy O (structV V₂) t₂)
      (convert (renOf P.fm V₂) (toTy O (structV (variantOf noExtra t₁)) t₁) u (toTy O (structV V₂) t₂) o₂))).length < fuel
    omega⟩
  have hQv : VtsOk (cfgOf env S₂ P.fm V₂ id P.del) fuel (toTy O (structV V₂) t₂) (now v) := ⟨hval v hv, by
    show (written (writeV env nameTy S₂ (toTy O (structV V₂) t₂)
      (convert (renOf P.fm V₂) (toTy O (structV (variantOf noExtra t₁)) t₁) v (toTy O (structV V₂) t₂) o₂))).length < fuel
    omega⟩
  have hsr : SReads (vts (cfgOf env S₁ fm₁ (variantOf noExtra t₁) tm₁ del₁) fuel (toTy O (structV (variantOf noExtra t₁)) t₁) o₁)
      (vts (cfgOf env S₂ P.fm V₂ id P.del) fuel (toTy O (structV V₂) t₂) o₂) now (fun y => y = u ∨ y = v) := by
    have su : (vts (cfgOf env S₁ fm₁ (variantOf noExtra t₁) tm₁ del₁) fuel (toTy O (structV (variantOf noExtra t₁)) t₁) o₁).ser u = bu := by
      show written (writeV env nameTy S₁ _ _) = _
      rw [wu]; rfl
    have sv : (vts (cfgOf env S₁ fm₁ (variantOf noExtra t₁) tm₁ del₁) fuel (toTy O (structV (variantOf noExtra t₁)) t₁) o₁).ser v = bv := by
      show written (writeV env nameTy S₁ _ _) = _
      rw [wv]; rfl
    have nonempty : ∀ y b, writeV env nameTy S₁ (toTy O (structV (variantOf noExtra t₁)) t₁) y = .ok b → b ≠ [] := by
      intro y b hb h
      rw [h, writeV, Res.bind_eq_ok] at hb
      obtain ⟨p, hp, hb⟩ := hb
      rw [writeNewPrototypes, Res.bind_eq_ok] at hp
      obtain ⟨q, _, hp⟩ := hp
      rw [Res.bind_eq_ok] at hb
      obtain ⟨r, _, hb⟩ := hb
      cases hp
      have := congrArg List.length (Res.ok.inj hb)
      simp at this
    refine ⟨?_, ?_, ?_⟩
    · rintro y (rfl | rfl)
      · rw [su]; exact nonempty _ _ wu
      · rw [sv]; exact nonempty _ _ wv
    · rintro y (rfl | rfl) rest
      · rw [su]; exact ru fuel (by omega) rest
      · rw [sv]; exact rv fuel (by omega) rest
    · rintro y (rfl | rfl) p hp hne
      · rw [su] at hp hne; exact tu fuel (by omega) p hp hne
      · rw [sv] at hp hne; exact tv fuel (by omega) p hp hne
  exact c144_old_or_new old new now (fun y => y = u ∨ y = v) _ (hashed_reads hc (headered_reads hh hsr) ⟨u, .inl rfl⟩)
    (hashed_good hc (headered_good hh hgood) ⟨now u, hQu⟩) (by rintro y (rfl | rfl) <;> assumption) inOrder (inOrder_detects _) d u v (.inl rfl) (.inr rfl) k f f' hcr hi x

theorem leaf_part {u : CTy} {k : Kind} (h : Mp.Part u (.node k [])) : u = .node k [] := by
  cases h with
  | self => rfl
  | arg h _ _ => simp at h

theorem sS_pair {u : CTy} (h : Mp.Part u sS₂) : isPair u = false := by
  have hA : ∀ u, Mp.Part u sA₂ → isPair u = false := by
    intro u h
    cases h with
    | self => rfl
    | arg h _ hp =>
      simp only [List.mem_cons, List.not_mem_nil, or_false] at h
      rcases h with rfl | rfl | rfl <;> rw [leaf_part hp] <;> rfl
  cases h with
  | self => rfl
  | arg h _ hp =>
    simp only [List.mem_cons, List.not_mem_nil, or_false] at h
    rcases h with rfl | rfl | rfl
    · rw [leaf_part hp]; rfl
    · cases hp with
      | self => rfl
      | arg h _ hp =>
        simp only [List.mem_cons, List.not_mem_nil, or_false] at h
        subst h
        exact hA _ hp
    · rw [leaf_part hp]; rfl

/-- The update of the sample of C143, `struct S { int x; vector<A> v; string s; }` to `struct S { string t; vector<A> v; double d; }`: the old program saved
`S { 7, {{5, true}}, "ab" }` and was stopped while it saved `S { 8, {}, "c" }`. -/
example (d : Files) : ∃ N, ∀ fuel, N ≤ fuel →
      let old := settings (HashStream.crcCfg 127 64) ⟨some 64, 1000⟩ ⟨[83, 101, 116], 3⟩ (cfgOf ⟨none, 1000⟩ (sSchema sS₁) (fun _ n => n) (variantOf noExtra sS₁) id false) fuel
        (toTy sampleOrders (structV (variantOf noExtra sS₁)) sS₁) (.list [.num 0, .list [], .list []])
      let new := settings (HashStream.crcCfg 127 64) ⟨some 64, 1000⟩ ⟨[83, 101, 116], 3⟩ (cfgOf ⟨none, 1000⟩ (sSchema sS₂) sProg.fm (variantOf noExtra sS₂) id true) fuel
        (toTy sampleOrders (structV (variantOf noExtra sS₂)) sS₂) (.list [.list [], .list [], .num 9])
      ∀ k f f', Crashed inOrder (save old (.list [.num 8, .list [], .list [.num 99]])) k
          (exec (save old (.list [.num 7, .list [.list [.num 5, .bool true]], .list [.num 97, .num 98]])) d) f.1 f.2 → Interrupted new inOrder f f' → ∀ x,
        answer new x f'.1 f'.2 = (.list [.list [.num 97, .num 98], .list [.list [.bool true, .num 0, .num 5]], .num 9], .ok true) ∨
        answer new x f'.1 f'.2 = (.list [.list [.num 99], .list [], .num 9], .ok true) :=
  c144_settings_partial sampleOrders ⟨none, 1000⟩ sProg (variantOf noExtra sS₂) sS₁ sS₂ (sSchema sS₁) (sSchema sS₂) _ _ sTables₁ sTables₂ rfl sS_becomes
    (by simp [sS₂, sA₂, cInt, cBool, cString, cDouble, Usable, UsableAll, usableNode, isEnm])
    (by
      intro k args hp
      have hm := (c105_members sS₂ _ sTables₂.ok).2 (.inl ⟨hp, sS_pair hp⟩)
      · have hV : variantOf noExtra sS₂ = [sS₂, cString, .node .vec [sA₂], sA₂, cBool, cInt, cDouble] := rfl
        rw [hV] at hm
        simp only [List.mem_cons, List.not_mem_nil, or_false] at hm
        rcases hm with h | h | h | h | h | h | h <;> cases h <;> refine ⟨by simp, ?_⟩ <;> rintro id ns ⟨⟩ <;> exact ⟨by decide, by decide⟩)
    (by simp [sS₂, sA₂, cInt, cBool, cString, cDouble, Blank, Blanks])
    (by simp [sS₂, sA₂, cInt, cBool, cString, cDouble, Value, Values, isEnm])
    _ _ (by simp [HeaderOk, headerTy, Header.val, Vts.strVal, Serialize.HasTy, Serialize.HasTys]) _ (by unfold HashStream.Cfg.Good; decide) _ _ _ d _ _
    (by simp [sS₁, sA₁, cInt, cBool, cString, Value, Values, isEnm])
    (by simp [sS₁, sA₁, cInt, cBool, cString, Value, Values, isEnm])

end Settings

/-! ## An earlier version of the program -/

/-- A two byte number with a header of the given version in a CRC-64 hashed file. -/
def versionFmt (version : Nat) : Format Serialize.Val :=
  hashed (HashStream.crcCfg 127 64) (headered ⟨some 64, 1000⟩ ⟨[83], version⟩ (plain ⟨none, 100⟩ (.num 2 0)))

set_option maxRecDepth 8000 in
/-- C144 is violated for a program that cannot read the files: the program of version 2 was stopped in `Save` when the master file was half written; it would get its
settings from the backup file.  But if a program of version 1 is started in between, its `Load` answers that there are no settings, which is true for it, and clears
the backup file; then the settings of version 2 are lost, both those saved before and those being saved. -/
theorem c144_downgrade_violated (d : Files) : ∃ (k : Nat) (m b : Bytes), 
    Crashed inOrder (save (versionFmt 2) (.num 7)) k (exec (save (versionFmt 2) (.num 5)) d) m b ∧
    answer (versionFmt 2) (.num 0) m b = (.num 7, .ok true) ∧
    answer (versionFmt 1) (.num 0) m b = (.num 0, .ok false) ∧
    let d' := exec (load (versionFmt 1) (.num 0) (.opened m b)).1 (.opened m b)
    answer (versionFmt 2) (.num 0) d'.master.cur d'.backup.cur = (.num 0, .ok false) := by
  refine ⟨((versionFmt 2).enc (.num 7)).length + 3 + 19, over ((versionFmt 2).enc (.num 7)) ((versionFmt 2).enc (.num 5)) 18, (versionFmt 2).enc (.num 7), ?_, ?_, ?_, ?_⟩
  · rw [exec_save]
    constructor
    · show _ ∈ _
      decide +kernel
    · show _ ∈ _
      decide +kernel
  · rfl
  · rfl
  · rfl

end Verif.Upgrade
