import Verif.StorageFmt.Lemmas
import Verif.Storage.Props
import Verif.HashCrc.Props

/-! # Crash-safe storage with the formats of the library (C43-C45, C87-C89) -/

namespace Verif.StorageFmt

open Verif.Storage

variable {V : Type}

/-! ## C43 -/

/-- C43 for `PlainSerializable` in the file itself and for `HashingSerializable` of it, with any hash and block size:
old or new value. -/
theorem c43_plain (env : Serialize.Env) (t : Serialize.Ty)
    (hne : ∀ v, Serialize.HasTy env t v → Serialize.write env t v ≠ .ok [])
    (fmt : Format Serialize.Val)
    (hfmt : fmt = direct (plain env t) ∨ ∃ c : HashStream.Cfg, c.Good ∧ fmt = hashed c (plain env t))
    (d : Files) (u v : Serialize.Val) (hu : Serialize.HasTy env t u) (hv : Serialize.HasTy env t v)
    (k : Nat) (cm cb : Bytes) (h : Crashed inOrder (save fmt v) k (exec (save fmt u) d) cm cb) (old : Serialize.Val) :
    answer fmt old cm cb = (u, .ok true) ∨ answer fmt old cm cb = (v, .ok true) := by
  have hg : fmt.Good (Serialize.HasTy env t) := by
    rcases hfmt with rfl | ⟨c, hc, rfl⟩
    · exact direct_good (plain_good env t hne) ⟨u, hu⟩
    · exact hashed_good hc (plain_good env t hne) ⟨u, hu⟩
  exact c43_old_or_new fmt _ hg inOrder (inOrder_detects fmt) d u v hu hv k cm cb h old

/-- C43 for `HeaderedSerializable`: version tolerant serialization with a header in a hashed stream; `o` is the value of a new object. -/
theorem c43_settings (g : Vts.Cfg) (fuel : Nat) (t : Serialize.Ty) (o : Serialize.Val) (ho : Serialize.Fresh t o) (hF : Vts.Fits g.env.cap g.nm g.S)
    (htm : ∀ t ∈ g.S.fields, g.tm (g.nm t) = g.nm t) (hw : Vts.WellFormed g.ren t) (hd : Vts.Described g.S t)
    (env : Serialize.Env) (hdr : Header) (hh : HeaderOk env hdr) (c : HashStream.Cfg) (hc : c.Good)
    (d : Files) (u v : Serialize.Val) (hu : VtsOk g fuel t u) (hv : VtsOk g fuel t v) (k : Nat) (cm cb : Bytes)
    (h : Crashed inOrder (save (hashed c (headered env hdr (vts g fuel t o))) v) k
      (exec (save (hashed c (headered env hdr (vts g fuel t o))) u) d) cm cb) (old : Serialize.Val) :
    answer (hashed c (headered env hdr (vts g fuel t o))) old cm cb = (u, .ok true) ∨
    answer (hashed c (headered env hdr (vts g fuel t o))) old cm cb = (v, .ok true) :=
  c43_old_or_new _ _ (hashed_good hc (headered_good hh (vts_good g fuel t o ho hF htm hw hd)) ⟨u, hu⟩) inOrder
    (inOrder_detects _) d u v hu hv k cm cb h old

/-- A two byte number in a CRC-64 hashed file with blocks of 12 bytes, used in the examples. -/
def numFmt : Format Serialize.Val := hashed (HashStream.crcCfg 127 12) (plain ⟨none, 100⟩ (.num 2 0))

theorem numFmt_good : numFmt.Good (Serialize.HasTy ⟨none, 100⟩ (.num 2 0)) :=
  hashed_good (by unfold HashStream.Cfg.Good; decide) (plain_good _ _ (fun v hv => by
    cases v <;> simp [Serialize.HasTy] at hv
    simp [Serialize.write, Serialize.writeTy, Serialize.leBytes])) ⟨.num 5, by simp [Serialize.HasTy]⟩

example : Serialize.HasTy ⟨none, 100⟩ (.num 2 0) (.num 5) ∧ Serialize.HasTy ⟨none, 100⟩ (.num 2 0) (.num 700) := by
  simp [Serialize.HasTy]

/-- The sample structure of `Verif.Vts` with a header. -/
def settingsCfg : Vts.Cfg := ⟨⟨none, 1000⟩, Vts.s1, Vts.sampleNm, fun _ n => n, id, false⟩

example : VtsOk settingsCfg 1000 Vts.a1 Vts.v1 ∧ Vts.Fits settingsCfg.env.cap settingsCfg.nm settingsCfg.S ∧
    (∀ t ∈ settingsCfg.S.fields, settingsCfg.tm (settingsCfg.nm t) = settingsCfg.nm t) ∧
    Vts.WellFormed settingsCfg.ren Vts.a1 ∧ Vts.Described settingsCfg.S Vts.a1 ∧
    HeaderOk ⟨some 64, 1000⟩ ⟨[83, 101, 116], 3⟩ ∧ (HashStream.crcCfg 127 64).Good := by
  refine ⟨⟨Vts.sample_hasTy, by decide +kernel⟩, Vts.sample_fits, fun _ _ => rfl,
    by simp only [Vts.a1, Vts.b1, Vts.WellFormed, Vts.WellFormedAll]; simp [settingsCfg], Vts.sample_described1, ?_,
    by unfold HashStream.Cfg.Good; decide⟩
  simp [HeaderOk, headerTy, Header.val, Vts.strVal, Serialize.HasTy, Serialize.HasTys]

/-! ## C45 -/

/-- C45 does not hold with CRC-64 hashed files: all of 1, 2 and 3 are lost. -/
theorem c45_crc_violated (d : Files) : ∃ k2 k3, ∀ old,
    let d' := attempts numFmt [(.num 1, (save numFmt (.num 1)).length), (.num 2, k2), (.num 3, k3)] d
    answer numFmt old d'.master.cur d'.backup.cur = (old, .ok false) :=
  c45_all_lost_violated numFmt (.num 1) (.num 2) (.num 3) 1 1 (by decide +kernel) (by decide +kernel)
    ⟨.corruption, rfl, rfl⟩ ⟨.corruption, rfl, rfl⟩ d

/-! ## C87 -/

/-- C87: a stream written with the header is read back, and it is not read if the expected format or version is another
one. -/
theorem c87_header (env : Serialize.Env) (h h' : Header) (hh : HeaderOk env h) (f : SFormat V) (P : V → Prop)
    (hf : f.Good P) (v : V) (hv : P v) (rest : Bytes) :
    (headered env h' f).rd ((headered env h f).ser v ++ rest) =
      if h' = h then .ok (v, rest) else .throw .io := by
  by_cases e : h' = h
  · subst e
    rw [if_pos rfl]
    exact (headered_good hh hf).roundTrip v hv rest
  · rw [if_neg e]
    obtain ⟨bs, h1, h2⟩ := Serialize.c31_new_object env headerTy h.val hh
    show readHeader env h' (written (Serialize.write env headerTy h.val) ++ f.ser v ++ rest) >>= f.rd = _
    have : readHeader env h' (written (Serialize.write env headerTy h.val) ++ f.ser v ++ rest) = .throw .io := by
      unfold readHeader
      rw [h1, written, List.append_assoc, h2]
      simp only [Header.val, Vts.strVal, Vts.decStr_str]
      by_cases hn : some h.format ≠ some h'.format
      · rw [if_pos hn]
      · rw [if_neg hn]
        by_cases h3 : h'.version < h.version
        · rw [if_pos h3]
        · rw [if_neg h3, if_pos]
          have : h.format = h'.format := by simpa using hn
          have : h'.version ≠ h.version := fun hv => e (by cases h; cases h'; simp_all)
          omega
    rw [this]; rfl

example : HeaderOk ⟨some 64, 1000⟩ ⟨[83, 101, 116], 3⟩ := by
  simp [HeaderOk, headerTy, Header.val, Vts.strVal, Serialize.HasTy, Serialize.HasTys]

/-- C87: a format name above the limit cannot be written. -/
theorem c87_long_name (env : Serialize.Env) (L : Nat) (hL : env.limit = some L) (h : Header)
    (hlen : L < h.format.length) (h64 : h.format.length < 2 ^ 64) :
    Serialize.write env headerTy h.val = .throw .io := by
  have : env.limit.any (· < h.format.length * 1 % 2 ^ 64) = true := by
    rw [hL]; simp; omega
  simp only [Serialize.write, headerTy, Header.val, Vts.strVal, Serialize.writeTy, Serialize.writeTys,
    Serialize.writeFields, List.length_map, this, if_true, Res.throw_bind]

/-! ## C88 -/

/-- C88: the bytes in the file do not depend on how the value is cut into pieces when it is written to the hashed stream;
in particular a snapshot (the concatenation of the pieces, Awl/Io/EuphoricallySerializable.h:56-73) written in one
piece behind the header gives the same file as writing the value itself. -/
theorem c88_snapshot (c : HashStream.Cfg) (hc : c.Good) (header pieces : List Bytes) (e : Bytes)
    (h : HashStream.writeAll c (.init ⟨[], none⟩) (header ++ pieces) = (⟨e, none⟩, .returned)) :
    HashStream.writeAll c (.init ⟨[], none⟩) (header ++ [pieces.foldl HashStream.vectorWrite []]) = (⟨e, none⟩, .returned) := by
  obtain ⟨e1, h1, h2, _⟩ := HashStream.c38_transparent c hc (header ++ pieces)
  obtain ⟨e2, h3, h4, _⟩ := HashStream.c38_transparent c hc (header ++ [pieces.foldl HashStream.vectorWrite []])
  have hfl : ∀ (l : List Bytes) (a : Bytes), l.foldl HashStream.vectorWrite a = a ++ l.flatten := by
    intro l
    induction l with
    | nil => simp
    | cons x l ih => intro a; simp [ih, HashStream.vectorWrite]
  rw [hfl] at h3
  have : (header ++ [[] ++ pieces.flatten]).flatten = (header ++ pieces).flatten := by simp
  rw [this] at h3
  have hu := HashStream.Encodes.unique (by unfold HashStream.Cfg.Good at hc; omega) h1 h3
  rw [h2] at h
  rw [h4, ← hu]
  exact h

example : HashStream.writeAll (HashStream.sumHash 4) (.init ⟨[], none⟩) ([[1, 2]] ++ [[3], [4, 5], []]) =
    (⟨[1, 2, 3, 7, 4, 5, 10], none⟩, .returned) := by decide

/-! ## C89 -/

/-- C89 (part): a value in the file itself is accepted only if nothing follows it. -/
theorem c89_no_trailing_partial (f : SFormat V) (hsuf : ∀ c v rest, f.rd c = .ok (v, rest) → rest <:+ c) (old v : V)
    (c : Bytes) (h : loadFromFile (direct f) old c = (v, .ok true)) : f.rd c = .ok (v, []) := by
  unfold loadFromFile direct at h
  dsimp only at h
  rcases hr : f.rd c with ⟨w, rest⟩ | e | _
  · rw [hr] at h
    simp only [Prod.mk.injEq, Res.ok.injEq, beq_iff_eq] at h
    obtain ⟨rfl, h2⟩ := h
    have hl := (hsuf c w rest hr).length_le
    have : rest = [] := by
      apply List.eq_nil_of_length_eq_zero
      by_cases hc : c.length = 0
      · omega
      · omega
    rw [this]
  · rw [hr] at h
    by_cases he : isIo e <;> simp [he] at h
  · rw [hr] at h; simp at h

example (c : Bytes) (v : Serialize.Val) (rest : Bytes) (h : (plain ⟨none, 100⟩ (.num 2 0)).rd c = .ok (v, rest)) :
    rest <:+ c := by
  rcases Serialize.c79_arbitrary_bytes_partial ⟨none, 100⟩ (.num 2 0) (Serialize.dflt (.num 2 0)) c
    (by simp [Serialize.Checked]) (by simp [Serialize.Legal, Serialize.dflt]) with ⟨e, he⟩ | ⟨v', s', he, _, hs⟩
  · dsimp only [plain] at h; rw [he] at h; cases h
  · dsimp only [plain] at h; rw [he] at h; cases h; exact hs

/-- C89 does not hold for hashed files: two more bytes behind the two byte number 5, in the same block, are not
noticed. -/
theorem c89_trailing_violated :
    let file := (HashStream.writeAll (HashStream.crcCfg 127 12) (.init ⟨[], none⟩) [[5, 0, 9, 9]]).1.data
    loadFromFile numFmt (.num 0) file = (.num 5, .ok true) := by
  rfl

end Verif.StorageFmt
