import Verif.Vts.Main

/-!
# Version tolerant serialization: the tables
-/

namespace Verif.Vts

open Verif.Serialize

/-- A field of a prototype as a value. -/
def fieldVal (f : Name × Option Nat) : Val := .list [strVal f.1, .num (encType f.2)]

/-- A prototype as a value. -/
def protoVal (p : Proto) : Val := .list [.list (p.map fieldVal)]

/-- The `Metadata` value of the tables. -/
def metaVal (nm : Ty → Name) (S : Schema) : Val :=
  .list [.list (S.fields.map fun t => strVal (nm t)), .list (S.protos.map protoVal)]

theorem numBytes_str : ∀ s : Name, numBytes 1 (s.map fun b => .num b.toNat) = .ok s
  | [] => rfl
  | b :: s => by
    simp only [List.map_cons, numBytes, numBytes_str s, Res.ok_bind, leBytes]
    simp

theorem write_str (cap : Nat) (s : Name) :
    writeTy ⟨none, cap⟩ (fun _ => []) (.str 1) (strVal s) = .ok (leBytes 8 s.length ++ s) := by
  simp [strVal, writeTy, numBytes_str]

theorem write_field (cap : Nat) (f : Name × Option Nat) :
    writeTy ⟨none, cap⟩ (fun _ => []) (.struct none [.str 1, .num 8]) (fieldVal f) = .ok (writeProtoField f) := by
  simp only [fieldVal, writeTy, writeTys, writeFields, write_str, Res.ok_bind, List.nil_append, List.append_nil,
    writeProtoField]

theorem writeEach_flatMap {α : Type} (wr : Val → Res (List UInt8)) (f : α → Val) (h : α → List UInt8) :
    ∀ l : List α, (∀ a ∈ l, wr (f a) = .ok (h a)) → writeEach wr (l.map f) = .ok (l.flatMap h)
  | [], _ => rfl
  | a :: l, hl => by
    simp only [List.map_cons, writeEach, hl a (by simp), writeEach_flatMap wr f h l (fun x hx => hl x (by simp [hx])),
      Res.ok_bind, List.flatMap_cons]

theorem write_proto (cap : Nat) (p : Proto) :
    writeTy ⟨none, cap⟩ (fun _ => []) (.struct none [.vec (.struct none [.str 1, .num 8])]) (protoVal p) =
      .ok (writeProto p) := by
  have := writeEach_flatMap (writeTy ⟨none, cap⟩ (fun _ => []) (.struct none [.str 1, .num 8])) fieldVal
    writeProtoField p (fun a _ => write_field cap a)
  simp only [protoVal, writeTy, writeTys, writeFields, elemKind, writeVector, this, Res.ok_bind, List.nil_append,
    List.append_nil, writeProto, List.length_map]

theorem write_meta (cap : Nat) (nm : Ty → Name) (S : Schema) :
    ∃ bs, writeNewPrototypes cap nm S = .ok bs ∧ write ⟨none, cap⟩ metaTy (metaVal nm S) = .ok bs := by
  have h1 := writeEach_flatMap (writeTy ⟨none, cap⟩ (fun _ => []) (.struct none [.vec (.struct none [.str 1, .num 8])]))
    protoVal writeProto S.protos (fun a _ => write_proto cap a)
  have h2 := writeEach_flatMap (writeTy ⟨none, cap⟩ (fun _ => []) (.str 1)) (fun t => strVal (nm t))
    (fun t => leBytes 8 (nm t).length ++ nm t) S.fields (fun a _ => write_str cap (nm a))
  simp only [writeNewPrototypes, metaVal, metaTy, write]
  rw [show ∀ vs, writeTy ⟨none, cap⟩ (fun _ => []) (.vec (.str 1)) (.list vs) =
    (do let bs ← writeEach (writeTy ⟨none, cap⟩ (fun _ => []) (.str 1)) vs
        .ok (leBytes 8 vs.length ++ bs)) from fun _ => by simp only [writeTy, elemKind, writeVector]]
  rw [h2]
  refine ⟨_, rfl, ?_⟩
  rw [show ∀ a b, writeTy ⟨none, cap⟩ (fun _ => []) (.struct none [.vec (.str 1),
      .vec (.struct none [.vec (.struct none [.str 1, .num 8])])]) (.list [.list a, .list b]) =
    (do let x ← writeEach (writeTy ⟨none, cap⟩ (fun _ => []) (.str 1)) a
        let y ← writeEach (writeTy ⟨none, cap⟩ (fun _ => []) (.struct none [.vec (.struct none [.str 1, .num 8])])) b
        .ok ((leBytes 8 a.length ++ x) ++ (leBytes 8 b.length ++ y))) from fun a b => by
      simp only [writeTy, writeTys, writeFields, elemKind, writeVector]
      generalize writeEach _ a = r
      cases r with
      | ok x =>
        simp only [Res.ok_bind]
        generalize writeEach _ b = q
        cases q <;> simp
      | throw e => simp
      | ub => simp]
  rw [h1, h2]
  simp [List.append_assoc]

theorem hasTy_str (cap : Nat) (s : Name) (h1 : s.length ≤ cap) (h2 : s.length < 2 ^ 64) :
    HasTy ⟨none, cap⟩ (.str 1) (strVal s) := by
  simp only [strVal, HasTy, List.length_map, Nat.mul_one]
  refine ⟨h1, h2, h2, by simp, ?_⟩
  intro v hv
  obtain ⟨b, _, rfl⟩ := List.mem_map.mp hv
  exact ⟨b.toNat, rfl, b.toNat_lt⟩

theorem hasTy_meta (cap : Nat) (nm : Ty → Name) (S : Schema) (hF : Fits cap nm S) :
    HasTy ⟨none, cap⟩ metaTy (metaVal nm S) := by
  simp only [metaTy, metaVal, HasTy, HasTys, List.length_map, and_true]
  refine ⟨⟨hF.fields.1, by have := hF.fields.2; omega, by simp, ?_⟩, hF.protos.1, hF.protos.2, by simp, ?_⟩
  · intro v hv
    obtain ⟨t, ht, rfl⟩ := List.mem_map.mp hv
    have := hasTy_str cap (nm t) (hF.names t ht).1 (hF.names t ht).2
    simpa only [HasTy] using this
  · intro v hv
    obtain ⟨p, hp, rfl⟩ := List.mem_map.mp hv
    obtain ⟨h1, h2, h3⟩ := hF.proto p hp
    simp only [protoVal, HasTy, HasTys, List.length_map, and_true]
    refine ⟨h1, h2, by simp, ?_⟩
    intro v hv
    obtain ⟨f, hf, rfl⟩ := List.mem_map.mp hv
    obtain ⟨h4, h5, h6⟩ := h3 f hf
    have := hasTy_str cap f.1 h4 h5
    simp only [fieldVal, HasTys, HasTy, and_true]
    refine ⟨this, ?_⟩
    have hF' := hF.fields.2
    norm_num
    cases hk : f.2 with
    | none => simp [encType]
    | some k =>
      have := h6 k hk
      simp only [encType]
      omega

theorem decStr_str : ∀ s : Name, decStr (s.map fun b => .num b.toNat) = some s
  | [] => rfl
  | b :: s => by simp [decStr, decStr_str s]

theorem decNames_map (nm : Ty → Name) : ∀ l : List Ty, decNames (l.map fun t => strVal (nm t)) = some (l.map nm)
  | [] => rfl
  | t :: l => by
    have := decNames_map nm l
    simp only [List.map_cons, strVal, decNames, decStr_str] at this ⊢
    simp [this]

theorem decFields_map : ∀ p : Proto, decFields (p.map fieldVal) = some (p.map fun f => (f.1, encType f.2))
  | [] => rfl
  | f :: p => by
    have := decFields_map p
    simp only [List.map_cons, fieldVal, strVal, decFields, decStr_str] at this ⊢
    simp [this]

theorem decProtos_map : ∀ l : List Proto,
    decProtos (l.map protoVal) = some (l.map fun p => p.map fun f => (f.1, encType f.2))
  | [] => rfl
  | p :: l => by
    have := decProtos_map l
    simp only [List.map_cons, protoVal, decProtos, decFields_map] at this ⊢
    simp [this]

theorem decMeta_meta (nm : Ty → Name) (S : Schema) :
    decMeta (metaVal nm S) = some (S.fields.map nm, S.protos.map fun p => p.map fun f => (f.1, encType f.2)) := by
  simp only [metaVal, decMeta, decNames_map, decProtos_map]

section

variable (nm₁ : Ty → Name) (g : Cfg) (S₁ : Schema)

/-- The type of a field as numbered by the reading program. -/
def attachIdx (ty : Option Nat) : Option Nat :=
  match ty with
  | none => none
  | some k =>
    match S₁.fields[k]? with
    | none => none
    | some t => findName (g.S.fields.map g.nm) (g.tm (nm₁ t))

variable {nm₁ g S₁}

theorem attachFields_ok (hl : S₁.fields.length < 2 ^ 64 - 1) : ∀ (p : Proto),
    (∀ f ∈ p, ∀ k, f.2 = some k → ∃ t, S₁.fields[k]? = some t ∧ g.tm (nm₁ t) ∈ g.S.fields.map g.nm) →
    attachFields ((S₁.fields.map nm₁).map g.tm) (g.S.fields.map g.nm) (p.map fun f => (f.1, encType f.2)) =
      .ok (p.map fun f => (f.1, attachIdx nm₁ g S₁ f.2))
  | [], _ => rfl
  | (n, ty) :: p, h => by
    have ih := attachFields_ok hl p (fun f hf => h f (by simp [hf]))
    simp only [List.map_cons, attachFields, ih, Res.ok_bind]
    cases ty with
    | none =>
      rw [if_pos (show encType none = 2 ^ 64 - 1 from rfl)]
      simp [attachIdx]
    | some k =>
      obtain ⟨t, h1, h2⟩ := h (n, some k) (by simp) k rfl
      have hk : k < S₁.fields.length := (List.getElem?_eq_some_iff.mp h1).1
      rw [if_neg (show ¬ encType (some k) = 2 ^ 64 - 1 by simp only [encType]; omega)]
      obtain ⟨x, hx, _⟩ := findName_get h2
      simp only [encType, List.getElem?_map, h1, Option.map_some, hx, attachIdx]

theorem attachMetadata_ok (hl : S₁.fields.length < 2 ^ 64 - 1) : ∀ (ps : List Proto),
    (∀ p ∈ ps, ∀ f ∈ p, ∀ k, f.2 = some k → ∃ t, S₁.fields[k]? = some t ∧ g.tm (nm₁ t) ∈ g.S.fields.map g.nm) →
    attachMetadata ((S₁.fields.map nm₁).map g.tm) (g.S.fields.map g.nm) (ps.map fun p => p.map fun f => (f.1, encType f.2))
      = .ok (ps.map fun p => p.map fun f => (f.1, attachIdx nm₁ g S₁ f.2))
  | [], _ => rfl
  | p :: ps, h => by
    simp only [List.map_cons, attachMetadata, attachFields_ok hl p (h p (by simp)),
      attachMetadata_ok hl ps (fun q hq => h q (by simp [hq])), Res.ok_bind]

theorem attach_zip : ∀ (p : Proto) (ts : List Ty), DescribesFields S₁ p ts →
    (p.map fun f => (f.1, attachIdx nm₁ g S₁ f.2)) = List.zipWith (fun f t => (f.1, attachTy nm₁ g t)) p ts
  | [], ts, h => by simp
  | (n, ty) :: p, ts, h => by
    cases ts with
    | nil => simp [DescribesFields] at h
    | cons t ts =>
      simp only [DescribesFields] at h
      simp only [List.map_cons, List.zipWith_cons_cons, attach_zip p ts h.2, List.cons.injEq, and_true, Prod.mk.injEq,
        true_and]
      cases ty with
      | none => simp [attachIdx, attachTy, h.1]
      | some k => simp only [attachIdx, attachTy, h.1.2, h.1.1]; simp

/-- Reading the tables. -/
theorem readOldPrototypes_ok (hF : Fits g.env.cap nm₁ S₁) (hK : Known nm₁ g S₁) :
    ∃ (bs : List UInt8) (old : List Proto), writeNewPrototypes g.env.cap nm₁ S₁ = .ok bs ∧ OldOk nm₁ g S₁ old ∧
      old = (S₁.protos.map fun p => p.map fun f => (f.1, attachIdx nm₁ g S₁ f.2)) ∧
      (∀ rest, readOldPrototypes g (bs ++ rest) = .ok (old, rest)) ∧
      (∀ p, p <+: bs → p ≠ bs → readOldPrototypes g p = .throw .endOfFile) := by
  obtain ⟨bs, h1, h2⟩ := write_meta g.env.cap nm₁ S₁
  have hT := hasTy_meta g.env.cap nm₁ S₁ hF
  obtain ⟨bs', e, x⟩ := readTy_exact ⟨none, g.env.cap⟩ (fun _ => []) plainHook (plainHook_ok (fun _ : Unit => True))
    metaTy _ (dflt metaTy) hT (fresh_dflt metaTy)
  have : bs' = bs := by
    simp only [write] at h2
    rw [h2] at e
    cases e; rfl
  subst this
  have ha := attachMetadata_ok (nm₁ := nm₁) (g := g) (S₁ := S₁) hF.fields.2 S₁.protos (by
    intro p hp f hf k hk
    have h6 := (hF.proto p hp).2.2 f hf
    have hlt := h6.2.2 k hk
    refine ⟨S₁.fields[k], List.getElem?_eq_getElem hlt, hK p hp f hf k hk _ (List.getElem?_eq_getElem hlt)⟩)
  refine ⟨bs', _, h1, ?_, rfl, ?_, ?_⟩
  · intro i p ts hp hd
    simp only [List.getElem?_map, hp, Option.map_some, attach_zip p ts hd]
  · intro rest
    obtain ⟨c', _, e'⟩ := (x () trivial).1 rest
    simp only [readOldPrototypes, Serialize.read, e', Res.ok_bind, decMeta_meta, ha]
  · intro p hp hne
    have e' := (x () trivial).2 p hp hne
    simp only [readOldPrototypes, Serialize.read, e', Res.throw_bind]

end

end Verif.Vts
