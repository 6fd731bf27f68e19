import Verif.StorageFmt.Spec
import Verif.HashStream.Props
import Verif.Serialize.Props
import Verif.Vts.Props
import Verif.Storage.Lemmas

/-! # The formats of the library satisfy what a storage expects -/

namespace Verif.StorageFmt

open Verif.Storage (Format Holds Rejected)

variable {V : Type}

theorem plain_good (env : Serialize.Env) (t : Serialize.Ty)
    (hne : ∀ v, Serialize.HasTy env t v → Serialize.write env t v ≠ .ok []) :
    (plain env t).Good (Serialize.HasTy env t) := by
  have key : ∀ v, Serialize.HasTy env t v → Serialize.write env t v = .ok ((plain env t).ser v) := by
    intro v hv
    obtain ⟨bs, h1, _⟩ := Serialize.c31_new_object env t v hv
    simp [plain, h1, written]
  refine ⟨fun v hv h => hne v hv (by rw [key v hv, h]), fun v hv rest => ?_, fun v hv p hp hn => ?_⟩
  · obtain ⟨bs, h1, h2⟩ := Serialize.c31_new_object env t v hv
    have : (plain env t).ser v = bs := by simp [plain, h1, written]
    rw [this]; exact h2 rest
  · exact Serialize.c32_truncated env t v _ hv (Serialize.fresh_dflt t) _ p (key v hv) hp hn

/-- The values whose bytes do not exceed the fuel of the reader (the depth of its recursion). -/
def VtsOk (g : Vts.Cfg) (fuel : Nat) (t : Serialize.Ty) (v : Serialize.Val) : Prop :=
  Serialize.HasTy g.env t v ∧ (written (Vts.writeV g.env g.nm g.S t v)).length < fuel

theorem vts_good (g : Vts.Cfg) (fuel : Nat) (t : Serialize.Ty) (o : Serialize.Val) (ho : Serialize.Fresh t o) (hF : Vts.Fits g.env.cap g.nm g.S)
    (htm : ∀ t ∈ g.S.fields, g.tm (g.nm t) = g.nm t) (hw : Vts.WellFormed g.ren t) (hd : Vts.Described g.S t) :
    (vts g fuel t o).Good (VtsOk g fuel t) := by
  have key : ∀ v, VtsOk g fuel t v → Vts.writeV g.env g.nm g.S t v = .ok ((vts g fuel t o).ser v) := by
    intro v hv
    obtain ⟨bs, h1, _⟩ := Vts.c35_round_trip g t v _ hF htm hw hd hv.1 ho
    simp [vts, h1, written]
  have hK : Vts.Known g.nm g g.S := by
    intro p _ f _ k _ t ht
    have hm := List.mem_of_getElem? ht
    rw [htm t hm]
    exact List.mem_map_of_mem hm
  have htr : ∀ v, VtsOk g fuel t v → ∀ p, p <+: (vts g fuel t o).ser v → p ≠ (vts g fuel t o).ser v →
      (vts g fuel t o).rd p = .throw .endOfFile := fun v hv p hp hn =>
    Vts.c36_truncated g.nm g id g.S t t v _ hF hK hv.1 hd hd (Vts.evolves_refl htm t hw hd) ho _ p
      (key v hv) hp hn fuel hv.2
  refine ⟨fun v hv h => ?_, fun v hv rest => ?_, htr⟩
  · -- the number of prototypes takes 8 bytes
    have hk := key v hv
    rw [h, Vts.writeV, Res.bind_eq_ok] at hk
    obtain ⟨a, ha, hb⟩ := hk
    rw [Vts.writeNewPrototypes, Res.bind_eq_ok] at ha
    obtain ⟨tm, _, ha⟩ := ha
    rw [Res.bind_eq_ok] at hb
    obtain ⟨b, _, hb⟩ := hb
    cases ha
    have := congrArg List.length (Res.ok.inj hb)
    simp at this
  · obtain ⟨bs, h1, h2⟩ := Vts.c35_round_trip g t v _ hF htm hw hd hv.1 ho
    have : (vts g fuel t o).ser v = bs := by simp [vts, h1, written]
    have hl := hv.2
    rw [h1] at hl
    rw [this]; exact h2 fuel hl rest

/-- A header that can be written with the limit. -/
def HeaderOk (env : Serialize.Env) (h : Header) : Prop := Serialize.HasTy env headerTy h.val

theorem readHeader_exact {env : Serialize.Env} {h : Header} (hh : HeaderOk env h) :
    (∀ rest, readHeader env h (written (Serialize.write env headerTy h.val) ++ rest) = .ok rest) ∧
    (∀ p, p <+: written (Serialize.write env headerTy h.val) → p ≠ written (Serialize.write env headerTy h.val) →
      readHeader env h p = .throw .endOfFile) := by
  obtain ⟨bs, h1, h2⟩ := Serialize.c31_new_object env headerTy h.val hh
  rw [h1]
  constructor
  · intro rest
    unfold readHeader
    rw [written, h2 rest]
    simp [Header.val, Vts.strVal, Vts.decStr_str]
  · intro p hp hn
    unfold readHeader
    rw [Serialize.c32_truncated env headerTy h.val _ hh (Serialize.fresh_dflt _) bs p h1 hp hn]

theorem prefix_append_cases {p a b : Bytes} (h : p <+: a ++ b) : (p <+: a ∧ p ≠ a) ∨ ∃ q, p = a ++ q ∧ q <+: b := by
  by_cases hl : p.length < a.length
  · left
    refine ⟨?_, fun h => by rw [h] at hl; omega⟩
    exact List.prefix_of_prefix_length_le h (List.prefix_append a b) (by omega)
  · right
    have : a <+: p := List.prefix_of_prefix_length_le (List.prefix_append a b) h (by omega)
    obtain ⟨q, rfl⟩ := this
    exact ⟨q, rfl, (List.prefix_append_right_inj a).1 h⟩

theorem headered_good {env : Serialize.Env} {h : Header} (hh : HeaderOk env h) {f : SFormat V} {P : V → Prop}
    (hf : f.Good P) : (headered env h f).Good P := by
  obtain ⟨h1, h2⟩ := readHeader_exact hh
  refine ⟨fun v hv h => ?_, fun v hv rest => ?_, fun v hv p hp hn => ?_⟩
  · exact hf.nonempty v hv (List.append_eq_nil_iff.1 h).2
  · show readHeader env h (_ ++ f.ser v ++ rest) >>= f.rd = _
    rw [List.append_assoc, h1, Res.ok_bind, hf.roundTrip v hv]
  · show readHeader env h p >>= f.rd = _
    rcases prefix_append_cases hp with ⟨ha, hb⟩ | ⟨q, rfl, hq⟩
    · rw [h2 p ha hb]; rfl
    · rw [h1, Res.ok_bind]
      exact hf.truncated v hv q hq (fun e => hn (by rw [e]; rfl))

theorem direct_good {f : SFormat V} {P : V → Prop} (hf : f.Good P) (hP : ∃ v, P v) : (direct f).Good P := by
  have htr : ∀ v, P v → ∀ k, k < (f.ser v).length → Rejected (direct f) ((f.ser v).take k) := fun v hv k hk =>
    ⟨.endOfFile, rfl, by
      simp only [direct]
      rw [hf.truncated v hv _ (List.take_prefix _ _) (fun h => by
        have := congrArg List.length h
        rw [List.length_take] at this; omega)]⟩
  obtain ⟨v0, h0⟩ := hP
  refine ⟨by simpa using htr v0 h0 0 (List.length_pos_iff.2 (hf.nonempty v0 h0)), fun v hv => ?_, htr⟩
  have := hf.roundTrip v hv []
  rw [List.append_nil] at this
  simp [Holds, direct, this]

theorem hashed_enc {c : HashStream.Cfg} (hc : c.Good) (f : SFormat V) (v : V) :
    HashStream.Encodes (c.blockSize - c.size) c.hash (f.ser v) ((hashed c f).enc v) := by
  obtain ⟨e, h1, h2, _⟩ := HashStream.c38_transparent c hc [f.ser v]
  simp only [hashed, h2]
  simpa using h1

theorem encodes_length {c : HashStream.Cfg} (hc : c.Good) {d e : Bytes}
    (h : HashStream.Encodes (c.blockSize - c.size) c.hash d e) :
    e.length ≤ (d.length + (c.blockSize - c.size) - 1) / (c.blockSize - c.size) * c.blockSize := by
  unfold HashStream.Cfg.Good at hc
  have hn : 0 < c.blockSize - c.size := by omega
  induction h with
  | nil => simp
  | last hp hl =>
    rename_i p
    have := List.length_pos_iff.2 hp
    have h1 : 1 ≤ (p.length + (c.blockSize - c.size) - 1) / (c.blockSize - c.size) :=
      (Nat.le_div_iff_mul_le hn).2 (by omega)
    have := Nat.mul_le_mul_right c.blockSize h1
    rw [List.length_append, c.hash_length]; omega
  | more hp _ ih =>
    rename_i p d e _
    rw [List.length_append, List.length_append, c.hash_length, List.length_append, hp,
      show c.blockSize - c.size + d.length + (c.blockSize - c.size) - 1 =
        (d.length + (c.blockSize - c.size) - 1) + (c.blockSize - c.size) by omega, Nat.add_div_right _ hn, Nat.succ_mul]
    omega

theorem hashed_good {c : HashStream.Cfg} (hc : c.Good) {f : SFormat V} {P : V → Prop} (hf : f.Good P)
    (hP : ∃ v, P v) : (hashed c f).Good P := by
  have hlen : ∀ v, P v → (hashed c f).enc v ≠ [] := by
    intro v hv h
    have he := hashed_enc hc f v
    rw [h] at he
    generalize hx : ([] : Bytes) = x at he
    generalize hd : f.ser v = d at he
    cases he with
    | nil => exact hf.nonempty v hv hd
    | last h1 _ => simp [h1] at hx
    | more h1 _ =>
      have := congrArg List.length hx
      simp only [List.length_append, List.length_nil] at this
      unfold HashStream.Cfg.Good at hc
      omega
  have htr : ∀ v, P v → ∀ k, k < ((hashed c f).enc v).length → Rejected (hashed c f) (((hashed c f).enc v).take k) := by
    intro v hv k hk
    have he := hashed_enc hc f v
    have hd := HashStream.decode_truncated hc he k ((hashed c f).enc v).length (by omega) (Nat.le_refl _)
    have hfuel := HashStream.decode_fuel hc (((hashed c f).enc v).take k).length ((hashed c f).enc v).length
      (((hashed c f).enc v).take k) (Nat.le_refl _) (List.length_take_le' _ _)
    rw [hfuel] at hd
    have hlt := hd.2.1 hk
    have ht := hf.truncated v hv _ hd.1 (fun e => by rw [e] at hlt; omega)
    refine ⟨if (HashStream.decode c (((hashed c f).enc v).take k).length (((hashed c f).enc v).take k)).2 then .corruption
      else .endOfFile, by split <;> rfl, ?_⟩
    generalize ((hashed c f).enc v).take k = x at ht
    simp only [hashed]
    rw [ht]
    simp
  obtain ⟨v0, h0⟩ := hP
  refine ⟨by simpa using htr v0 h0 0 (List.length_pos_iff.2 (hlen v0 h0)), fun v hv => ?_, htr⟩
  have he := hashed_enc hc f v
  have hd := (HashStream.decode_truncated hc he ((hashed c f).enc v).length _ (Nat.le_refl _) (Nat.le_refl _)).2.2 rfl
  rw [List.take_length] at hd
  have hr := hf.roundTrip v hv []
  rw [List.append_nil] at hr
  have hl := encodes_length hc he
  unfold Holds
  generalize (hashed c f).enc v = x at hd hl
  simp only [hashed]
  rw [hd]
  simp only [hr, List.length_nil, Nat.sub_zero]
  rw [Nat.min_eq_left hl]

end Verif.StorageFmt
