import Verif.Upgrade.Spec
import Verif.StorageFmt.Props

/-! # Files of another version in the storage -/

namespace Verif.Upgrade

open Verif.Storage
open Verif.StorageFmt hiding Bytes

variable {V W : Type}

theorem headered_reads {env : Serialize.Env} {h : Header} (hh : HeaderOk env h) {w : SFormat V} {r : SFormat W} {c : V → W} {P : V → Prop}
    (hf : SReads w r c P) : SReads (headered env h w) (headered env h r) c P := by
  obtain ⟨h1, h2⟩ := readHeader_exact hh
  refine ⟨fun v hv h => ?_, fun v hv rest => ?_, fun v hv p hp hn => ?_⟩
  · exact hf.nonempty v hv (List.append_eq_nil_iff.1 h).2
  · show readHeader env h (_ ++ w.ser v ++ rest) >>= r.rd = _
    rw [List.append_assoc, h1, Res.ok_bind, hf.converted v hv]
  · show readHeader env h p >>= r.rd = _
    rcases prefix_append_cases hp with ⟨ha, hb⟩ | ⟨q, rfl, hq⟩
    · rw [h2 p ha hb]; rfl
    · rw [h1, Res.ok_bind]
      exact hf.truncated v hv q hq (fun e => hn (by rw [e]; rfl))

theorem hashed_reads {c : HashStream.Cfg} (hc : c.Good) {w : SFormat V} {r : SFormat W} {f : V → W} {P : V → Prop} (hf : SReads w r f P)
    (hP : ∃ v, P v) : Reads (hashed c w) (hashed c r) f P := by
  have hlen : ∀ v, P v → (hashed c w).enc v ≠ [] := by
    intro v hv h
    have he := hashed_enc hc w v
    rw [h] at he
    generalize hx : ([] : Bytes) = x at he
    generalize hd : w.ser v = d at he
    cases he with
    | nil => exact hf.nonempty v hv hd
    | last h1 _ => simp [h1] at hx
    | more h1 _ =>
      have := congrArg List.length hx
      simp only [List.length_append, List.length_nil] at this
      unfold HashStream.Cfg.Good at hc
      omega
  have htr : ∀ v, P v → ∀ k, k < ((hashed c w).enc v).length → Rejected (hashed c r) (((hashed c w).enc v).take k) := by
    intro v hv k hk
    have he := hashed_enc hc w v
    have hd := HashStream.decode_truncated hc he k ((hashed c w).enc v).length (by omega) (Nat.le_refl _)
    have hfuel := HashStream.decode_fuel hc (((hashed c w).enc v).take k).length ((hashed c w).enc v).length
      (((hashed c w).enc v).take k) (Nat.le_refl _) (List.length_take_le' _ _)
    rw [hfuel] at hd
    have hlt := hd.2.1 hk
    have ht := hf.truncated v hv _ hd.1 (fun e => by rw [e] at hlt; omega)
    refine ⟨if (HashStream.decode c (((hashed c w).enc v).take k).length (((hashed c w).enc v).take k)).2 then .corruption
      else .endOfFile, by split <;> rfl, ?_⟩
    generalize ((hashed c w).enc v).take k = x at ht
    simp only [hashed]
    rw [ht]
    simp
  obtain ⟨v0, h0⟩ := hP
  refine ⟨by simpa using htr v0 h0 0 (List.length_pos_iff.2 (hlen v0 h0)), fun v hv => ?_, htr⟩
  have he := hashed_enc hc w v
  have hd := (HashStream.decode_truncated hc he ((hashed c w).enc v).length _ (Nat.le_refl _) (Nat.le_refl _)).2.2 rfl
  rw [List.take_length] at hd
  have hr := hf.converted v hv []
  rw [List.append_nil] at hr
  have hl := encodes_length hc he
  unfold Holds
  generalize (hashed c w).enc v = x at hd hl
  simp only [hashed]
  rw [hd]
  simp only [hr, List.length_nil, Nat.sub_zero]
  rw [Nat.min_eq_left hl]

theorem reads_prefix {w : Format V} {r : Format W} {c : V → W} {P : V → Prop} (hg : Reads w r c P) {v : V} (hv : P v) {x : Bytes}
    (h : x <+: w.enc v) : Rejected r x ∨ Holds r x (c v) := by
  obtain ⟨t, ht⟩ := h
  by_cases hl : x.length < (w.enc v).length
  · left
    have := hg.truncated v hv x.length hl
    rwa [← ht, List.take_left] at this
  · right
    have : t = [] := List.eq_nil_of_length_eq_zero (by
      have := congrArg List.length ht
      rw [List.length_append] at this; omega)
    subst this
    rw [List.append_nil] at ht
    rw [ht]; exact hg.converted v hv

theorem crashed_reads {w : Format V} {r : Format W} {c : V → W} {P : V → Prop} (hg : Reads w r c P) {K : Crash} (hK : Detects r K) {d : Files} {m : Bytes}
    (hc : Clean d m) {v : V} (hv : P v) (k : Nat) {cm cb : Bytes} (h : Crashed K (save w v) k d cm cb) :
    (Rejected r cb ∨ Holds r cb (c v)) ∧ (Rejected r cb → cm = m ∨ cm = w.enc v) := by
  obtain ⟨hm, hb⟩ := h
  have ha := attempt_step (attempt_clean (fmt := w) hc v) k
  refine ⟨detected hK hb (fun x hx => reads_prefix hg hv (ha.bpre x hx)), fun hr => ?_⟩
  rcases exec_save_take w v d k with ⟨j, hj⟩ | ⟨j, hj⟩ | ⟨j, hj⟩ <;> rw [hj] at hm hb
  · left
    rw [hc.2.1] at hm
    exact K.synced hm
  · exact absurd hr (holds_not_rejected (by rw [K.synced hb]; exact hg.converted v hv))
  · exact .inr (K.synced hm)

end Verif.Upgrade
