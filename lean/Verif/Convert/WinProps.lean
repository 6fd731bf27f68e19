import Verif.Convert.WinModel
import Verif.Convert.Props

/-! # C178: texts converted with Visual C++ -/

namespace Verif.Convert.Win

open Verif

theorem wcsTake_encodes {K : Codec} (ws bs : List Nat) (h : Encodes K ws bs) : ∀ n, bs.length < n → wcsTake K n ws = some bs := by
  induction h with
  | nil => intro n _; rfl
  | @cons w b ws bs hw _ ih =>
    intro n hn
    simp only [List.length_append] at hn
    simp only [wcsTake, hw]
    rw [if_neg (by omega), if_pos (by omega), ih _ (by omega)]
    rfl

theorem mbsTake_encodes {K : Codec} (hK : K.Good) (ws bs : List Nat) (h : Encodes K ws bs) (h0 : 0 ∉ ws) : ∀ n, ws.length < n → mbsTake K n bs = some ws := by
  induction h with
  | nil =>
    intro n hn
    cases n with
    | zero => rfl
    | succ n => simp [mbsTake]
  | @cons w b ws bs hw _ ih =>
    intro n hn
    simp only [List.mem_cons, not_or] at h0
    obtain ⟨e1, _, e3⟩ := hK.enc _ _ (Ne.symm h0.1) hw
    have hl := List.length_pos_iff.2 e1
    have hd : (b ++ bs).drop (b.length - 1 + 1) = bs := by rw [show b.length - 1 + 1 = b.length by omega, List.drop_left]
    have hne : ¬ (b ++ bs = []) := by simp [e1]
    cases n with
    | zero => simp at hn
    | succ n =>
      simp only [mbsTake]
      rw [if_neg hne]
      simp only [e3, hd]
      rw [ih h0.2 n (by simp only [List.length_cons] at hn; omega)]
      rfl

theorem encode_text {K : Codec} {ws bs : List Nat} (h : Encodes K ws bs) : encodeString K ws = .text bs := by
  have h1 := (wcs_encodes h).1
  have h2 := wcsTake_encodes ws bs h (bs.length + 1) (Nat.lt_succ_self _)
  simp [encodeString, convert, wcsMeasure, h1, wcsStore, h2, overwrite_exact]

theorem decode_text {K : Codec} (hK : K.Good) {ws bs : List Nat} (h : Encodes K ws bs) (h0 : 0 ∉ ws) : decodeString K bs = .text ws := by
  have h1 := (mbs_encodes hK h h0).1
  have h2 := mbsTake_encodes hK ws bs h h0 (ws.length + 1) (Nat.lt_succ_self _)
  simp [decodeString, convert, mbsMeasure, h1, mbsStore, h2, overwrite_exact]

/-- C178: a wide text becomes its bytes, character by character; exactly if a character has none `string_encoding_error` is thrown, with the number EILSEQ. -/
theorem c178_encode (K : Codec) (s : List Nat) :
    (∃ b, Encodes K (cstr s) b ∧ toAString K s = .text b) ∨ (∃ w ∈ cstr s, K.wc w = none) ∧ toAString K s = .encodingError 42 := by
  by_cases h : ∃ w ∈ cstr s, K.wc w = none
  · right
    refine ⟨h, ?_⟩
    simp [toAString, encodeString, convert, wcsMeasure, wcsLen_none.2 h, eilseq]
  · left
    obtain ⟨b, hb⟩ := encodes_of (K := K) (ws := cstr s) (fun w hw hn => h ⟨w, hw, hn⟩)
    exact ⟨b, hb, encode_text hb⟩

/-- C178: bytes become the text they encode; exactly if they encode none `string_encoding_error` is thrown, with the number EILSEQ. -/
theorem c178_decode {K : Codec} (hK : K.Good) (b : List Nat) :
    (∃ s, 0 ∉ s ∧ Encodes K s (cstr b) ∧ fromAString K b = .text s) ∨ (∀ s, 0 ∉ s → ¬ Encodes K s (cstr b)) ∧ fromAString K b = .encodingError 42 := by
  by_cases h : mbsLen K (cstr b) = none
  · right
    refine ⟨fun s h0 hs => ?_, ?_⟩
    · rw [(mbs_encodes hK hs h0).1] at h; cases h
    · simp [fromAString, decodeString, convert, mbsMeasure, h, eilseq]
  · left
    obtain ⟨s, h1, h2⟩ := mbs_some hK _ (cstr b) (Nat.le_refl _) (cstr_no_zero b) h
    exact ⟨s, h2, h1, decode_text hK h1 h2⟩

/-- C178: what was converted in one direction is the same after converting it back. -/
theorem c178_round_trip {K : Codec} (hK : K.Good) {s b : List Nat} :
    (0 ∉ s → toAString K s = .text b → fromAString K b = .text s) ∧ (0 ∉ b → fromAString K b = .text s → toAString K s = .text b) := by
  constructor
  · intro h0 h
    rcases c178_encode K s with ⟨b', h1, h2⟩ | ⟨_, h2⟩
    · rw [h2] at h; cases h
      rw [cstr_eq h0] at h1
      rw [fromAString, cstr_eq (encodes_zero hK h1 h0)]
      exact decode_text hK h1 h0
    · rw [h2] at h; cases h
  · intro h0 h
    rcases c178_decode hK b with ⟨s', h1, h2, h3⟩ | ⟨_, h2⟩
    · rw [h3] at h; cases h
      rw [cstr_eq h0] at h2
      rw [toAString, cstr_eq h1]
      exact encode_text h2
    · rw [h2] at h; cases h

/-- C178: where the conversion of the other compilers gives a text, that of Visual C++ gives the same, and it throws where they throw. -/
theorem c178_same_text {K : Codec} (hK : K.Good) (s t : List Nat) :
    (toAString K s = .text t ↔ Convert.toAString K true s = .ok t) ∧ (fromAString K s = .text t ↔ Convert.fromAString K true s = .ok t) := by
  constructor
  · rcases c178_encode K s with ⟨b, h1, h2⟩ | ⟨h1, h2⟩
    · rw [h2, Convert.toAString, if_pos rfl, encodeString_eq h1]; simp
    · rw [h2, Convert.toAString, if_pos rfl, Convert.encodeString, wcsLen_none.2 h1]; simp
  · rcases c178_decode hK s with ⟨w, h1, h2, h3⟩ | ⟨h1, h2⟩
    · rw [h3, Convert.fromAString, if_pos rfl, decodeString_eq hK h2 h1]; simp
    · have hn : mbsLen K (cstr s) = none := by
        apply Classical.byContradiction
        intro h
        obtain ⟨w, h3, h4⟩ := mbs_some hK _ (cstr s) (Nat.le_refl _) (cstr_no_zero s) h
        exact h1 w h4 h3
      rw [h2, Convert.fromAString, if_pos rfl, Convert.decodeString, hn]; simp

/-- C178: what follows a zero is not looked at. -/
theorem c178_zero (K : Codec) (s t : List Nat) (h0 : 0 ∉ s) : toAString K (s ++ 0 :: t) = toAString K s ∧ fromAString K (s ++ 0 :: t) = fromAString K s := by
  have h : cstr (s ++ 0 :: t) = s := by
    unfold cstr
    rw [List.takeWhile_append_of_pos (by intro x hx; simp; intro h'; exact h0 (h' ▸ hx))]
    simp
  simp [toAString, fromAString, h, cstr_eq h0]

example : toAString utf8 [0x41, 0xE9] = .text [0x41, 0xC3, 0xA9] := by decide
example : fromAString utf8 [0x41, 0xC3, 0xA9] = .text [0x41, 0xE9] := by decide +kernel
example : toAString ascii [0x41, 0xE9] = .encodingError 42 := by decide
example : fromAString utf8 [0x41, 0xC3] = .encodingError 42 := by decide +kernel

end Verif.Convert.Win
