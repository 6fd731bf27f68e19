import Verif.Convert.Model
import Mathlib.Data.Nat.Digits.Defs
import Mathlib.Tactic.NormNum
import Mathlib.Tactic.SplitIfs

/-!
# C128: texts converted between narrow and wide characters, C129: printed 128 bit numbers
-/

namespace Verif.Convert

open Verif

/-! ## Specification -/

/-- An encoding in which a character other than zero has one sequence of bytes, without zeros, that can be told from what follows. -/
structure Codec.Good (K : Codec) : Prop where
  enc : ∀ w b, w ≠ 0 → K.wc w = some b → b ≠ [] ∧ 0 ∉ b ∧ ∀ r, K.mb (b ++ r) = some (w, b.length - 1)
  dec : ∀ s w k, 0 ∉ s → K.mb s = some (w, k) → k < s.length ∧ w ≠ 0 ∧ K.wc w = some (s.take (k + 1))

/-- The bytes of a text, character by character. -/
inductive Encodes (K : Codec) : List Nat → List Nat → Prop
  | nil : Encodes K [] []
  | cons {w b ws bs} : K.wc w = some b → Encodes K ws bs → Encodes K (w :: ws) (b ++ bs)

/-- The digits of a number as text. -/
def decimalText (n : Nat) : List Nat := if n = 0 then [48] else ((Nat.digits 10 n).map (48 + ·)).reverse

/-- What `std::setw(width) << std::setfill(fill) << n` shows. -/
def shown (width fill n : Nat) : List Nat := List.replicate (width - (decimalText n).length) fill ++ decimalText n

/-! ## Helpers -/

theorem overwrite_exact (len : Nat) (s : List Nat) (h : s.length = len) : overwrite len (s ++ [0]) = .ok s := by
  subst h
  have h1 : (List.replicate s.length 32 ++ [0]).drop (s ++ [0]).length = [] := List.drop_eq_nil_of_le (by simp)
  unfold overwrite
  simp only [h1, List.append_nil]
  rw [if_pos (by simp)]
  simp

theorem wcs_encodes {K : Codec} {ws bs : List Nat} (h : Encodes K ws bs) :
    wcsLen K ws = some bs.length ∧ ∀ n, bs.length < n → wcsPut K n ws = bs ++ [0] := by
  induction h with
  | nil => exact ⟨rfl, fun n hn => by simp only [List.length_nil] at hn; simp [wcsPut, show n ≠ 0 by omega]⟩
  | cons hw _ ih =>
    refine ⟨by simp [wcsLen, hw, ih.1], fun n hn => ?_⟩
    simp only [List.length_append] at hn
    simp only [wcsPut, hw]
    rw [if_pos (by omega), ih.2 _ (by omega), List.append_assoc]

theorem encodeString_eq {K : Codec} {ws bs : List Nat} (h : Encodes K ws bs) : encodeString K ws = .ok bs := by
  obtain ⟨h1, h2⟩ := wcs_encodes h
  simp only [encodeString, h1]
  rw [h2 _ (Nat.lt_succ_self _)]
  exact overwrite_exact _ _ rfl

theorem encodes_zero {K : Codec} (hK : K.Good) {ws bs : List Nat} (h : Encodes K ws bs) (h0 : 0 ∉ ws) : 0 ∉ bs := by
  induction h with
  | nil => exact h0
  | cons hw _ ih =>
    simp only [List.mem_cons, not_or] at h0
    have := (hK.enc _ _ (Ne.symm h0.1) hw).2.1
    simp only [List.mem_append, not_or]
    exact ⟨this, ih h0.2⟩

theorem mbs_encodes {K : Codec} (hK : K.Good) {ws bs : List Nat} (h : Encodes K ws bs) (h0 : 0 ∉ ws) :
    mbsLen K bs = some ws.length ∧ ∀ n, ws.length < n → mbsPut K n bs = ws ++ [0] := by
  induction h with
  | nil =>
    refine ⟨by rw [mbsLen, if_pos rfl]; rfl, fun n hn => ?_⟩
    rw [mbsPut, if_neg (by omega), if_pos rfl]
    rfl
  | @cons w b ws bs hw _ ih =>
    simp only [List.mem_cons, not_or] at h0
    obtain ⟨e1, _, e3⟩ := hK.enc _ _ (Ne.symm h0.1) hw
    have hl := List.length_pos_iff.2 e1
    have hd : (b ++ bs).drop (b.length - 1 + 1) = bs := by rw [show b.length - 1 + 1 = b.length by omega, List.drop_left]
    have hne : ¬ (b ++ bs = []) := by simp [e1]
    obtain ⟨i1, i2⟩ := ih h0.2
    refine ⟨?_, fun n hn => ?_⟩
    · rw [mbsLen, if_neg hne]
      simp only [e3, hd, i1]
      simp [Nat.add_comm]
    · rw [mbsPut, if_neg (by omega), if_neg hne]
      simp only [e3, hd]
      rw [i2 _ (by simp only [List.length_cons] at hn; omega)]
      rfl

theorem decodeString_eq {K : Codec} (hK : K.Good) {ws bs : List Nat} (h : Encodes K ws bs) (h0 : 0 ∉ ws) : decodeString K bs = .ok ws := by
  obtain ⟨h1, h2⟩ := mbs_encodes hK h h0
  simp only [decodeString, h1]
  rw [h2 _ (Nat.lt_succ_self _)]
  exact overwrite_exact _ _ rfl

theorem wcsLen_none {K : Codec} {ws : List Nat} : wcsLen K ws = none ↔ ∃ w ∈ ws, K.wc w = none := by
  induction ws with
  | nil => simp [wcsLen]
  | cons w ws ih =>
    cases hw : K.wc w with
    | none => simp [wcsLen, hw]
    | some b => simp [wcsLen, hw, ih]

theorem encodes_of {K : Codec} {ws : List Nat} (h : ∀ w ∈ ws, K.wc w ≠ none) : ∃ bs, Encodes K ws bs := by
  induction ws with
  | nil => exact ⟨[], .nil⟩
  | cons w ws ih =>
    obtain ⟨bs, hb⟩ := ih (fun x hx => h x (by simp [hx]))
    obtain ⟨b, hw⟩ := Option.ne_none_iff_exists'.1 (h w (by simp))
    exact ⟨b ++ bs, .cons hw hb⟩

theorem mbs_some {K : Codec} (hK : K.Good) : ∀ (n : Nat) (bs : List Nat), bs.length ≤ n → 0 ∉ bs → mbsLen K bs ≠ none →
    ∃ ws, Encodes K ws bs ∧ 0 ∉ ws := by
  intro n
  induction n with
  | zero =>
    intro bs hn _ _
    have : bs = [] := List.length_eq_zero_iff.1 (by omega)
    subst this
    exact ⟨[], .nil, by simp⟩
  | succ n ih =>
    intro bs hn h0 hm
    by_cases hb : bs = []
    · subst hb
      exact ⟨[], .nil, by simp⟩
    rw [mbsLen, if_neg hb] at hm
    cases he : K.mb bs with
    | none => simp [he] at hm
    | some p =>
      obtain ⟨w, k⟩ := p
      simp only [he] at hm
      obtain ⟨d1, d2, d3⟩ := hK.dec _ _ _ h0 he
      obtain ⟨ws, w1, w2⟩ := ih (bs.drop (k + 1)) (by simp only [List.length_drop]; omega) (fun h => h0 (List.mem_of_mem_drop h))
        (fun h => hm (by rw [h]; rfl))
      refine ⟨w :: ws, ?_, ?_⟩
      · have := Encodes.cons d3 w1
        rwa [List.take_append_drop] at this
      · simp only [List.mem_cons, not_or]
        exact ⟨Ne.symm d2, w2⟩

theorem cstr_eq {s : List Nat} (h : 0 ∉ s) : cstr s = s := by
  induction s with
  | nil => rfl
  | cons a s ih =>
    simp only [List.mem_cons, not_or] at h
    rw [cstr, List.takeWhile_cons, if_pos (by simpa using Ne.symm h.1)]
    exact congrArg _ (ih h.2)

theorem cstr_no_zero (s : List Nat) : 0 ∉ cstr s := by
  induction s with
  | nil => simp [cstr]
  | cons a s ih =>
    rw [cstr, List.takeWhile_cons]
    split
    · rename_i h
      simp only [List.mem_cons, not_or]
      exact ⟨by simpa using Ne.symm (by simpa using h), ih⟩
    · simp

/-! ## C128 -/

/-- C128: a wide text without zeros whose characters the encoding has is converted to its bytes, and these back to the text. Missing: texts with zeros (`c128_zero_violated`). -/
theorem c128_wide_round_trip_partial {K : Codec} (hK : K.Good) {s : List Nat} (h0 : 0 ∉ s) (hs : ∀ w ∈ s, K.wc w ≠ none) :
    ∃ b, Encodes K s b ∧ fromWString K s = .ok b ∧ toAString K true s = .ok b ∧ fromAString K true b = .ok s := by
  obtain ⟨b, hb⟩ := encodes_of hs
  have h1 := encodes_zero hK hb h0
  refine ⟨b, hb, ?_, ?_, ?_⟩
  · rw [fromWString, cstr_eq h0, encodeString_eq hb]
  · rw [toAString, if_pos rfl, cstr_eq h0, encodeString_eq hb]
  · rw [fromAString, if_pos rfl, cstr_eq h1, decodeString_eq hK hb h0]

/-- C128: a narrow text without zeros is converted to a wide text, and back to itself, or an exception is thrown. Missing: texts with zeros (`c128_zero_violated`). -/
theorem c128_narrow_round_trip_partial {K : Codec} (hK : K.Good) {b : List Nat} (h0 : 0 ∉ b) :
    (∃ s, Encodes K s b ∧ fromAString K true b = .ok s ∧ toAString K true s = .ok b ∧ fromWString K s = .ok b) ∨
    (∀ s, 0 ∉ s → ¬ Encodes K s b) ∧ fromAString K true b = .throw .logic := by
  by_cases h : mbsLen K b = none
  · right
    refine ⟨fun s h0s hs => ?_, ?_⟩
    · rw [(mbs_encodes hK hs h0s).1] at h
      cases h
    · rw [fromAString, if_pos rfl, cstr_eq h0, decodeString, h]
  · left
    obtain ⟨s, hs, h0s⟩ := mbs_some hK _ b le_rfl h0 h
    refine ⟨s, hs, ?_, ?_, ?_⟩
    · rw [fromAString, if_pos rfl, cstr_eq h0, decodeString_eq hK hs h0s]
    · rw [toAString, if_pos rfl, cstr_eq h0s, encodeString_eq hs]
    · rw [fromWString, cstr_eq h0s, encodeString_eq hs]

/-- C128: a character that the encoding does not have is reported with an exception, wherever it is in the text. -/
theorem c128_reported {K : Codec} {s : List Nat} (h0 : 0 ∉ s) {w : Nat} (hw : w ∈ s) (hn : K.wc w = none) : fromWString K s = .throw .logic := by
  rw [fromWString, cstr_eq h0, encodeString, wcsLen_none.2 ⟨w, hw, hn⟩]

/-- C128: no conversion is undefined behaviour. -/
theorem c128_defined {K : Codec} (hK : K.Good) (s : List Nat) (wide : Bool) : fromWString K s ≠ .ub ∧ toAString K wide s ≠ .ub ∧ fromAString K wide s ≠ .ub := by
  have h0 := cstr_no_zero s
  have he : encodeString K (cstr s) ≠ .ub := by
    by_cases h : wcsLen K (cstr s) = none
    · simp [encodeString, h]
    · have hall : ∀ w ∈ cstr s, K.wc w ≠ none := fun w hw hn => h (wcsLen_none.2 ⟨w, hw, hn⟩)
      obtain ⟨b, hb⟩ := encodes_of hall
      simp [encodeString_eq hb]
  have hd : decodeString K (cstr s) ≠ .ub := by
    by_cases h : mbsLen K (cstr s) = none
    · simp [decodeString, h]
    · obtain ⟨ws, h1, h2⟩ := mbs_some hK _ _ le_rfl h0 h
      simp [decodeString_eq hK h1 h2]
  refine ⟨he, ?_, ?_⟩
  · unfold toAString
    split
    · exact he
    · simp
  · unfold fromAString
    split
    · exact hd
    · simp

/-- C128 is violated for texts with a zero: what follows the zero is lost, whatever the encoding. -/
theorem c128_zero_violated (K : Codec) (s t : List Nat) (h0 : 0 ∉ s) : fromAString K false (s ++ 0 :: t) = .ok s ∧ toAString K false (s ++ 0 :: t) = .ok s ∧
    fromWString K (s ++ 0 :: t) = fromWString K s ∧ fromAString K true (s ++ 0 :: t) = fromAString K true s := by
  have h : cstr (s ++ 0 :: t) = s := by
    unfold cstr
    rw [List.takeWhile_append_of_pos (by intro x hx; simp; intro h'; exact h0 (h' ▸ hx))]
    simp
  refine ⟨by simp [fromAString, h], by simp [toAString, h], ?_, ?_⟩
  · rw [fromWString, fromWString, h, cstr_eq h0]
  · simp only [fromAString, h, cstr_eq h0]

/-! ### The encodings -/

theorem isCont_iff {b : Nat} : isCont b = true ↔ 0x80 ≤ b ∧ b < 0xC0 := by simp [isCont]

/-- C128: UTF-8 is such an encoding. -/
theorem c128_utf8 : utf8.Good := by
  constructor
  · intro w b h0 h
    simp only [utf8, utf8wc] at h
    split_ifs at h with h1 h2 h3 h4 h5 <;> cases h
    · refine ⟨by simp, by simp; omega, fun r => ?_⟩
      simp [utf8, utf8mb, h1]
    · refine ⟨by simp, by simp; omega, fun r => ?_⟩
      simp only [utf8, List.cons_append, List.nil_append, utf8mb]
      rw [if_neg (by omega), if_pos (by omega), if_pos (isCont_iff.2 (by omega))]
      simp only [List.length_cons, List.length_nil, Option.some.injEq, Prod.mk.injEq]
      exact ⟨by omega, trivial⟩
    · refine ⟨by simp, by simp; omega, fun r => ?_⟩
      simp only [utf8, List.cons_append, List.nil_append, utf8mb]
      rw [if_neg (by omega), if_neg (by omega), if_pos (by omega)]
      have e : (0xE0 + w / 4096 - 0xE0) * 4096 + (0x80 + w / 64 % 64 - 0x80) * 64 + (0x80 + w % 64 - 0x80) = w := by omega
      rw [e, if_pos ⟨isCont_iff.2 (by omega), isCont_iff.2 (by omega), by omega, h4⟩]
      rfl
    · refine ⟨by simp, by simp; omega, fun r => ?_⟩
      simp only [utf8, List.cons_append, List.nil_append, utf8mb]
      rw [if_neg (by omega), if_neg (by omega), if_neg (by omega), if_pos (by omega)]
      have e : (0xF0 + w / 262144 - 0xF0) * 262144 + (0x80 + w / 4096 % 64 - 0x80) * 4096 + (0x80 + w / 64 % 64 - 0x80) * 64 + (0x80 + w % 64 - 0x80) = w := by omega
      rw [e, if_pos ⟨isCont_iff.2 (by omega), isCont_iff.2 (by omega), isCont_iff.2 (by omega), by omega, by omega⟩]
      rfl
  · intro s w k h0 h
    cases s with
    | nil => cases h
    | cons a r =>
      simp only [List.mem_cons, not_or] at h0
      simp only [utf8, utf8mb] at h
      split_ifs at h with h1 h2 h3 h4
      · cases h
        refine ⟨by simp, fun h => h0.1 h.symm, ?_⟩
        simp [utf8, utf8wc, h1]
      · cases r with
        | nil => cases h
        | cons b r =>
          simp only at h
          split_ifs at h with h5
          simp only [Option.some.injEq, Prod.mk.injEq] at h
          obtain ⟨rfl, rfl⟩ := h
          rw [isCont_iff] at h5
          refine ⟨by simp, by omega, ?_⟩
          simp only [utf8, utf8wc]
          rw [if_neg (by omega), if_pos (by omega)]
          simp only [List.take_succ_cons, List.take_zero, Option.some.injEq, List.cons.injEq, and_true]
          omega
      · cases r with
        | nil => cases h
        | cons b r => cases r with
          | nil => cases h
          | cons d r =>
            simp only at h
            split_ifs at h with h5
            simp only [Option.some.injEq, Prod.mk.injEq] at h
            obtain ⟨rfl, rfl⟩ := h
            rw [isCont_iff, isCont_iff] at h5
            refine ⟨by simp, by omega, ?_⟩
            simp only [utf8, utf8wc]
            rw [if_neg (by omega), if_neg (by omega), if_pos (by omega), if_neg h5.2.2.2]
            simp only [List.take_succ_cons, List.take_zero, Option.some.injEq, List.cons.injEq, and_true]
            omega
      · cases r with
        | nil => cases h
        | cons b r => cases r with
          | nil => cases h
          | cons d r => cases r with
            | nil => cases h
            | cons e r =>
              simp only at h
              split_ifs at h with h5
              simp only [Option.some.injEq, Prod.mk.injEq] at h
              obtain ⟨rfl, rfl⟩ := h
              rw [isCont_iff, isCont_iff, isCont_iff] at h5
              refine ⟨by simp, by omega, ?_⟩
              simp only [utf8, utf8wc]
              rw [if_neg (by omega), if_neg (by omega), if_neg (by omega), if_pos (by omega)]
              simp only [List.take_succ_cons, List.take_zero, Option.some.injEq, List.cons.injEq, and_true]
              omega

/-- C128: so is the locale that a program starts with; there every character outside of ASCII throws. -/
theorem c128_start_locale : ascii.Good ∧ ∀ s w, 0 ∉ s → w ∈ s → 0x80 ≤ w → fromWString ascii s = .throw .logic := by
  refine ⟨⟨?_, ?_⟩, fun s w h0 hw h => c128_reported h0 hw (by simp [ascii]; omega)⟩
  · intro w b h0 h
    simp only [ascii] at h
    split_ifs at h with h1
    cases h
    refine ⟨by simp, by simp; omega, fun r => by simp [ascii, h1]⟩
  · intro s w k h0 h
    cases s with
    | nil => cases h
    | cons a r =>
      simp only [ascii] at h
      split_ifs at h with h1
      cases h
      simp only [List.mem_cons, not_or] at h0
      exact ⟨by simp, fun h => h0.1 h.symm, by simp [ascii, h1]⟩

/-- "aé€😀" in UTF-8. -/
example : Encodes utf8 [97, 233, 8364, 128512] [97, 195, 169, 226, 130, 172, 240, 159, 152, 128] :=
  .cons (b := [97]) rfl (.cons (b := [195, 169]) rfl (.cons (b := [226, 130, 172]) rfl (.cons (b := [240, 159, 152, 128]) rfl .nil)))

/-! ## C129 -/

theorem countDigits_eq (n : Nat) : 0 < n → ∀ len, countDigits n len + 1 = len + (Nat.digits 10 n).length := by
  induction n using Nat.strongRecOn with
  | _ n ih =>
    intro hn len
    rw [countDigits]
    rw [Nat.digits_of_two_le_of_pos (by norm_num) hn, List.length_cons]
    split
    · rename_i h
      have := ih (n / 10) (by omega) (by omega) (len + 1)
      omega
    · rw [Nat.div_eq_of_lt (by omega)]
      simp

theorem pushDigits_eq (n : Nat) : 0 < n → ∀ acc, pushDigits n acc = acc ++ (Nat.digits 10 n).map (48 + ·) := by
  induction n using Nat.strongRecOn with
  | _ n ih =>
    intro hn acc
    rw [pushDigits]
    rw [Nat.digits_of_two_le_of_pos (by norm_num) hn, List.map_cons]
    have hm : n - n / 10 * 10 = n % 10 := by omega
    simp only [hm]
    split
    · rename_i h
      rw [ih (n / 10) (by omega) (by omega)]
      simp
    · rw [Nat.div_eq_of_lt (by omega)]
      simp

theorem len_eq (n : Nat) : (if n ≠ 0 then countDigits n 1 else 1) = (decimalText n).length := by
  unfold decimalText
  by_cases h : n = 0
  · simp [h]
  · rw [if_pos h, if_neg h]
    have := countDigits_eq n (by omega) 1
    simp
    omega

theorem result_eq (n : Nat) : (if n = 0 then [48] else pushDigits n []).reverse = decimalText n := by
  unfold decimalText
  by_cases h : n = 0
  · simp [h]
  · rw [if_neg h, if_neg h, pushDigits_eq n (by omega)]
    simp

theorem putFill_zero (n : Nat) : ∀ (t : List Nat) (f : Nat), putFill ⟨t, 0, f⟩ n = ⟨t ++ List.replicate n f, 0, f⟩ := by
  induction n with
  | zero => intro t f; simp [putFill]
  | succ n ih =>
    intro t f
    rw [putFill]
    simp only [Out.put, Nat.zero_sub, List.replicate_zero, List.append_nil]
    rw [ih, List.append_assoc]
    rfl

/-- C129: the number is shown with the width and the fill character, unless it is longer than a width of two or more. -/
theorem c129_text_partial (o : Out) (n : Nat) (h : o.width ≤ 1 ∨ (decimalText n).length ≤ o.width) :
    (putU128 o n).text = o.text ++ shown o.width o.fill n ∧ (putU128 o n).width = 0 := by
  unfold putU128
  simp only [len_eq, result_eq]
  rw [if_neg (by omega)]
  simp [Out.put, shown]

/-- C129: different numbers have different texts. -/
theorem c129_distinct (n m : Nat) (h : decimalText n = decimalText m) : n = m := by
  have hz : ∀ k, k ≠ 0 → decimalText k ≠ [48] := by
    intro k hk he
    rw [decimalText, if_neg hk, List.reverse_eq_iff] at he
    have h1 : (Nat.digits 10 k).length = 1 := by
      have := congrArg List.length he
      simpa using this
    obtain ⟨d, hd⟩ := List.length_eq_one_iff.1 h1
    rw [hd] at he
    simp at he
    have := Nat.ofDigits_digits 10 k
    rw [hd, he] at this
    simp at this
    omega
  by_cases hn : n = 0
  · by_cases hm : m = 0
    · omega
    · subst hn
      exact absurd h.symm (hz m hm)
  · by_cases hm : m = 0
    · subst hm
      exact absurd h (hz n hn)
    · rw [decimalText, decimalText, if_neg hn, if_neg hm, List.reverse_inj] at h
      have h2 := List.map_inj_right (f := (48 + ·)) (fun a b (hab : 48 + a = 48 + b) => by omega) |>.1 h
      have := congrArg (Nat.ofDigits 10) h2
      rwa [Nat.ofDigits_digits, Nat.ofDigits_digits] at this

/-- C129 is violated: a number that is longer than the width is preceded by as many fill characters as it has digits, but one. -/
theorem c129_long_violated (o : Out) (n : Nat) (h1 : 1 < o.width) (h2 : o.width < (decimalText n).length) :
    (putU128 o n).text = o.text ++ List.replicate ((decimalText n).length - 1) o.fill ++ decimalText n ∧
    (putU128 o n).text ≠ o.text ++ shown o.width o.fill n := by
  have key : (putU128 o n).text = o.text ++ List.replicate ((decimalText n).length - 1) o.fill ++ decimalText n := by
    unfold putU128
    simp only [len_eq, result_eq]
    rw [if_pos ⟨h1, h2⟩]
    obtain ⟨k, hk⟩ : ∃ k, (decimalText n).length - o.width = k + 1 := ⟨(decimalText n).length - o.width - 1, by omega⟩
    rw [hk, putFill]
    simp only [Out.put, putFill_zero]
    have hr : List.replicate ((decimalText n).length - 1) o.fill = List.replicate (o.width - 1) o.fill ++ ([o.fill] ++ List.replicate k o.fill) := by
      rw [show [o.fill] = List.replicate 1 o.fill from rfl, List.replicate_append_replicate, List.replicate_append_replicate]
      congr 1
      omega
    rw [hr]
    simp
  refine ⟨key, ?_⟩
  rw [key]
  intro h
  have := congrArg List.length h
  simp only [shown, List.length_append, List.length_replicate] at this
  omega

/-- C129: a signed number without a width is shown with its sign. -/
theorem c129_signed_partial (o : Out) (hw : o.width = 0) (v : ℤ) (hv : -2 ^ 127 < v) (hv' : v < 2 ^ 127) :
    ∃ o', putI128 o v = .ok o' ∧ o'.width = 0 ∧ o'.text = o.text ++ (if v < 0 then [45] else []) ++ decimalText v.natAbs := by
  have hs : ∀ (f n : Nat), shown 0 f n = decimalText n := by intro f n; simp [shown]
  unfold putI128
  rw [if_neg (by omega)]
  by_cases h : v < 0
  · rw [if_pos h, if_pos (by omega), if_pos h]
    refine ⟨_, rfl, ?_⟩
    obtain ⟨t1, t2⟩ := c129_text_partial (o.put [45]) (-v).toNat (Or.inl (by simp [Out.put]))
    refine ⟨t2, ?_⟩
    rw [t1, show (o.put [45]).width = 0 from rfl, hs]
    have : (-v).toNat = v.natAbs := by omega
    simp [Out.put, hw, this]
  · rw [if_neg h, if_neg h]
    refine ⟨_, rfl, ?_⟩
    obtain ⟨t1, t2⟩ := c129_text_partial o v.toNat (Or.inl (by omega))
    refine ⟨t2, ?_⟩
    rw [t1, hw, hs]
    have : v.toNat = v.natAbs := by omega
    simp [this]

/-- C129 is violated: the smallest signed number is undefined behaviour, and a width throws for every signed number, positive or not. -/
theorem c129_signed_violated (o : Out) : (o.width = 0 → putI128 o (-2 ^ 127) = .ub) ∧ (o.width ≠ 0 → ∀ v, putI128 o v = .throw .runtime) := by
  constructor
  · intro h
    unfold putI128
    rw [if_neg (by omega), if_pos (by norm_num), if_neg (by norm_num)]
  · intro h v
    unfold putI128
    rw [if_pos h]

/-- 7 with a width of 3 and zeros, and 12345 with a width of 3. -/
example : decimalText 12345 = [49, 50, 51, 52, 53] ∧ shown 3 48 7 = [48, 48, 55] := by
  simp [shown, decimalText]

end Verif.Convert
