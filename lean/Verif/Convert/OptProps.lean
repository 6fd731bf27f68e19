import Verif.Convert.OptModel
import Verif.Convert.Props

/-!
# C188: the text of an optional value
-/

namespace Verif.Convert

/-- What a program leaves in a stream that was `o`: `t` follows the text and the width is reset. -/
def Shows (o : Out) (r : Res Out) (t : List Nat) : Prop := ∃ o', r = .ok o' ∧ o'.text = o.text ++ t ∧ o'.width = 0

theorem Shows.unique {o : Out} {r : Res Out} {t u : List Nat} (h : Shows o r t) (h' : Shows o r u) : t = u := by
  obtain ⟨a, ha, ta, _⟩ := h
  obtain ⟨b, hb, tb, _⟩ := h'
  rw [ha] at hb
  cases hb
  rw [ta] at tb
  exact List.append_cancel_left tb

/-- A decimal text consists of digits. -/
theorem decimal_digits (n : Nat) : ∀ c ∈ decimalText n, 48 ≤ c ∧ c ≤ 57 := by
  intro c hc
  unfold decimalText at hc
  split at hc
  · simp at hc; omega
  · rw [List.mem_reverse, List.mem_map] at hc
    obtain ⟨d, hd, e⟩ := hc
    have := Nat.digits_lt_base (by decide) hd
    omega

/-- **C188.**  An optional value that is there is shown as the value and one that is not as the word `empty`, filled up to the width; for strings. -/
theorem c188_strings (o : Out) (v : Option (List Nat)) :
    Shows o (putOpt putStr o v) (match v with
      | some s => List.replicate (o.width - s.length) o.fill ++ s
      | none => List.replicate (o.width - 5) o.fill ++ [101, 109, 112, 116, 121]) := by
  cases v <;> exact ⟨_, rfl, by simp [Out.put, emptyText], rfl⟩

/-- **C188.**  For unsigned 128 bit numbers without a width. -/
theorem c188_unsigned (o : Out) (hw : o.width = 0) (v : Option Nat) :
    Shows o (putOpt putNat o v) (match v with
      | some n => decimalText n
      | none => [101, 109, 112, 116, 121]) := by
  cases v with
  | none => exact ⟨_, rfl, by simp [Out.put, emptyText, hw], rfl⟩
  | some n =>
    obtain ⟨h1, h2⟩ := c129_text_partial o n (.inl (by omega))
    exact ⟨_, rfl, by rw [h1, hw]; simp [shown], h2⟩

/-- **C188.**  For signed 128 bit numbers without a width, but the smallest. -/
theorem c188_signed (o : Out) (hw : o.width = 0) (v : Option ℤ) (hv : ∀ n ∈ v, -2 ^ 127 < n ∧ n < 2 ^ 127) :
    Shows o (putOpt putI128 o v) (match v with
      | some n => (if n < 0 then [45] else []) ++ decimalText n.natAbs
      | none => [101, 109, 112, 116, 121]) := by
  cases v with
  | none => exact ⟨_, rfl, by simp [Out.put, emptyText, hw], rfl⟩
  | some n =>
    obtain ⟨o', h1, h2, h3⟩ := c129_signed_partial o hw n (hv n rfl).1 (hv n rfl).2
    exact ⟨o', h1, by rw [h3, List.append_assoc], h2⟩

/-- **C188.**  The text of an optional number tells whether there is a number, and which one. -/
theorem c188_numbers_differ (o : Out) (hw : o.width = 0) (v w : Option ℤ) (hv : ∀ n ∈ v, -2 ^ 127 < n ∧ n < 2 ^ 127) (hw' : ∀ n ∈ w, -2 ^ 127 < n ∧ n < 2 ^ 127) (t : List Nat)
    (h1 : Shows o (putOpt putI128 o v) t) (h2 : Shows o (putOpt putI128 o w) t) : v = w := by
  have e1 := h1.unique (c188_signed o hw v hv)
  have e2 := h2.unique (c188_signed o hw w hw')
  rw [e1] at e2
  have nope : ∀ n : ℤ, (if n < 0 then [45] else []) ++ decimalText n.natAbs ≠ [101, 109, 112, 116, 121] := by
    intro n e
    have hm : (121 : Nat) ∈ (if n < 0 then [45] else []) ++ decimalText n.natAbs := by rw [e]; simp
    rcases List.mem_append.1 hm with h | h
    · split at h <;> simp at h
    · have := decimal_digits _ _ h; omega
  have sign : ∀ (n : ℤ) (m : ℕ), 45 :: decimalText n.natAbs ≠ decimalText m := by
    intro n m e
    have := decimal_digits m 45 (by rw [← e]; exact List.mem_cons_self)
    omega
  cases v with
  | none => cases w with
    | none => rfl
    | some n => exact absurd e2.symm (nope n)
  | some m => cases w with
    | none => exact absurd e2 (nope m)
    | some n =>
      simp only at e2
      congr 1
      by_cases hm : m < 0 <;> by_cases hn : n < 0 <;> simp only [hm, hn, if_true, if_false, List.nil_append, List.cons_append, List.cons.injEq, true_and] at e2
      · have := c129_distinct _ _ e2; omega
      · exact absurd e2 (sign m _)
      · exact absurd e2.symm (sign n _)
      · have := c129_distinct _ _ e2; omega

/-- **C188.**  The text of an optional string without a width tells which it is, for strings that are not the word `empty`.  Missing: that word, see `c188_word_violated`. -/
theorem c188_strings_differ_partial (o : Out) (hw : o.width = 0) (v w : Option (List Nat)) (hv : v ≠ some [101, 109, 112, 116, 121]) (hw' : w ≠ some [101, 109, 112, 116, 121]) (t : List Nat)
    (h1 : Shows o (putOpt putStr o v) t) (h2 : Shows o (putOpt putStr o w) t) : v = w := by
  have e1 := h1.unique (c188_strings o v)
  have e2 := h2.unique (c188_strings o w)
  rw [e1] at e2
  cases v <;> cases w <;> simp only [hw, Nat.zero_sub, List.replicate_zero, List.nil_append] at e2
  · rfl
  · exact absurd (by rw [e2]) hw'
  · exact absurd (by rw [e2]) hv
  · rw [e2]

/-- **C188 is violated** for strings: the word `empty` and no string have the same text. -/
theorem c188_word_violated (o : Out) : putOpt putStr o (some [101, 109, 112, 116, 121]) = putOpt putStr o none := rfl

/-- **C188 is violated** for optionals of optionals of any type: one that is empty and one that contains an empty one have the same text. -/
theorem c188_nested_violated {α : Type} (put : Out → α → Res Out) (o : Out) : putOpt (putOpt put) o (some none) = putOpt (putOpt put) o none := rfl

/-- `-12` with no width, and `empty` with a width of seven. -/
example : Shows ⟨[58], 0, 32⟩ (putOpt putI128 ⟨[58], 0, 32⟩ (some (-12))) [45, 49, 50] ∧
    Shows ⟨[58], 7, 42⟩ (putOpt putStr ⟨[58], 7, 42⟩ none) [42, 42, 101, 109, 112, 116, 121] := by
  constructor
  · have := c188_signed ⟨[58], 0, 32⟩ rfl (some (-12)) (by intro n hn; cases hn; norm_num)
    have h : decimalText 12 = [49, 50] := by simp [decimalText]
    simpa [h] using this
  · exact c188_strings ⟨[58], 7, 42⟩ none

end Verif.Convert
