import Verif.Testing.AttrModel
import Verif.Testing.Props

/-! # C93: attribute values -/

namespace Verif.Testing

/-- The values of a type. -/
def InRange : Ty → Int → Prop
  | .bool, v => v = 0 ∨ v = 1
  | .int, v => -2 ^ 31 ≤ v ∧ v < 2 ^ 31
  | .uint, v => 0 ≤ v ∧ v < 2 ^ 32
  | .long, v => -2 ^ 63 ≤ v ∧ v < 2 ^ 63
  | .longlong, v => -2 ^ 63 ≤ v ∧ v < 2 ^ 63
  | .ulong, v => 0 ≤ v ∧ v < 2 ^ 64
  | .ulonglong, v => 0 ≤ v ∧ v < 2 ^ 64

theorem number_append (s t : Str) (acc : Nat) (hs : ∀ c ∈ s, isDigit c = true) :
    number acc (s ++ t) = number (number acc s) t := by
  induction s generalizing acc with
  | nil => rfl
  | cons c s ih =>
    have hc := hs c List.mem_cons_self
    simp only [List.cons_append, number, hc, if_true]
    exact ih _ (fun x hx => hs x (List.mem_cons_of_mem _ hx))

theorem digit_of (n : Nat) (h : n < 10) : isDigit (zero + n) = true := by
  unfold isDigit zero; rw [decide_eq_true_eq]; omega

theorem digits_spec (n : Nat) : (∀ c ∈ digits n, isDigit c = true) ∧ number 0 (digits n) = n ∧ digits n ≠ [] := by
  induction n using Nat.strongRecOn with
  | ind n ih =>
    unfold digits
    split
    · rename_i h
      refine ⟨by intro c hc; simp at hc; subst hc; exact digit_of n h, ?_, by simp⟩
      simp only [number, digit_of n h, if_true]
      simp
    · rename_i h
      obtain ⟨h1, h2, h3⟩ := ih (n / 10) (by omega)
      have hd := digit_of (n % 10) (by omega)
      refine ⟨?_, ?_, by simp⟩
      · intro c hc
        rcases List.mem_append.1 hc with hc | hc
        · exact h1 c hc
        · simp at hc; subst hc; exact hd
      · rw [number_append _ _ _ h1, h2]
        simp only [number, hd, if_true]
        omega

theorem digit_not_space (c : Nat) (h : isDigit c = true) : isSpace c = false ∧ c ≠ minus ∧ c ≠ plus := by
  unfold isDigit zero at h
  rw [decide_eq_true_eq] at h
  refine ⟨?_, ?_, ?_⟩
  · unfold isSpace; rw [decide_eq_false_iff_not]; omega
  · simp only [minus]; omega
  · simp only [plus]; omega

theorem scan_toStr (v : Int) : scan (toStr v) = some (decide (v < 0), v.natAbs) := by
  obtain ⟨h1, h2, h3⟩ := digits_spec v.natAbs
  unfold toStr
  cases hd : digits v.natAbs with
  | nil => exact absurd hd h3
  | cons c t =>
    have hc := h1 c (by rw [hd]; exact List.mem_cons_self)
    obtain ⟨hs, hm, hp⟩ := digit_not_space c hc
    split
    · rename_i hv
      have hms : isSpace minus = false := by decide
      simp only [scan, List.dropWhile_cons, hms, Bool.false_eq_true, if_false, if_true, hc]
      rw [← hd, h2]
      simp [hv]
    · rename_i hv
      simp only [scan, List.dropWhile_cons, hs, Bool.false_eq_true, if_false, hm, hp, hc, if_true]
      rw [← hd, h2]
      simp [hv]

theorem signed_round (bits : Nat) (v : Int) (h : -2 ^ (bits - 1) ≤ v ∧ v < 2 ^ (bits - 1)) :
    stoSigned bits (toStr v) = .ok v := by
  unfold stoSigned
  rw [scan_toStr]
  have hv : (if decide (v < 0) = true then -(v.natAbs : Int) else (v.natAbs : Int)) = v := by
    by_cases hc : v < 0
    · rw [if_pos (by simpa using hc)]; omega
    · rw [if_neg (by simpa using hc)]; omega
  simp only [hv]
  rw [if_pos h]

/-- C93: a value written with `ToString` and given on the command line is what the test sees, whatever the default.  Missing:
`bool` and values of `unsigned int` above the range of `int`, for which it is false. -/
theorem c93_scalar_partial (T : Ty) (v d : Int) (hT : T ≠ .bool) (hu : T = .uint → v < 2 ^ 31) (hv : InRange T v) :
    attrValue T (some (toStr v)) d = v := by
  have key : fromString T (toStr v) = .ok v := by
    cases T with
    | bool => exact absurd rfl hT
    | int => exact signed_round 32 v hv
    | uint =>
      have h := hu rfl
      simp only [InRange] at hv
      simp only [fromString]
      rw [signed_round 32 v (by omega), Res.ok_bind]
      rw [Int.emod_eq_of_lt hv.1 hv.2]
    | long => exact signed_round 64 v hv
    | longlong => exact signed_round 64 v hv
    | ulong =>
      simp only [InRange] at hv
      simp only [fromString, stoUnsigned, scan_toStr]
      rw [if_pos (by omega), if_neg (by simp; omega)]
      congr 1; omega
    | ulonglong =>
      simp only [InRange] at hv
      simp only [fromString, stoUnsigned, scan_toStr]
      rw [if_pos (by omega), if_neg (by simp; omega)]
      congr 1; omega
  simp only [attrValue, key]

example : InRange .long (-12345678901) ∧ toStr (-12345678901) = str "-12345678901" := by
  refine ⟨by simp [InRange], by decide +kernel⟩

/-- C93 is violated: an `unsigned int` above the range of `int` is dropped, the default is used without a message. -/
theorem c93_unsigned_violated (v d : Int) (h1 : 2 ^ 31 ≤ v) : attrValue .uint (some (toStr v)) d = d := by
  have : stoSigned 32 (toStr v) = .throw .outOfRange := by
    unfold stoSigned
    rw [scan_toStr]
    have hv : (if decide (v < 0) = true then -(v.natAbs : Int) else (v.natAbs : Int)) = v := by
      rw [if_neg (by simp; omega)]; omega
    simp only [hv]
    rw [if_neg (by omega)]
  simp only [attrValue, fromString, this]
  rfl

example : InRange .uint 4294967295 := by simp [InRange]

/-- C93 is violated: a negative number is taken for an unsigned one. -/
theorem c93_negative_violated (n : Nat) (d : Int) (h0 : 0 < n) (h : n ≤ 2 ^ 31) :
    attrValue .uint (some (toStr (-n))) d = 2 ^ 32 - n ∧ attrValue .ulong (some (toStr (-n))) d = 2 ^ 64 - n := by
  constructor
  · simp only [attrValue, fromString]
    rw [signed_round 32 (-n) (by omega), Res.ok_bind]
    simp only []
    omega
  · simp only [attrValue, fromString, stoUnsigned, scan_toStr]
    rw [if_pos (by omega), if_pos (by simp; omega)]
    simp only []
    omega

/-- C93 is violated: what is written behind a flag does not matter, `--flag false` sets it. -/
theorem c93_flag_violated (s : Str) (d : Int) : attrValue .bool (some s) d = 1 := rfl

/-- C93 is violated: text behind the number is ignored. -/
theorem c93_trailing_violated (v d : Int) (c : Nat) (s : Str) (hc : isDigit c = false) (hv : InRange .int v) :
    attrValue .int (some (toStr v ++ c :: s)) d = v := by
  obtain ⟨h1, h2, h3⟩ := digits_spec v.natAbs
  have hn : ∀ acc, number acc (c :: s) = acc := by intro acc; simp [number, hc]
  have hscan : scan (toStr v ++ c :: s) = some (decide (v < 0), v.natAbs) := by
    unfold toStr
    cases hd : digits v.natAbs with
    | nil => exact absurd hd h3
    | cons x t =>
      have hx := h1 x (by rw [hd]; exact List.mem_cons_self)
      obtain ⟨hs, hm, hp⟩ := digit_not_space x hx
      have hnum : number 0 (x :: (t ++ c :: s)) = v.natAbs := by
        rw [← List.cons_append, ← hd, number_append _ _ _ h1, h2, hn]
      split
      · rename_i hlt
        have hms : isSpace minus = false := by decide
        simp only [scan, List.cons_append, List.dropWhile_cons, hms, Bool.false_eq_true, if_false, if_true, hx, hnum]
        simp [hlt]
      · rename_i hlt
        simp only [scan, List.cons_append, List.dropWhile_cons, hs, Bool.false_eq_true, if_false, hm, hp, hx, if_true, hnum]
        simp [hlt]
  have := signed_round 32 v hv
  unfold stoSigned at this
  rw [scan_toStr] at this
  simp only [attrValue, fromString, stoSigned, hscan, this]

/-! ## Collections of texts -/

theorem wordsAux_word (w s t : Str) (hs : ∀ c ∈ s, isSpace c = false) : wordsAux w (s ++ t) = wordsAux (w ++ s) t := by
  induction s generalizing w with
  | nil => simp
  | cons c s ih =>
    simp only [List.cons_append, wordsAux, hs c List.mem_cons_self, Bool.false_eq_true, if_false]
    rw [ih _ (fun x hx => hs x (List.mem_cons_of_mem _ hx))]
    simp

/-- Whatever the text, the words read have no white space and are not empty. -/
theorem words_form (w s : Str) (hw : ∀ c ∈ w, isSpace c = false) :
    ∀ x ∈ wordsAux w s, x ≠ [] ∧ ∀ c ∈ x, isSpace c = false := by
  induction s generalizing w with
  | nil =>
    intro x hx
    simp only [wordsAux] at hx
    split at hx
    · cases hx
    · simp at hx; subst hx; rename_i h; exact ⟨h, hw⟩
  | cons c s ih =>
    intro x hx
    simp only [wordsAux] at hx
    split at hx
    · split at hx
      · exact ih [] (by simp) x hx
      · rename_i h
        rcases List.mem_cons.1 hx with rfl | hx
        · exact ⟨h, hw⟩
        · exact ih [] (by simp) x hx
    · rename_i h
      refine ih (w ++ [c]) ?_ x hx
      intro y hy
      rcases List.mem_append.1 hy with hy | hy
      · exact hw y hy
      · simp at hy; subst hy; simpa using h

/-- C93: a collection of texts is read back exactly if none of them is empty or has white space in it. -/
theorem c93_words (ws : List Str) :
    words (joinWords ws) = ws ↔ ∀ w ∈ ws, w ≠ [] ∧ ∀ c ∈ w, isSpace c = false := by
  constructor
  · intro h w hw
    rw [← h] at hw
    exact words_form [] _ (by simp) w hw
  · intro h
    induction ws with
    | nil => rfl
    | cons w ws ih =>
      have hw := h w List.mem_cons_self
      have ih := ih (fun x hx => h x (List.mem_cons_of_mem _ hx))
      cases ws with
      | nil =>
        have := wordsAux_word [] w [] hw.2
        simp only [List.append_nil, List.nil_append] at this
        simp only [joinWords, words, this, wordsAux]
        rw [if_neg hw.1]
      | cons v ws =>
        have h1 : joinWords (w :: v :: ws) = w ++ blank :: joinWords (v :: ws) := rfl
        have hb : isSpace blank = true := by decide
        unfold words at ih ⊢
        rw [h1, wordsAux_word [] w _ hw.2]
        simp only [List.nil_append, wordsAux, hb, if_true]
        rw [if_neg hw.1, ih]

example : words (str "  A_Test \t B_Test ") = [str "A_Test", str "B_Test"] := by decide +kernel
example : words (joinWords [str "a b", str "c"]) = [str "a", str "b", str "c"] := by decide +kernel

end Verif.Testing
