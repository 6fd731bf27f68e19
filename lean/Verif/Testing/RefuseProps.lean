import Verif.Testing.AttrProps

/-!
# C93: the texts that are refused, and other ways to write a number

White space is written with its codes here (9 to 13 and 32), digits are 48 to 57, `+` is 43 and `-` is 45.
-/

namespace Verif.Testing

/-- **C93.**  A number that is no value of the type of the attribute is refused: the test sees the default.  Missing: negative numbers for unsigned types, for which it is false
(`c93_negative_violated`), and `bool`. -/
theorem c93_refused_partial (T : Ty) (v d : Int) (hT : T ≠ .bool) (hn : T = .uint ∨ T = .ulong ∨ T = .ulonglong → 0 ≤ v) (hv : ¬ InRange T v) : attrValue T (some (toStr v)) d = d := by
  have sgn : ∀ bits, ¬ (-2 ^ (bits - 1) ≤ v ∧ v < 2 ^ (bits - 1)) → stoSigned bits (toStr v) = .throw .outOfRange := by
    intro bits h
    unfold stoSigned
    rw [scan_toStr]
    have hv : (if decide (v < 0) = true then -(v.natAbs : Int) else (v.natAbs : Int)) = v := by
      by_cases hc : v < 0
      · rw [if_pos (by simpa using hc)]; omega
      · rw [if_neg (by simpa using hc)]; omega
    simp only [hv]
    rw [if_neg h]
  cases T with
  | bool => exact absurd rfl hT
  | int => simp only [attrValue, fromString, sgn 32 hv]
  | uint =>
    have := hn (.inl rfl)
    simp only [InRange] at hv
    exact c93_unsigned_violated v d (by omega)
  | long => simp only [attrValue, fromString, sgn 64 hv]
  | longlong => simp only [attrValue, fromString, sgn 64 hv]
  | ulong =>
    have := hn (.inr (.inl rfl))
    simp only [InRange] at hv
    simp only [attrValue, fromString, stoUnsigned, scan_toStr]
    rw [if_neg (by omega)]
  | ulonglong =>
    have := hn (.inr (.inr rfl))
    simp only [InRange] at hv
    simp only [attrValue, fromString, stoUnsigned, scan_toStr]
    rw [if_neg (by omega)]

theorem attr_scan (T : Ty) (s t : Str) (d : Int) (h : scan s = scan t) : attrValue T (some s) d = attrValue T (some t) d := by
  cases T <;> simp only [attrValue, fromString, stoSigned, stoUnsigned, h]

/-- **C93.**  White space before the number does not matter. -/
theorem c93_blanks (T : Ty) (sp s : Str) (d : Int) (h : ∀ c ∈ sp, c = 32 ∨ c = 9 ∨ c = 10 ∨ c = 11 ∨ c = 12 ∨ c = 13) : attrValue T (some (sp ++ s)) d = attrValue T (some s) d := by
  apply attr_scan
  have : (sp ++ s).dropWhile isSpace = s.dropWhile isSpace := by
    induction sp with
    | nil => rfl
    | cons c sp ih =>
      have hc : isSpace c = true := by
        have := h c List.mem_cons_self
        unfold isSpace
        rw [decide_eq_true_eq]
        omega
      rw [List.cons_append, List.dropWhile_cons, if_pos hc]
      exact ih fun c hc => h c (List.mem_cons_of_mem _ hc)
  simp only [scan, this]

/-- **C93.**  A plus sign before a number that is not negative does not matter. -/
theorem c93_plus (T : Ty) (v d : Int) (hv : 0 ≤ v) : attrValue T (some (43 :: toStr v)) d = attrValue T (some (toStr v)) d := by
  apply attr_scan
  rw [scan_toStr]
  obtain ⟨h1, h2, h3⟩ := digits_spec v.natAbs
  unfold toStr
  rw [if_neg (by omega)]
  cases hd : digits v.natAbs with
  | nil => exact absurd hd h3
  | cons c t =>
    have hc := h1 c (by rw [hd]; exact List.mem_cons_self)
    have hp : isSpace 43 = false := by decide
    simp only [scan, List.dropWhile_cons, hp, Bool.false_eq_true, if_false, minus, plus, if_true, hc, show ¬ (43 = 45) from by decide]
    rw [← hd, h2]
    have : ¬ v < 0 := by omega
    simp [this]

/-- **C93.**  A text that is empty or white space, or begins with neither a digit nor a sign, or whose sign is not followed by a digit, is refused: the test sees the default. -/
theorem c93_no_number (T : Ty) (sp sign s : Str) (d : Int) (hT : T ≠ .bool) (hsp : ∀ c ∈ sp, c = 32 ∨ c = 9 ∨ c = 10 ∨ c = 11 ∨ c = 12 ∨ c = 13)
    (hsign : sign = [] ∧ (∀ c ∈ s.head?, ¬ (c = 32 ∨ (9 ≤ c ∧ c ≤ 13)) ∧ c ≠ 43 ∧ c ≠ 45) ∨ sign = [43] ∨ sign = [45])
    (hs : ∀ c ∈ s.head?, ¬ (48 ≤ c ∧ c ≤ 57)) : attrValue T (some (sp ++ (sign ++ s))) d = d := by
  rw [c93_blanks T sp _ d hsp]
  have hnd : ∀ c t, s = c :: t → isDigit c = false := by
    intro c t e
    have := hs c (by rw [e]; rfl)
    unfold isDigit zero
    rw [decide_eq_false_iff_not]
    exact this
  have key : scan (sign ++ s) = none := by
    rcases hsign with ⟨e, h⟩ | e | e
    · subst e
      cases s with
      | nil => rfl
      | cons c t =>
        obtain ⟨h1, h2, h3⟩ := h c rfl
        have hsp : isSpace c = false := by
          unfold isSpace; rw [decide_eq_false_iff_not]; exact h1
        have hd := hnd c t rfl
        simp only [scan, List.nil_append, List.dropWhile_cons, hsp, Bool.false_eq_true, if_false, minus, plus, h2, h3, hd]
    · subst e
      have hp : isSpace 43 = false := by decide
      cases s with
      | nil => rfl
      | cons c t =>
        have hd := hnd c t rfl
        simp only [scan, List.cons_append, List.nil_append, List.dropWhile_cons, hp, Bool.false_eq_true, if_false, minus, plus, if_true, show ¬ (43 = 45) from by decide, hd]
    · subst e
      have hp : isSpace 45 = false := by decide
      cases s with
      | nil => rfl
      | cons c t =>
        have hd := hnd c t rfl
        simp only [scan, List.cons_append, List.nil_append, List.dropWhile_cons, hp, Bool.false_eq_true, if_false, minus, if_true, hd]
  cases T <;> first | exact absurd rfl hT | simp only [attrValue, fromString, stoSigned, stoUnsigned, key, Res.throw_bind]

example : ¬ InRange .ulong 18446744073709551616 ∧ toStr 18446744073709551616 = str "18446744073709551616" ∧ ¬ InRange .int (-2147483649) := by
  refine ⟨by simp [InRange], by decide +kernel, by simp [InRange]⟩

/-- `" \t+42"` is 42, `" -x"` is refused. -/
example : attrValue .int (some ([32, 9] ++ 43 :: toStr 42)) 7 = 42 ∧ attrValue .int (some ([32] ++ ([45] ++ [120]))) 7 = 7 := by
  refine ⟨?_, c93_no_number _ _ _ _ _ (by decide) (by decide) (by decide) (by decide)⟩
  rw [c93_blanks _ _ _ _ (by decide), c93_plus _ _ _ (by decide), c93_scalar_partial _ _ _ (by decide) (by decide) (by simp [InRange])]

end Verif.Testing
