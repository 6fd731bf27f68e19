import Verif.Text.EnumMsgModel
import Verif.Text.Props

/-!
# C189: the messages about wrong enumerators
-/

namespace Verif.Text.EnumMsg

open Verif.Text

/-- `t` is the number `n` in decimal digits. -/
def Decimal (t : Str) (n : Nat) : Prop := t ≠ [] ∧ (∀ c ∈ t, 48 ≤ c ∧ c ≤ 57) ∧ t.foldl (fun a c => 10 * a + (c - 48)) 0 = n

/-- An identifier: no blank and no zero. -/
def Name (x : Str) : Prop := ∀ c ∈ x, c ≠ 32 ∧ c ≠ 0

/-- `Wrong NAME enum index: ` -/
def beforeIndex (name : Str) : Str := [87, 114, 111, 110, 103, 32] ++ name ++ [32, 101, 110, 117, 109, 32, 105, 110, 100, 101, 120, 58, 32]
/-- `Wrong NAME enum value: ` -/
def beforeValue (name : Str) : Str := [87, 114, 111, 110, 103, 32] ++ name ++ [32, 101, 110, 117, 109, 32, 118, 97, 108, 117, 101, 58, 32]
/-- `Wrong NAME enum name: ` -/
def beforeName (name : Str) : Str := [87, 114, 111, 110, 103, 32] ++ name ++ [32, 101, 110, 117, 109, 32, 110, 97, 109, 101, 58, 32]

theorem what_eq {s : Str} (h : ∀ c ∈ s, c ≠ 0) : what s = s := by
  induction s with
  | nil => rfl
  | cons c s ih =>
    have hc := h c List.mem_cons_self
    unfold what at ih ⊢
    rw [List.takeWhile_cons, if_pos (by simpa using hc), ih fun c hc => h c (List.mem_cons_of_mem _ hc)]

theorem index_text {name : Str} (hn : Name name) {v : Nat} (hv : v ≠ 0) : wrongIndex name v = beforeIndex name ++ [v] := by
  unfold wrongIndex
  rw [what_eq]
  · rfl
  · intro c hc
    simp only [wrong, indexIs, putU8, List.mem_append] at hc
    rcases hc with ((hc | hc) | hc) | hc
    · rintro rfl; simp at hc
    · exact (hn c hc).2
    · rintro rfl; simp at hc
    · simp at hc; omega

theorem value_text {name : Str} (hn : Name name) {v : Nat} (hv : v ≠ 0) : wrongValue name v = beforeValue name ++ [v] := by
  unfold wrongValue
  rw [what_eq]
  · rfl
  · intro c hc
    simp only [wrong, valueIs, putU8, List.mem_append] at hc
    rcases hc with ((hc | hc) | hc) | hc
    · rintro rfl; simp at hc
    · exact (hn c hc).2
    · rintro rfl; simp at hc
    · simp at hc; omega

theorem putInt_decimal (n : Nat) : Decimal (putInt n) n := by
  induction n using Nat.strongRecOn with
  | ind n ih =>
    unfold putInt
    split
    · refine ⟨by simp, by intro c hc; simp at hc; omega, by simp⟩
    · obtain ⟨_, h2, h3⟩ := ih (n / 10) (by omega)
      refine ⟨by simp, ?_, ?_⟩
      · intro c hc
        rcases List.mem_append.1 hc with hc | hc
        · exact h2 c hc
        · simp at hc; omega
      · rw [List.foldl_append, h3]
        simp
        omega

/-- **C189.**  The three functions accept the same indexes, those of the enumerators; otherwise the message of the exception begins with the name of the enumeration. -/
theorem c189_refused (name : Str) (hn : Name name) (e : Enum) (he : 0 < e.count) (v : Nat) :
    (v < e.count → index name e v = .ok v ∧ validate name e v = .ok () ∧ ∀ wide, validateIo wide name e v = .ok ()) ∧
    (e.count ≤ v → (∃ t, index name e v = .error (beforeIndex name ++ t)) ∧ (∃ t, validate name e v = .error (beforeValue name ++ t)) ∧
      ∀ wide, ∃ t, validateIo wide name e v = .error (beforeIndex name ++ t)) := by
  constructor
  · intro h
    simp only [index, validate, validateIo, if_neg (Nat.not_le.2 h), implies_true, and_self]
  · intro h
    simp only [index, validate, validateIo, if_pos h, index_text hn (show v ≠ 0 by omega), value_text hn (show v ≠ 0 by omega)]
    exact ⟨⟨_, rfl⟩, ⟨_, rfl⟩, fun _ => ⟨_, rfl⟩⟩

/-- **C189.**  The message tells the enumeration and the index: two that differ have different messages. -/
theorem c189_tells (name name' : Str) (hn : Name name) (hn' : Name name') (e e' : Enum) (he : 0 < e.count) (he' : 0 < e'.count) (v v' : Nat) (m : Str)
    (h : index name e v = .error m) (h' : index name' e' v' = .error m) : name = name' ∧ v = v' := by
  have hv : e.count ≤ v := by
    apply Classical.byContradiction
    intro hc
    simp only [index, if_neg hc] at h
    cases h
  have hv' : e'.count ≤ v' := by
    apply Classical.byContradiction
    intro hc
    simp only [index, if_neg hc] at h'
    cases h'
  simp only [index, if_pos hv] at h
  simp only [index, if_pos hv'] at h'
  rw [← h] at h'
  injection h' with h'
  rw [index_text hn (by omega), index_text hn' (by omega)] at h'
  obtain ⟨h4, h5⟩ := List.append_inj' h' rfl
  unfold beforeIndex at h4
  have h6 := (List.append_inj' h4 rfl).1
  exact ⟨(List.append_cancel_left h6).symm, by simpa using h5.symm⟩

/-- **C189.**  Programs with wide characters show the number of a wrong enumerator that is read or written. -/
theorem c189_wide (name : Str) (e : Enum) (v : Nat) (h : e.count ≤ v) : ∃ t, Decimal t v ∧ validateIo true name e v = .error (beforeIndex name ++ t) := by
  refine ⟨_, putInt_decimal v, ?_⟩
  simp only [validateIo, if_pos h]
  rfl

/-- **C189 is violated** for every wrong index, but in programs with wide characters for enumerators that are read or written: what is shown is the character with this code, and never
the number. -/
theorem c189_number_violated (name : Str) (hn : Name name) (e : Enum) (he : 0 < e.count) (v : Nat) (h : e.count ≤ v) :
    (¬ ∃ t, Decimal t v ∧ index name e v = .error (beforeIndex name ++ t)) ∧ (¬ ∃ t, Decimal t v ∧ validate name e v = .error (beforeValue name ++ t)) ∧
    ¬ ∃ t, Decimal t v ∧ validateIo false name e v = .error (beforeIndex name ++ t) := by
  have no : ∀ t, Decimal t v → [v] = t → False := by
    rintro t ⟨_, h2, h3⟩ rfl
    have := h2 v List.mem_cons_self
    simp at h3
    omega
  refine ⟨?_, ?_, ?_⟩ <;> rintro ⟨t, ht, e⟩
  · simp only [index, if_pos h, index_text hn (show v ≠ 0 by omega), Except.error.injEq] at e
    exact no t ht (List.append_cancel_left e)
  · simp only [validate, if_pos h, value_text hn (show v ≠ 0 by omega), Except.error.injEq] at e
    exact no t ht (List.append_cancel_left e)
  · simp only [validateIo, if_pos h, Except.error.injEq] at e
    exact no t ht (List.append_cancel_left (as := beforeIndex name) e)

/-- **C189 is violated**: ten of the wrong indexes are shown as other numbers; 53 is shown as 5, which may even be the index of an enumerator. -/
theorem c189_other_number_violated (name : Str) (hn : Name name) (e : Enum) (d : Nat) (hd : d < 10) (h : e.count ≤ 48 + d) :
    ∃ t, Decimal t d ∧ index name e (48 + d) = .error (beforeIndex name ++ t) := by
  refine ⟨[48 + d], ⟨by simp, by intro c hc; simp at hc; omega, by simp⟩, ?_⟩
  simp only [index, if_pos h, index_text hn (show 48 + d ≠ 0 by omega)]

theorem fromString_error (equal : Str → Str → Bool) (name s : Str) (names : List Str) (i : Nat) (h : ∀ n ∈ names, equal n s = false) :
    fromString equal name s names i = .error (what (wrong ++ name ++ nameIs ++ s)) := by
  induction names generalizing i with
  | nil => rfl
  | cons n names ih =>
    simp only [fromString, h n List.mem_cons_self, Bool.false_eq_true, if_false]
    exact ih _ fun n hn => h n (List.mem_cons_of_mem _ hn)

theorem name_what {name s : Str} (hn : Name name) (hs : ∀ c ∈ s, c ≠ 0) : what (wrong ++ name ++ nameIs ++ s) = wrong ++ name ++ nameIs ++ s := by
  apply what_eq
  intro c hc
  simp only [wrong, nameIs, List.mem_append] at hc
  rcases hc with ((hc | hc) | hc) | hc
  · rintro rfl; simp at hc
  · exact (hn c hc).2
  · rintro rfl; simp at hc
  · exact hs c hc

theorem blank_split {a b s t : Str} (ha : ∀ c ∈ a, c ≠ 32) (hb : ∀ c ∈ b, c ≠ 32) (h : a ++ 32 :: s = b ++ 32 :: t) : a = b ∧ s = t := by
  induction a generalizing b with
  | nil =>
    cases b with
    | nil => exact ⟨rfl, by simpa using h⟩
    | cons y b => exact absurd (by simpa using (List.cons.inj h).1.symm) (hb y List.mem_cons_self)
  | cons x a ih =>
    cases b with
    | nil => exact absurd (by simpa using (List.cons.inj h).1) (ha x List.mem_cons_self)
    | cons y b =>
      obtain ⟨h1, h2⟩ := List.cons.inj h
      obtain ⟨h3, h4⟩ := ih (fun c hc => ha c (List.mem_cons_of_mem _ hc)) (fun c hc => hb c (List.mem_cons_of_mem _ hc)) h2
      exact ⟨by rw [h1, h3], h4⟩

/-- **C189.**  The message about a text that is the name of no enumerator tells the enumeration and the text, if there is no zero in it. -/
theorem c189_name_tells (equal equal' : Str → Str → Bool) (name name' s s' : Str) (hn : Name name) (hn' : Name name') (hs : ∀ c ∈ s, c ≠ 0) (hs' : ∀ c ∈ s', c ≠ 0) (names names' : List Str)
    (h : ∀ n ∈ names, equal n s = false) (h' : ∀ n ∈ names', equal' n s' = false) (m : Str)
    (hm : fromString equal name s names 0 = .error m) (hm' : fromString equal' name' s' names' 0 = .error m) : name = name' ∧ s = s' := by
  rw [fromString_error _ _ _ _ _ h, name_what hn hs] at hm
  rw [fromString_error _ _ _ _ _ h', name_what hn' hs'] at hm'
  injection hm with hm
  injection hm' with hm'
  rw [← hm'] at hm
  simp only [List.append_assoc] at hm
  have hm := List.append_cancel_left hm
  have e : ∀ a b : Str, a ++ (nameIs ++ b) = (a ++ [101, 110, 117, 109]) ++ 32 :: ([110, 97, 109, 101, 58, 32] ++ b) := by intro a b; simp [nameIs]
  rw [e, e] at hm
  have ok : ∀ x, Name x → ∀ c ∈ x ++ [101, 110, 117, 109], c ≠ 32 := by
    intro x hx c hc
    rcases List.mem_append.1 hc with hc | hc
    · exact (hx c hc).1
    · rintro rfl; simp at hc
  obtain ⟨h1, h2⟩ := blank_split (ok name hn) (ok name' hn') hm
  exact ⟨List.append_cancel_right h1, List.append_cancel_left h2⟩

/-- **C189 is violated**: the name of the enumeration is not a word of that message, there is no blank behind it. -/
theorem c189_blank_violated (equal : Str → Str → Bool) (name s : Str) (hn : Name name) (hs : ∀ c ∈ s, c ≠ 0) (names : List Str) (h : ∀ n ∈ names, equal n s = false) :
    ∃ m, fromString equal name s names 0 = .error m ∧ m ≠ beforeName name ++ s ∧ ∀ t, m ≠ [87, 114, 111, 110, 103, 32] ++ name ++ 32 :: t := by
  refine ⟨_, fromString_error _ _ _ _ _ h, ?_⟩
  rw [name_what hn hs]
  have key : ∀ t, wrong ++ name ++ nameIs ++ s ≠ [87, 114, 111, 110, 103, 32] ++ name ++ 32 :: t := by
    intro t e
    unfold wrong at e
    rw [List.append_assoc] at e
    have e := List.append_cancel_left e
    simp [nameIs] at e
  refine ⟨fun e => key ([101, 110, 117, 109, 32, 110, 97, 109, 101, 58, 32] ++ s) ?_, key⟩
  rw [e]
  simp [beforeName]

/-- **C189.**  The functions throw in the cases of C50, and return the same otherwise. -/
theorem c189_same (name : Str) (e : Enum) (v : Nat) (s : Str) :
    (index name e v = .ok v ↔ toIndex e v = .ok v) ∧ (∀ r, fromString equal name s e.names 0 = .ok r ↔ Text.fromString e s = .ok r) := by
  constructor
  · unfold index toIndex
    split <;> simp
  · intro r
    unfold Text.fromString
    generalize (0 : Nat) = i
    induction e.names generalizing i with
    | nil => simp [fromString, fromStringLoop]
    | cons n names ih =>
      simp only [fromString, fromStringLoop]
      split
      · simp
      · exact ih _

/-- `Color` with three enumerators: index 53 is reported as `Wrong Color enum index: 5`, and the text `x` as `Wrong Colorenum name: x`. -/
example : Name [67, 111, 108, 111, 114] ∧ index [67, 111, 108, 111, 114] ⟨3, [[97], [98], [99]]⟩ 53 = .error (beforeIndex [67, 111, 108, 111, 114] ++ [53]) ∧
    validateIo true [67, 111, 108, 111, 114] ⟨3, [[97], [98], [99]]⟩ 53 = .error (beforeIndex [67, 111, 108, 111, 114] ++ [53, 51]) ∧
    fromString equal [67, 111, 108, 111, 114] [120] [[97], [98], [99]] 0 = .error ([87, 114, 111, 110, 103, 32, 67, 111, 108, 111, 114] ++ [101, 110, 117, 109, 32, 110, 97, 109, 101, 58, 32] ++ [120]) := by
  refine ⟨by unfold Name; decide, rfl, ?_, rfl⟩
  simp [validateIo, putU8, putInt, beforeIndex, wrong, indexIs]

end Verif.Text.EnumMsg
