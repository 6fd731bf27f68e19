import Verif.Testing.ListModel
import Verif.Testing.AttrProps
import Mathlib.Data.List.Forall2

/-! # C155: collections as values of attributes -/

namespace Verif.Testing

/-- The values of a type. -/
def Elem.Has : Elem → Int → Prop
  | .signed bits, v => -2 ^ (bits - 1) ≤ v ∧ v < 2 ^ (bits - 1)
  | .unsigned bits, v => 0 ≤ v ∧ v < 2 ^ bits
  | .character, v => 0 ≤ v

/-- The text is the number: digits, with a minus if it is negative, a plus is allowed if it is not. -/
def IsNumber (w : Str) (v : Int) : Prop :=
  ∃ ds : Str, ds ≠ [] ∧ (∀ c ∈ ds, isDigit c = true) ∧ number 0 ds = v.natAbs ∧
    (v < 0 ∧ w = minus :: ds ∨ 0 ≤ v ∧ (w = ds ∨ w = plus :: ds))

/-- Characters as values. -/
def codes (cs : List Nat) : List Int := cs.map Int.ofNat

def notSpace (c : Nat) : Bool := !isSpace c

theorem wordsAux_take (w s : Str) (hw : w ≠ []) :
    wordsAux w s = (w ++ s.takeWhile notSpace) :: wordsAux [] (s.dropWhile notSpace) := by
  induction s generalizing w with
  | nil => simp [wordsAux, hw]
  | cons c s ih =>
    by_cases h : isSpace c = true
    · have hn : notSpace c = false := by simp [notSpace, h]
      simp only [wordsAux, h, if_true, List.takeWhile_cons, List.dropWhile_cons, hn, Bool.false_eq_true, if_false, List.append_nil]
      simp [hw]
    · have h : isSpace c = false := by simpa using h
      have hn : notSpace c = true := by simp [notSpace, h]
      simp only [wordsAux, h, Bool.false_eq_true, if_false, List.takeWhile_cons, List.dropWhile_cons, hn, if_true]
      rw [ih (w ++ [c]) (by simp)]
      simp

theorem words_skip (s : Str) : words s = words (s.dropWhile isSpace) := by
  induction s with
  | nil => rfl
  | cons c s ih =>
    by_cases h : isSpace c = true
    · rw [List.dropWhile_cons, if_pos h, ← ih]; simp [words, wordsAux, h]
    · rw [List.dropWhile_cons, if_neg h]

/-- How a text begins that has words. -/
theorem words_cons (s : Str) :
    (s.dropWhile isSpace = [] ∧ words s = []) ∨
    ∃ c t, s.dropWhile isSpace = c :: t ∧ isSpace c = false ∧
      words s = (c :: t.takeWhile notSpace) :: words (t.dropWhile notSpace) := by
  cases h : s.dropWhile isSpace with
  | nil => left; exact ⟨rfl, by rw [words_skip, h]; rfl⟩
  | cons c t =>
    have hc : isSpace c = false := by
      have := List.head?_dropWhile_not (p := isSpace) (l := s)
      rw [h] at this; simpa using this
    right
    refine ⟨c, t, rfl, hc, ?_⟩
    rw [words_skip, h]
    show wordsAux [] (c :: t) = _
    simp only [wordsAux, hc, Bool.false_eq_true, if_false, List.nil_append]
    rw [wordsAux_take [c] t (by simp)]; rfl

theorem number_stop (acc : Nat) (c : Nat) (s : Str) (h : isDigit c = false) : number acc (c :: s) = acc := by simp [number, h]

/-- Digits, then something else. -/
theorem take_digits (ds r : Str) (h : ∀ c ∈ ds, isDigit c = true) (hr : ∀ c ∈ r.head?, isDigit c = false) :
    (ds ++ r).dropWhile isDigit = r ∧ ∀ acc, number acc (ds ++ r) = number acc ds := by
  induction ds with
  | nil =>
    cases r with
    | nil => exact ⟨rfl, fun _ => rfl⟩
    | cons c r =>
      have hc : isDigit c = false := hr c rfl
      refine ⟨by rw [List.nil_append, List.dropWhile_cons, if_neg (by simp [hc])], fun acc => ?_⟩
      rw [List.nil_append, number_stop acc c r hc]; rfl
  | cons d ds ih =>
    have hd := h d List.mem_cons_self
    obtain ⟨h1, h2⟩ := ih (fun c hc => h c (List.mem_cons_of_mem _ hc))
    refine ⟨by rw [List.cons_append, List.dropWhile_cons, if_pos hd]; exact h1, fun acc => ?_⟩
    simp only [List.cons_append, number, hd, if_true]
    exact h2 _

/-- A number in front of a text that does not go on with a digit. -/
theorem get_number (T : Elem) (hT : T ≠ .character) (w r : Str) (v : Int) (hw : IsNumber w v) (hr : ∀ c ∈ r.head?, isDigit c = false)
    (s : Str) (hs : s.dropWhile isSpace = w ++ r) :
    (T.Has v → getElem T s = some (v, r)) ∧ (¬ T.Has v → 0 ≤ v ∨ (∃ b, T = .signed b) → getElem T s = none) := by
  obtain ⟨ds, hne, hd, hn, hv⟩ := hw
  cases ds with
  | nil => exact absurd rfl hne
  | cons d ds =>
    have hdd := hd d List.mem_cons_self
    obtain ⟨_, hm, hp⟩ := digit_not_space d hdd
    obtain ⟨e1, e2⟩ := take_digits (d :: ds) r hd hr
    have key : takeSign (s.dropWhile isSpace) = (decide (v < 0), d :: ds ++ r) := by
      rw [hs]
      rcases hv with ⟨h1, rfl⟩ | ⟨h1, rfl | rfl⟩
      · simp [takeSign, h1]
      · have : ¬ v < 0 := by omega
        simp [takeSign, hm, hp, this]
      · have : ¬ v < 0 := by omega
        simp [takeSign, plus, minus, this]
    have hg : getElem T s = getNumber T s := by rw [getElem, if_neg hT]
    rw [hg]
    unfold getNumber
    rw [key]
    simp only [List.cons_append, hdd, if_true]
    rw [← List.cons_append, e1, e2, hn]
    cases T with
    | character => exact absurd rfl hT
    | signed b =>
      have hvv : (if decide (v < 0) = true then -(v.natAbs : Int) else (v.natAbs : Int)) = v := by
        by_cases hc : v < 0
        · rw [if_pos (by simpa using hc)]; omega
        · rw [if_neg (by simpa using hc)]; omega
      simp only [hvv]
      exact ⟨fun h => if_pos h, fun h _ => if_neg h⟩
    | unsigned b =>
      simp only [Elem.Has]
      refine ⟨fun h => ?_, fun h h' => ?_⟩
      · have h3 : ((v.natAbs : Int)) = v := by omega
        have h4 : v.natAbs < 2 ^ b := by
          have := h.2; rw [← h3] at this; exact_mod_cast this
        rw [if_pos h4, if_neg (by simp; omega), h3]
      · have h0 : 0 ≤ v := by
          rcases h' with h' | ⟨b, h'⟩
          · exact h'
          · cases h'
        have h4 : ¬ v.natAbs < 2 ^ b := by
          intro h4
          apply h
          refine ⟨h0, ?_⟩
          have h3 : ((v.natAbs : Int)) = v := by omega
          rw [← h3]; exact_mod_cast h4
        rw [if_neg h4]

theorem space_not_digit (c : Nat) (h : isSpace c = true) : isDigit c = false := by
  cases hd : isDigit c with
  | false => rfl
  | true => rw [(digit_not_space c hd).1] at h; cases h

theorem head_dropWhile (t : Str) : ∀ c ∈ (t.dropWhile notSpace).head?, isDigit c = false := by
  intro c hc
  have := List.head?_dropWhile_not (p := notSpace) (l := t)
  cases h : (t.dropWhile notSpace).head? with
  | none => rw [h] at hc; cases hc
  | some x =>
    rw [h] at hc this
    simp only [Option.mem_def, Option.some.injEq] at hc
    subst hc
    exact space_not_digit _ (by simpa [notSpace] using this)

theorem getElems_words (T : Elem) (hT : T ≠ .character) (vs : List Int) (n : Nat) (s : Str) (hn : s.length < n)
    (hw : List.Forall₂ (fun w v => IsNumber w v ∧ T.Has v) (words s) vs) : getElems T n s = vs := by
  induction n generalizing s vs with
  | zero => omega
  | succ n ih =>
    rw [getElems]
    rcases words_cons s with ⟨h1, h2⟩ | ⟨c, t, h1, hc, h2⟩
    · rw [h2] at hw; cases hw
      have : getElem T s = none := by
        rw [getElem, if_neg hT]; unfold getNumber; rw [h1]; rfl
      rw [this]
    · rw [h2] at hw
      cases hw with
      | cons hv hvs =>
        rename_i v vs
        have hsplit : s.dropWhile isSpace = (c :: t.takeWhile notSpace) ++ t.dropWhile notSpace := by
          rw [h1, List.cons_append, List.takeWhile_append_dropWhile]
        rw [((get_number T hT _ _ v hv.1 (head_dropWhile t) s hsplit).1 hv.2)]
        simp only []
        rw [ih _ _ ?_ hvs]
        have hlen : (s.dropWhile isSpace).length ≤ s.length := (List.dropWhile_suffix isSpace).length_le
        have hlen2 : (t.dropWhile notSpace).length ≤ t.length := (List.dropWhile_suffix notSpace).length_le
        rw [h1, List.length_cons] at hlen
        omega

/-- Numbers with white space of any kind and length between them are read, in order, if they are values of the type. -/
theorem c155_numbers_given (T : Elem) (hT : T ≠ .character) (s : Str) (vs : List Int)
    (hw : List.Forall₂ (fun w v => IsNumber w v ∧ T.Has v) (words s) vs) : listFromText T s = vs :=
  getElems_words T hT vs _ s (by omega) hw

theorem toStr_number (v : Int) : IsNumber (toStr v) v := by
  obtain ⟨h1, h2, h3⟩ := digits_spec v.natAbs
  refine ⟨digits v.natAbs, h3, h1, h2, ?_⟩
  by_cases h : v < 0
  · exact .inl ⟨h, by rw [toStr, if_pos h]⟩
  · exact .inr ⟨by omega, .inl (by rw [toStr, if_neg h])⟩

theorem number_word (w : Str) (v : Int) (h : IsNumber w v) : w ≠ [] ∧ ∀ c ∈ w, isSpace c = false := by
  obtain ⟨ds, hne, hd, _, hv⟩ := h
  have hds : ∀ c ∈ ds, isSpace c = false := fun c hc => (digit_not_space c (hd c hc)).1
  rcases hv with ⟨_, rfl⟩ | ⟨_, rfl | rfl⟩
  · refine ⟨by simp, fun c hc => ?_⟩
    rcases List.mem_cons.1 hc with rfl | hc
    · decide
    · exact hds c hc
  · exact ⟨hne, hds⟩
  · refine ⟨by simp, fun c hc => ?_⟩
    rcases List.mem_cons.1 hc with rfl | hc
    · decide
    · exact hds c hc

/-- What is written is read back. -/
theorem c155_numbers (T : Elem) (hT : T ≠ .character) (vs : List Int) (hv : ∀ v ∈ vs, T.Has v) :
    listFromText T (listToText T vs) = vs := by
  have hput : vs.map (putElem T) = vs.map toStr := by
    refine List.map_congr_left (fun v _ => ?_)
    cases T with
    | character => exact absurd rfl hT
    | signed b => rfl
    | unsigned b => rfl
  apply c155_numbers_given T hT
  rw [listToText, hput, (c93_words (vs.map toStr)).2 (by
    intro w hw
    obtain ⟨v, _, rfl⟩ := List.mem_map.1 hw
    exact number_word _ v (toStr_number v))]
  clear hput
  induction vs with
  | nil => exact .nil
  | cons v vs ih =>
    exact .cons ⟨toStr_number v, hv v List.mem_cons_self⟩ (ih (fun v h => hv v (List.mem_cons_of_mem _ h)))

/-- The characters that are not white space. -/
theorem getElems_chars (n : Nat) (s : Str) (hn : s.length < n) :
    getElems .character n s = codes (s.filter notSpace) := by
  induction n generalizing s with
  | zero => omega
  | succ n ih =>
    have hf : ∀ s : Str, s.filter notSpace = (s.dropWhile isSpace).filter notSpace := by
      intro s
      induction s with
      | nil => rfl
      | cons c s ih' =>
        by_cases h : isSpace c = true
        · rw [List.dropWhile_cons, if_pos h, ← ih', List.filter_cons, if_neg (by simp [notSpace, h])]
        · rw [List.dropWhile_cons, if_neg h]
    rw [getElems, getElem, if_pos rfl, hf s]
    have hlen : (s.dropWhile isSpace).length ≤ s.length := (List.dropWhile_suffix isSpace).length_le
    have hns := List.head?_dropWhile_not (p := isSpace) (l := s)
    cases h : s.dropWhile isSpace with
    | nil => rfl
    | cons c t =>
      rw [h] at hns hlen
      have hc : isSpace c = false := by simpa using hns
      rw [List.length_cons] at hlen
      simp only []
      rw [ih t (by omega), List.filter_cons, if_pos (by simp [notSpace, hc])]
      rfl

theorem filter_join (ws : List Str) : (joinWords ws).filter notSpace = ws.flatten.filter notSpace := by
  induction ws with
  | nil => rfl
  | cons w ws ih =>
    cases ws with
    | nil => simp [joinWords]
    | cons v ws =>
      have hb : notSpace blank = false := by decide
      have h1 : joinWords (w :: v :: ws) = w ++ blank :: joinWords (v :: ws) := rfl
      rw [h1, List.filter_append, List.filter_cons, if_neg (by simp [hb]), ih,
        List.flatten_cons (l := w), List.filter_append]

/-- A collection of characters, bytes are such, is read back exactly if none of them is white space: the others are lost. -/
theorem c155_characters_partial (cs : List Nat) :
    listFromText .character (listToText .character (codes cs)) =
      codes (cs.filter notSpace) := by
  have hflat : ((codes cs).map (putElem .character)).flatten = cs := by
    induction cs with
    | nil => rfl
    | cons c cs ih =>
      rw [codes, List.map_cons, List.map_cons, List.flatten_cons]
      exact congrArg (c :: ·) ih
  rw [listFromText, getElems_chars _ _ (by omega), listToText, filter_join, hflat]

theorem c155_characters_violated (cs : List Nat) (c : Nat) (hc : c ∈ cs) (hs : isSpace c = true) :
    listFromText .character (listToText .character (codes cs)) ≠ codes cs := by
  rw [c155_characters_partial]
  intro e
  have h1 := congrArg List.length e
  rw [codes, codes, List.length_map, List.length_map] at h1
  have h2 := List.length_filter_eq_length_iff.1 h1 c hc
  simp [notSpace, hs] at h2

/-- The text of numbers and something behind it that is no number: the numbers are taken, what is behind is dropped without a
message. -/
theorem getElems_stop (T : Elem) (hT : T ≠ .character) (vs : List Int) (hv : ∀ v ∈ vs, T.Has v) (bad : Str)
    (hb : getElem T (blank :: bad) = none) (hb' : getElem T bad = none) (n : Nat)
    (hn : (joinWords (vs.map toStr ++ [bad])).length < n) : getElems T n (joinWords (vs.map toStr ++ [bad])) = vs ∧
      getElems T (n + 1) (blank :: joinWords (vs.map toStr ++ [bad])) = vs := by
  induction vs generalizing n with
  | nil =>
    cases n with
    | zero => simp at hn
    | succ n =>
      simp only [List.map_nil, List.nil_append, joinWords, getElems, hb, hb']
      exact ⟨trivial, trivial⟩
  | cons v vs ih =>
    have hvv := hv v List.mem_cons_self
    have hjoin : joinWords ((v :: vs).map toStr ++ [bad]) = toStr v ++ blank :: joinWords (vs.map toStr ++ [bad]) := by
      cases vs <;> rfl
    rw [hjoin] at hn ⊢
    obtain ⟨hne, hns⟩ := number_word _ v (toStr_number v)
    have hskip : (toStr v ++ blank :: joinWords (vs.map toStr ++ [bad])).dropWhile isSpace =
        toStr v ++ blank :: joinWords (vs.map toStr ++ [bad]) := by
      cases hs : toStr v with
      | nil => exact absurd hs hne
      | cons c t =>
        rw [List.cons_append, List.dropWhile_cons, if_neg]
        rw [hns c (by rw [hs]; exact List.mem_cons_self)]; simp
    have hd : ∀ c ∈ (blank :: joinWords (vs.map toStr ++ [bad])).head?, isDigit c = false := by
      intro c hc; cases hc; decide
    have g1 := (get_number T hT _ _ v (toStr_number v) hd _ hskip).1 hvv
    have hskip2 : (blank :: (toStr v ++ blank :: joinWords (vs.map toStr ++ [bad]))).dropWhile isSpace =
        toStr v ++ blank :: joinWords (vs.map toStr ++ [bad]) := by
      rw [List.dropWhile_cons, if_pos (by decide), hskip]
    have g2 := (get_number T hT _ _ v (toStr_number v) hd _ hskip2).1 hvv
    have hlen : 0 < (toStr v).length := List.length_pos_iff.2 hne
    rw [List.length_append, List.length_cons] at hn
    obtain ⟨m, rfl⟩ : ∃ m, n = m + 2 := ⟨n - 2, by omega⟩
    have ih1 := (ih (fun v h => hv v (List.mem_cons_of_mem _ h)) (n := m) (by omega)).2
    have ih2 := (ih (fun v h => hv v (List.mem_cons_of_mem _ h)) (n := m + 1) (by omega)).2
    constructor
    · rw [getElems, g1]; simp only []; rw [ih1]
    · rw [getElems, g2]; simp only []; rw [ih2]

theorem c155_garbage_violated (T : Elem) (hT : T ≠ .character) (vs : List Int) (hv : ∀ v ∈ vs, T.Has v) (c : Nat) (rest : Str)
    (h1 : isDigit c = false) (h2 : isSpace c = false) (h3 : c ≠ minus) (h4 : c ≠ plus) :
    listFromText T (joinWords (vs.map toStr ++ [c :: rest])) = vs := by
  have hb : ∀ s, s.dropWhile isSpace = c :: rest → getElem T s = none := by
    intro s hs
    rw [getElem, if_neg hT]
    unfold getNumber
    rw [hs]
    simp [takeSign, h3, h4, h1]
  refine (getElems_stop T hT vs hv (c :: rest) (hb _ ?_) (hb _ ?_) _ (by omega)).1
  · rw [List.dropWhile_cons, if_pos (by decide), List.dropWhile_cons, if_neg (by simp [h2])]
  · rw [List.dropWhile_cons, if_neg (by simp [h2])]

/-- The same for a number that is out of range, and the numbers behind it. -/
theorem c155_range_violated (T : Elem) (hT : T ≠ .character) (vs ws : List Int) (hv : ∀ v ∈ vs, T.Has v) (v : Int)
    (h0 : 0 ≤ v ∨ ∃ b, T = .signed b) (hl : ¬ T.Has v) : listFromText T (listToText T (vs ++ v :: ws)) = vs := by
  have hput : ∀ us : List Int, us.map (putElem T) = us.map toStr := by
    intro us
    refine List.map_congr_left (fun v _ => ?_)
    cases T with
    | character => exact absurd rfl hT
    | signed b => rfl
    | unsigned b => rfl
  have hj : ∀ (us : List Str) (w : Str) (ts : List Str), joinWords (us ++ w :: ts) = joinWords (us ++ [joinWords (w :: ts)]) := by
    intro us w ts
    induction us with
    | nil => rfl
    | cons u us ih =>
      have e1 : ∀ x xs, joinWords ((u :: us) ++ x :: xs) = u ++ blank :: joinWords (us ++ x :: xs) := by
        intro x xs; cases us <;> rfl
      rw [e1, e1, ih]
  have hb : ∀ s, s.dropWhile isSpace = joinWords (toStr v :: ws.map toStr) → getElem T s = none := by
    intro s hs
    have : ∃ r, joinWords (toStr v :: ws.map toStr) = toStr v ++ r ∧ ∀ c ∈ r.head?, isDigit c = false := by
      cases ws with
      | nil => exact ⟨[], by simp [joinWords], by simp⟩
      | cons w ws => exact ⟨_, rfl, by intro c hc; cases hc; decide⟩
    obtain ⟨r, hr1, hr2⟩ := this
    exact (get_number T hT _ r v (toStr_number v) hr2 s (hs.trans hr1)).2 hl h0
  have hsk : (joinWords (toStr v :: ws.map toStr)).dropWhile isSpace = joinWords (toStr v :: ws.map toStr) := by
    obtain ⟨hne, hns⟩ := number_word _ v (toStr_number v)
    have : ∃ r, joinWords (toStr v :: ws.map toStr) = toStr v ++ r := by
      cases ws with
      | nil => exact ⟨[], by simp [joinWords]⟩
      | cons w ws => exact ⟨_, rfl⟩
    obtain ⟨r, hr⟩ := this
    rw [hr]
    cases hs : toStr v with
    | nil => exact absurd hs hne
    | cons c t =>
      rw [List.cons_append, List.dropWhile_cons, if_neg]
      rw [hns c (by rw [hs]; exact List.mem_cons_self)]; simp
  rw [listToText, hput, List.map_append, List.map_cons, hj]
  refine (getElems_stop T hT vs hv _ (hb _ ?_) (hb _ hsk) _ (by omega)).1
  rw [List.dropWhile_cons, if_pos (by decide), hsk]

/-- A negative number given for an unsigned type is read as another one. -/
theorem c155_negative_violated (bits : Nat) (v : Int) (h0 : v < 0) (hl : -2 ^ bits < v) :
    listFromText (.unsigned bits) (toStr v) = [v + 2 ^ bits] := by
  obtain ⟨h1, h2, h3⟩ := digits_spec v.natAbs
  have hs : toStr v = minus :: digits v.natAbs := by rw [toStr, if_pos h0]
  have hlt : v.natAbs < 2 ^ bits := by
    have : (v.natAbs : Int) < 2 ^ bits := by omega
    exact_mod_cast this
  have hmod : (-(v.natAbs : Int)) % 2 ^ bits = v + 2 ^ bits := by
    have hv : -(v.natAbs : Int) = v := by omega
    rw [hv, ← Int.add_emod_right, Int.emod_eq_of_lt (by omega) (by omega)]
  obtain ⟨e1, -⟩ := take_digits (digits v.natAbs) [] h1 (by simp)
  rw [List.append_nil] at e1
  have g : getElem (.unsigned bits) (toStr v) = some (v + 2 ^ bits, []) := by
    rw [getElem, if_neg (by simp)]
    unfold getNumber
    have hsk : (toStr v).dropWhile isSpace = minus :: digits v.natAbs := by
      rw [hs, List.dropWhile_cons, if_neg (by decide)]
    rw [hsk]
    simp only [takeSign, if_true]
    cases hd : digits v.natAbs with
    | nil => exact absurd hd h3
    | cons d ds =>
      rw [hd] at h1 h2 e1
      simp only [h1 d List.mem_cons_self, if_true, h2, e1, if_pos hlt, hmod]
  have hlen : (toStr v).length = (digits v.natAbs).length + 1 := by rw [hs, List.length_cons]
  rw [listFromText, hlen, getElems, g]
  rfl

/-! ## Examples -/

example : listFromText (.unsigned 32) (toStr (-1)) = [4294967295] := by decide +kernel


example : listToText (.signed 32) [1, -20, 300] = str "1 -20 300" ∧ listFromText (.signed 32) (str " 1  -20 +300 ") = [1, -20, 300] := by
  decide +kernel

example : listFromText (.signed 32) (str "1 2 x 3") = [1, 2] ∧ listFromText (.signed 32) (str "1 3000000000 3") = [1] := by
  decide +kernel

example : listFromText .character (listToText .character [65, 32, 66, 10]) = [65, 66] := by decide +kernel

example : (Elem.signed 32).Has (-20) ∧ ¬ (Elem.signed 32).Has 3000000000 ∧ (Elem.unsigned 64).Has 3000000000 := by
  refine ⟨by simp [Elem.Has], by simp [Elem.Has], by simp [Elem.Has]⟩

end Verif.Testing
