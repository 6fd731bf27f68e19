import Verif.BitMap.Spec

/-! # Bitmaps (C52) -/

namespace Verif.BitMap

variable {n : Nat}

theorem elems_lt (s : BitVec n) (i : Nat) (h : elems s i = true) : i < n := BitVec.lt_of_getLsbD h

theorem elems_twoPow (e i : Nat) (he : e < n) : elems (BitVec.twoPow n e) i = (i == e) := by
  simp only [elems, BitVec.getLsbD_twoPow]
  by_cases h : e = i
  · subst h; simp [he]
  · have h' : i ≠ e := fun h' => h h'.symm
    simp [h, h']

theorem elems_flip (s : BitVec n) (i : Nat) : elems (~~~ s) i = (decide (i < n) && !elems s i) := by
  simp [elems, BitVec.getLsbD_not]

theorem elems_setBit (s : BitVec n) (e i : Nat) (v : Bool) (he : e < n) :
    elems (setBit s e v) i = if i = e then v else elems s i := by
  cases v with
  | true =>
    show elems (s ||| BitVec.twoPow n e) i = _
    rw [show elems (s ||| BitVec.twoPow n e) i = (elems s i || elems (BitVec.twoPow n e) i) by simp [elems],
      elems_twoPow e i he]
    by_cases h : i = e <;> simp [h]
  | false =>
    show elems (s &&& ~~~ BitVec.twoPow n e) i = _
    rw [show elems (s &&& ~~~ BitVec.twoPow n e) i = (elems s i && elems (~~~ BitVec.twoPow n e) i) by
        simp only [elems, BitVec.getLsbD_and],
      elems_flip, elems_twoPow e i he]
    by_cases h : i = e
    · simp [h]
    · by_cases hi : i < n
      · simp [h, hi]
      · have : elems s i = false := by
          cases h' : elems s i with
          | false => rfl
          | true => exact absurd (elems_lt s i h') hi
        simp [h, this]

/-- C52: every operation with an element changes the bitmap as it would change a set of elements, and succeeds. -/
theorem c52_step (s : BitVec n) (op : Op n) (h : op.Valid) :
    ∃ s', step s op = .ok s' ∧ elems s' = specStep (elems s) op := by
  cases op with
  | orE e =>
    refine ⟨s ||| BitVec.twoPow n e, by simp [step, enum2Bits, show e < n from h], ?_⟩
    funext i
    rw [show elems (s ||| BitVec.twoPow n e) i = (elems s i || elems (BitVec.twoPow n e) i) by simp [elems],
      elems_twoPow e i h]; rfl
  | andE e =>
    refine ⟨s &&& BitVec.twoPow n e, by simp [step, enum2Bits, show e < n from h], ?_⟩
    funext i
    rw [show elems (s &&& BitVec.twoPow n e) i = (elems s i && elems (BitVec.twoPow n e) i) by
      simp only [elems, BitVec.getLsbD_and], elems_twoPow e i h]; rfl
  | xorE e =>
    refine ⟨s ^^^ BitVec.twoPow n e, by simp [step, enum2Bits, show e < n from h], ?_⟩
    funext i
    rw [show elems (s ^^^ BitVec.twoPow n e) i = (elems s i ^^ elems (BitVec.twoPow n e) i) by
      simp only [elems, BitVec.getLsbD_xor], elems_twoPow e i h]
    simp only [specStep]
    by_cases hi : i = e
    · simp [hi]
    · have hi' : (i == e) = false := by simpa using hi
      simp [hi, hi']
  | flip =>
    refine ⟨_, rfl, ?_⟩
    funext i
    rw [elems_flip]
    simp only [specStep]
    by_cases hi : i < n <;> simp [hi]
  | or b => exact ⟨_, rfl, by funext i; simp [elems, specStep]⟩
  | and b => exact ⟨_, rfl, by funext i; simp [elems, specStep]⟩
  | xor b => exact ⟨_, rfl, by funext i; simp [elems, specStep]⟩
  | set e v =>
    refine ⟨setBit s e v, by simp [step, show e < n from h], ?_⟩
    funext i; exact elems_setBit s e i v h
  | ref e v =>
    refine ⟨setBit s e v, by simp [step, show e < n from h], ?_⟩
    funext i; exact elems_setBit s e i v h

/-- C52: after any history the bitmap holds exactly the elements of the set. -/
theorem c52_history (s : BitVec n) (ops : List (Op n)) (h : ∀ op ∈ ops, op.Valid) :
    ∃ s', run s ops = .ok s' ∧ elems s' = specRun (elems s) ops := by
  induction ops generalizing s with
  | nil => exact ⟨s, rfl, rfl⟩
  | cons op ops ih =>
    obtain ⟨s1, h1, h2⟩ := c52_step s op (h op List.mem_cons_self)
    obtain ⟨s2, h3, h4⟩ := ih s1 (fun o ho => h o (List.mem_cons_of_mem _ ho))
    refine ⟨s2, by simp only [run, h1, Res.ok_bind, h3], ?_⟩
    rw [h4, h2]; rfl

/-- C52: a new bitmap holds nothing; `test` and `[]` tell the elements; two bitmaps are equal exactly when they hold the
same elements. -/
theorem c52_queries (s t : BitVec n) (e : Nat) (he : e < n) :
    test s e = .ok (elems s e) ∧ at' s e = .ok (elems s e) ∧ elems (0 : BitVec n) e = false ∧
    ((s == t) = true ↔ ∀ i, i < n → elems s i = elems t i) := by
  refine ⟨by simp [test, he, elems], by simp [at', he, elems], by simp [elems], ?_⟩
  rw [beq_iff_eq]
  constructor
  · rintro rfl _ _; rfl
  · intro h
    apply BitVec.eq_of_getLsbD_eq
    intro i hi
    exact h i hi

/-- C52: `any`, `none` and `all` tell whether some, none or all of the elements are in the set. -/
theorem c52_any_all (s : BitVec n) :
    (any s = true ↔ ∃ i, i < n ∧ elems s i = true) ∧ (none s = true ↔ ∀ i, i < n → elems s i = false) ∧
    (all s = true ↔ ∀ i, i < n → elems s i = true) := by
  have h0 : (s = 0 ↔ ∀ i, i < n → elems s i = false) := by
    constructor
    · rintro rfl i _; simp [elems]
    · intro h
      apply BitVec.eq_of_getLsbD_eq
      intro i hi
      have := h i hi
      simp only [elems] at this
      simp [this]
  refine ⟨?_, ?_, ?_⟩
  · have : any s = true ↔ ¬ s = 0 := by simp [any]
    rw [this, h0]
    constructor
    · intro h
      apply Classical.byContradiction
      intro h'
      refine h fun i hi => ?_
      cases e : elems s i with
      | false => rfl
      | true => exact absurd ⟨i, hi, e⟩ h'
    · rintro ⟨i, hi, e⟩ h
      rw [h i hi] at e; cases e
  · rw [← h0]; simp [none, any]
  · simp only [all, beq_iff_eq]
    constructor
    · rintro rfl i hi
      rw [elems_flip]; simp [hi, elems]
    · intro h
      apply BitVec.eq_of_getLsbD_eq
      intro i hi
      have h1 := elems_flip (0 : BitVec n) i
      have h2 := h i hi
      simp only [elems] at h1 h2
      rw [h1, h2]; simp [hi]

/-- C52: `count` is the number of elements; it fits, as the number of elements of the enumeration does. -/
theorem c52_count (w : Nat) (s : BitVec n) (hw : n < 2 ^ w) :
    count w s = ((List.range n).filter (elems s)).length := by
  have h : ((List.range n).filter (elems s)).length ≤ n := by
    have := List.length_filter_le (elems s) (List.range n)
    simpa using this
  exact Nat.mod_eq_of_lt (Nat.lt_of_le_of_lt h hw)

/-- C52: what is not an element is rejected, and the bitmap stays as it was; but `[]` does not check. -/
theorem c52_not_an_element (s : BitVec n) (e : Nat) (v : Bool) (he : n ≤ e) :
    step s (.orE e) = .throw .outOfRange ∧ step s (.andE e) = .throw .outOfRange ∧
    step s (.xorE e) = .throw .outOfRange ∧ step s (.set e v) = .throw .outOfRange ∧
    test s e = .throw .outOfRange ∧ step s (.ref e v) = .ub := by
  have : ¬ e < n := by omega
  simp [step, enum2Bits, test, this]

def sample : List (Op 5) := [.orE 1, .set 4 true, .flip, .xorE 0, .or (BitVec.ofNat 5 2), .ref 3 false]

example : (∀ op ∈ sample, op.Valid) := by
  intro op h
  simp only [sample, List.mem_cons, List.not_mem_nil, or_false] at h
  rcases h with rfl | rfl | rfl | rfl | rfl | rfl <;> simp [Op.Valid]

example : run (0 : BitVec 5) sample = .ok (BitVec.ofNat 5 6) := by decide

/-! ## The constructor with a list of elements -/

theorem makeLong_spec (vs : List Nat) (val : BitVec 64) (h : ∀ v ∈ vs, v < 64) :
    ∃ l, makeLong vs val = .ok l ∧ ∀ i, l.getLsbD i = (val.getLsbD i || vs.contains i) := by
  induction vs generalizing val with
  | nil => exact ⟨val, rfl, by simp⟩
  | cons v vs ih =>
    have hv := h v List.mem_cons_self
    obtain ⟨l, h1, h2⟩ := ih (val ||| (BitVec.ofNat 64 1 <<< v)) (fun x hx => h x (List.mem_cons_of_mem _ hx))
    refine ⟨l, by rw [makeLong, if_pos hv]; exact h1, ?_⟩
    intro i
    rw [h2]
    have : (BitVec.ofNat 64 1 <<< v).getLsbD i = (i == v) := by
      rw [BitVec.getLsbD_shiftLeft, BitVec.getLsbD_ofNat]
      by_cases e : i = v
      · subst e; simp [hv]
      · by_cases e' : i < v
        · simp [e, e']
        · have : Nat.testBit 1 (i - v) = false := by
            cases h' : Nat.testBit 1 (i - v) with
            | false => rfl
            | true => have := Nat.testBit_one_eq_true_iff_self_eq_zero.1 h'; omega
          simp [e, this]
    rw [BitVec.getLsbD_or, this, List.contains_cons, Bool.or_assoc]

/-- C52, partial: a bitmap constructed from a list of elements, of an enumeration with at most 64 of them, holds exactly
these.  What is missing: larger enumerations, see below. -/
theorem c52_init_partial (vs : List Nat) (hn : n ≤ 64) (h : ∀ v ∈ vs, v < n) :
    ∃ s, ofList n vs = .ok s ∧ ∀ i, elems s i = true ↔ i ∈ vs := by
  obtain ⟨l, h1, h2⟩ := makeLong_spec vs 0 (fun v hv => Nat.lt_of_lt_of_le (h v hv) hn)
  refine ⟨l.setWidth n, by rw [ofList, h1]; rfl, ?_⟩
  intro i
  simp only [elems, BitVec.getLsbD_setWidth, h2]
  constructor
  · intro hi; simp at hi; exact hi.2
  · intro hi; simp [hi, h i hi]

example : ofList 5 [3, 0] = .ok (BitVec.ofNat 5 9) := by decide

/-- C52 is violated: the construction with an element after the 64th is undefined, though the enumeration has it. -/
theorem c52_init_violated (n e : Nat) (vs : List Nat) (he : 64 ≤ e) (_ : e < n) : ofList n (e :: vs) = .ub := by
  simp [ofList, makeLong, show ¬ e < 64 by omega]

/-- Already a value that is not an element is not rejected here, though it is everywhere else. -/
theorem c52_init_not_an_element_violated (n e : Nat) (hn : n ≤ e) (he : e < 64) : ofList n [e] = .ok 0 := by
  obtain ⟨l, h1, h2⟩ := makeLong_spec [e] 0 (by simpa using he)
  simp only [ofList, h1, Res.ok_bind]
  congr 1
  apply BitVec.eq_of_getLsbD_eq
  intro i hi
  rw [BitVec.getLsbD_setWidth, h2]
  simp; omega

end Verif.BitMap
