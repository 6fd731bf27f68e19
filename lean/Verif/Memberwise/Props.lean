import Verif.Memberwise.Model

/-! # C107: objects are compared and hashed by their members -/

namespace Verif.Memberwise

variable {α : Type}

/-- An object of the class has a value for each member. -/
def IsObj (c : List (Member α)) (a : List α) : Prop := a.length = c.length

/-- C107: objects are equal exactly if all members are. -/
theorem c107_equal (c : List (Member α)) (a b : List α) (ha : IsObj c a) (hb : IsObj c b) :
    equal c a b = true ↔ ∀ (i : Nat) (m : Member α) (x y : α), c[i]? = some m → a[i]? = some x → b[i]? = some y → m.eq x y = true := by
  induction c generalizing a b with
  | nil => simp [equal]
  | cons m ms ih =>
    obtain _ | ⟨x, as⟩ := a
    · simp [IsObj] at ha
    obtain _ | ⟨y, bs⟩ := b
    · simp [IsObj] at hb
    simp only [IsObj, List.length_cons, Nat.add_right_cancel_iff] at ha hb
    simp only [equal, Bool.and_eq_true, ih as bs ha hb]
    constructor
    · rintro ⟨h1, h2⟩ i m' x' y' hm hx hy
      cases i with
      | zero => simp at hm hx hy; subst hm hx hy; exact h1
      | succ i => exact h2 i m' x' y' (by simpa using hm) (by simpa using hx) (by simpa using hy)
    · intro h
      exact ⟨h 0 m x y rfl rfl rfl, fun i m' x' y' hm hx hy => h (i + 1) m' x' y' (by simpa using hm) (by simpa using hx) (by simpa using hy)⟩

/-- C107: `a < b` exactly if there is a member that is less and all members before it are equivalent. -/
theorem c107_less (c : List (Member α)) (a b : List α) (ha : IsObj c a) (hb : IsObj c b) :
    less c a b = true ↔ ∃ (k : Nat) (m : Member α) (x y : α), c[k]? = some m ∧ a[k]? = some x ∧ b[k]? = some y ∧ m.lt x y = true ∧
      ∀ (i : Nat) (m' : Member α) (x' y' : α), i < k → c[i]? = some m' → a[i]? = some x' → b[i]? = some y' → m'.lt x' y' = false ∧ m'.lt y' x' = false := by
  simp only [less, beq_iff_eq]
  induction c generalizing a b with
  | nil => simp [compare]
  | cons m ms ih =>
    obtain _ | ⟨x, as⟩ := a
    · simp [IsObj] at ha
    obtain _ | ⟨y, bs⟩ := b
    · simp [IsObj] at hb
    simp only [IsObj, List.length_cons, Nat.add_right_cancel_iff] at ha hb
    simp only [compare]
    by_cases h1 : m.lt x y = true
    · simp only [h1, if_true, true_iff]
      exact ⟨0, m, x, y, rfl, rfl, rfl, h1, fun i _ _ _ hi => by omega⟩
    · by_cases h2 : m.lt y x = true
      · simp only [h1, h2, if_true]
        simp only [Bool.false_eq_true, if_false, reduceCtorEq, false_iff]
        rintro ⟨k, m', x', y', hm, hx, hy, hl, h⟩
        cases k with
        | zero => simp at hm hx hy; subst hm hx hy; exact h1 hl
        | succ k => have := (h 0 m x y (by omega) rfl rfl rfl).2; rw [h2] at this; cases this
      · simp only [h1, h2, Bool.false_eq_true, if_false, ih as bs ha hb]
        constructor
        · rintro ⟨k, m', x', y', hm, hx, hy, hl, h⟩
          refine ⟨k + 1, m', x', y', by simpa using hm, by simpa using hx, by simpa using hy, hl, ?_⟩
          intro i n u v hi hn hu hv
          cases i with
          | zero => simp at hn hu hv; subst hn hu hv; exact ⟨by simpa using h1, by simpa using h2⟩
          | succ i => exact h i n u v (by omega) (by simpa using hn) (by simpa using hu) (by simpa using hv)
        · rintro ⟨k, m', x', y', hm, hx, hy, hl, h⟩
          cases k with
          | zero => simp at hm hx hy; subst hm hx hy; exact absurd hl h1
          | succ k =>
            refine ⟨k, m', x', y', by simpa using hm, by simpa using hx, by simpa using hy, hl, ?_⟩
            intro i n u v hi hn hu hv
            exact h (i + 1) n u v (by omega) (by simpa using hn) (by simpa using hu) (by simpa using hv)

/-- The comparison with the operands exchanged. -/
theorem compare_swap (c : List (Member α)) (hc : ∀ m ∈ c, StrictWeak m.lt) (a b : List α) : compare c b a = (compare c a b).swap := by
  induction c generalizing a b with
  | nil => simp [compare]
  | cons m ms ih =>
    obtain _ | ⟨x, as⟩ := a
    · cases b <;> rfl
    obtain _ | ⟨y, bs⟩ := b
    · rfl
    simp only [compare]
    have hm := hc m (by simp)
    by_cases h1 : m.lt x y = true
    · simp [h1, hm.asymm h1]
    · by_cases h2 : m.lt y x = true
      · simp [h1, h2]
      · simp [h1, h2, ih (fun m hm => hc m (by simp [hm])) as bs]

/-- C107: the six operators agree with each other. -/
theorem c107_operators (c : List (Member α)) (hc : ∀ m ∈ c, StrictWeak m.lt) (a b : List α) :
    greater c a b = less c b a ∧ lessEq c a b = !less c b a ∧ greaterEq c a b = !less c a b ∧ notEqual c a b = !equal c a b := by
  have := compare_swap c hc a b
  refine ⟨?_, ?_, ?_, rfl⟩ <;> simp only [greater, less, lessEq, greaterEq, this] <;> cases compare c a b <;> rfl

theorem compare_self (c : List (Member α)) (hc : ∀ m ∈ c, StrictWeak m.lt) : ∀ a, compare c a a = .eq := by
  induction c with
  | nil => simp [compare]
  | cons m ms ih =>
    intro a
    cases a with
    | nil => rfl
    | cons x as => simp [compare, (hc m (by simp)).irrefl x, ih (fun m hm => hc m (by simp [hm]))]

theorem compare_trans (c : List (Member α)) (hc : ∀ m ∈ c, StrictWeak m.lt) : ∀ a b d, IsObj c a → IsObj c b → IsObj c d →
    (compare c a b = .lt → compare c b d = .lt → compare c a d = .lt) ∧
    (compare c a b = .eq → compare c b d = compare c a d) ∧ (compare c b d = .eq → compare c a b = compare c a d) := by
  induction c with
  | nil => simp [compare]
  | cons m ms ih =>
    intro a b d ha hb hd
    have hm := hc m (by simp)
    have ih := ih (fun m hm => hc m (by simp [hm]))
    obtain _ | ⟨x, as⟩ := a
    · simp [IsObj] at ha
    obtain _ | ⟨y, bs⟩ := b
    · simp [IsObj] at hb
    obtain _ | ⟨z, ds⟩ := d
    · simp [IsObj] at hd
    simp only [IsObj, List.length_cons, Nat.add_right_cancel_iff] at ha hb hd
    obtain ⟨i1, i2, i3⟩ := ih as bs ds ha hb hd
    have t := hm.trans
    have e := hm.incompTrans
    have s := fun {u v} => @StrictWeak.asymm _ _ hm u v
    have l := fun {u v w} => @StrictWeak.lt_of_lt_of_eqv _ _ hm u v w
    have r := fun {u v w} => @StrictWeak.lt_of_eqv_of_lt _ _ hm u v w
    simp only [compare]
    grind

/-- C107: `<` is a strict weak order if that of each member is, so objects can be the keys of a set or a map. -/
theorem c107_order (c : List (Member α)) (hc : ∀ m ∈ c, StrictWeak m.lt) :
    (∀ a, less c a a = false) ∧
    (∀ a b d, IsObj c a → IsObj c b → IsObj c d → less c a b = true → less c b d = true → less c a d = true) ∧
    (∀ a b d, IsObj c a → IsObj c b → IsObj c d → less c a b = false → less c b a = false → less c b d = false → less c d b = false →
      less c a d = false ∧ less c d a = false) := by
  refine ⟨fun a => by simp [less, compare_self c hc a], fun a b d ha hb hd h1 h2 => ?_, fun a b d ha hb hd h1 h2 h3 h4 => ?_⟩
  · simp only [less, beq_iff_eq] at *
    exact (compare_trans c hc a b d ha hb hd).1 h1 h2
  · have h := compare_trans c hc a b d ha hb hd
    have e1 := compare_swap c hc a b
    have e2 := compare_swap c hc b d
    have e3 := compare_swap c hc a d
    simp only [less] at *
    rw [e1] at h2
    rw [e2] at h4
    rw [e3]
    cases k1 : compare c a b <;> simp [k1] at h1 h2
    have k3 := h.2.1 k1
    rw [← k3]
    exact ⟨h3, h4⟩

/-- C107: if `==` of each member is equivalence for its `<`, that is so for the objects: `a == b` exactly if neither is less. -/
theorem c107_equivalence (c : List (Member α)) (hc : ∀ m ∈ c, StrictWeak m.lt) (he : ∀ m ∈ c, ∀ x y, m.eq x y = true ↔ m.lt x y = false ∧ m.lt y x = false)
    (a b : List α) (ha : IsObj c a) (hb : IsObj c b) : equal c a b = true ↔ less c a b = false ∧ less c b a = false := by
  simp only [less, compare_swap c hc a b]
  have : equal c a b = true ↔ compare c a b = .eq := by
    induction c generalizing a b with
    | nil => simp [equal, compare]
    | cons m ms ih =>
      obtain _ | ⟨x, as⟩ := a
      · simp [IsObj] at ha
      obtain _ | ⟨y, bs⟩ := b
      · simp [IsObj] at hb
      simp only [IsObj, List.length_cons, Nat.add_right_cancel_iff] at ha hb
      have := he m (by simp) x y
      have i := ih (fun m hm => hc m (by simp [hm])) (fun m hm => he m (by simp [hm])) as bs ha hb
      simp only [equal, compare, Bool.and_eq_true, this, i]
      by_cases h1 : m.lt x y = true
      · simp [h1]
      · by_cases h2 : m.lt y x = true <;> simp [h1, h2]
  rw [this]
  cases compare c a b <;> simp

/-! ### Hashes -/

theorem applyHash_append (c c' : List (Member α)) (a a' : List α) (h : a.length = c.length) (s : BitVec 64) :
    applyHash (c ++ c') (a ++ a') s = applyHash c' a' (applyHash c a s) := by
  induction c generalizing a s with
  | nil =>
    have : a = [] := by simpa using h
    subst this
    cases c' <;> cases a' <;> simp [applyHash]
  | cons m ms ih =>
    obtain _ | ⟨x, as⟩ := a
    · simp at h
    simp only [List.cons_append, applyHash]
    exact ih as (by simpa using h) _

/-- C107: equal objects have equal hashes, if that is so for the members. -/
theorem c107_hash (c : List (Member α)) (hh : ∀ m ∈ c, ∀ x y, m.eq x y = true → m.hash x = m.hash y) (a b : List α) (ha : IsObj c a) (hb : IsObj c b)
    (h : equal c a b = true) : hashOf c a = hashOf c b := by
  simp only [hashOf]
  generalize (0 : BitVec 64) = s
  induction c generalizing a b s with
  | nil => simp [applyHash]
  | cons m ms ih =>
    obtain _ | ⟨x, as⟩ := a
    · simp [IsObj] at ha
    obtain _ | ⟨y, bs⟩ := b
    · simp [IsObj] at hb
    simp only [IsObj, List.length_cons, Nat.add_right_cancel_iff] at ha hb
    simp only [equal, Bool.and_eq_true] at h
    simp only [applyHash, hh m (by simp) x y h.1]
    exact ih (fun m hm => hh m (by simp [hm])) as bs ha hb h.2 _

/-- `CombineHash` with a given seed maps different hashes to different hashes. -/
theorem combine_inj (s h h' : BitVec 64) (e : combine s h = combine s h') : h = h' := by
  simp only [combine] at e
  have e := congrArg (s ^^^ ·) e
  simp only [← BitVec.xor_assoc, BitVec.xor_self, BitVec.zero_xor] at e
  simpa only [BitVec.add_left_inj] using e

/-- C107: objects whose members are the same except the last, whose hashes differ, have different hashes. -/
theorem c107_last (c : List (Member α)) (m : Member α) (a : List α) (x y : α) (ha : IsObj c a) (h : m.hash x ≠ m.hash y) :
    hashOf (c ++ [m]) (a ++ [x]) ≠ hashOf (c ++ [m]) (a ++ [y]) := by
  simp only [hashOf, applyHash_append c [m] a _ ha, applyHash]
  exact fun e => h (combine_inj _ _ _ e)

/-- C107: a vector has the hash of an object with the elements as its members. -/
theorem c107_vector (m : Member α) (v : List α) : hashVec m.hash v = hashOf (v.map fun _ => m) v := by
  simp only [hashVec, hashOf]
  generalize (0 : BitVec 64) = s
  induction v generalizing s with
  | nil => simp [applyHash]
  | cons x v ih => simp only [List.foldl_cons, List.map_cons, applyHash]; exact ih _

/-- C107: vectors of the same length whose elements are equal have the same hash, if equal elements have. -/
theorem c107_vector_equal (eq : α → α → Bool) (h : α → BitVec 64) (hh : ∀ x y, eq x y = true → h x = h y) (v w : List α) (hl : v.length = w.length)
    (he : ∀ (i : Nat) (x y : α), v[i]? = some x → w[i]? = some y → eq x y = true) : hashVec h v = hashVec h w := by
  simp only [hashVec]
  generalize (0 : BitVec 64) = s
  induction v generalizing w s with
  | nil => cases w <;> simp_all
  | cons x v ih =>
    obtain _ | ⟨y, w⟩ := w
    · simp at hl
    · simp only [List.foldl_cons, hh x y (he 0 x y rfl rfl)]
      exact ih w (by simpa using hl) (fun i a b ha hb => he (i + 1) a b (by simpa using ha) (by simpa using hb)) _

/-- C107: vectors that differ only in the last element, and whose last elements have different hashes, have different hashes. -/
theorem c107_vector_hash (h : α → BitVec 64) (v : List α) (x y : α) (hne : h x ≠ h y) : hashVec h (v ++ [x]) ≠ hashVec h (v ++ [y]) := by
  simp only [hashVec, List.foldl_append, List.foldl_cons, List.foldl_nil]
  exact fun e => hne (combine_inj _ _ _ e)

/-! ### Samples -/

def natMember : Member Nat := ⟨fun a b => a == b, fun a b => decide (a < b), BitVec.ofNat 64⟩

theorem natMember_weak : ∀ m ∈ [natMember, natMember], StrictWeak m.lt := by
  intro m hm
  have : m = natMember := by simpa using hm
  subst this
  constructor <;> simp [natMember] <;> omega

example : equal [natMember, natMember] [1, 2] [1, 2] = true ∧ less [natMember, natMember] [1, 5] [2, 3] = true ∧ greater [natMember, natMember] [1, 5] [1, 3] = true ∧
    lessEq [natMember, natMember] [1, 5] [1, 5] = true := by decide
example : less [natMember, natMember] [2, 3] [1, 5] = false := by
  have := (c107_operators [natMember, natMember] natMember_weak [1, 5] [2, 3]).1
  rw [← this]; rfl
example : hashOf [natMember, natMember] [1, 2] ≠ hashOf [natMember, natMember] [1, 3] :=
  c107_last [natMember] natMember [1] 2 3 rfl (by simp [natMember])
/-- The order of the members matters. -/
example : hashOf [natMember, natMember] [1, 2] ≠ hashOf [natMember, natMember] [2, 1] := by decide
example : hashVec (BitVec.ofNat 64) [1, 2] = hashOf [natMember, natMember] [1, 2] := c107_vector natMember [1, 2]

end Verif.Memberwise
