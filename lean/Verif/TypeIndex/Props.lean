import Verif.TypeIndex.Model

/-! # C114: indices of types -/

namespace Verif.TypeIndex

/-! ### Specification -/

mutual
/-- The fields that are not structures, in order. -/
def Spec.flat : Ty → List Nat
  | .prim n => [n]
  | .struct _ fs => Spec.flatAll fs
def Spec.flatAll : List Ty → List Nat
  | [] => []
  | f :: fs => Spec.flat f ++ Spec.flatAll fs
end

mutual
/-- There is no structure without fields in it. -/
def Spec.Full : Ty → Prop
  | .prim _ => True
  | .struct _ fs => fs ≠ [] ∧ Spec.FullAll fs
def Spec.FullAll : List Ty → Prop
  | [] => True
  | f :: fs => Spec.Full f ∧ Spec.FullAll fs
end

/-- `n` is the position of the first `x`. -/
def Spec.FirstAt (x : Nat) (l : List Nat) (n : Nat) : Prop := l[n]? = some x ∧ ∀ m : Nat, m < n → l[m]? ≠ some x

/-! ### Proofs -/

open Spec

mutual
theorem countof_spec : ∀ t, Full t → countof t = some (flat t).length
  | .prim n, _ => by simp [countof, flat]
  | .struct i fs, h => by
    simp only [Full] at h
    rw [countof, if_neg (by simpa using h.1), countofTuple_spec fs h.2, flat]
theorem countofTuple_spec : ∀ fs, FullAll fs → countofTuple fs = some (flatAll fs).length
  | [], _ => rfl
  | f :: fs, h => by
    simp only [FullAll] at h
    simp only [countofTuple, countof_spec f h.1, countofTuple_spec fs h.2, flatAll, List.length_append]
end

/-- The position of the first `x`, computed. -/
def pos (x : Nat) : List Nat → Option Nat
  | [] => none
  | y :: l => if y = x then some 0 else (pos x l).map (· + 1)

theorem pos_append (x : Nat) (a b : List Nat) : pos x (a ++ b) = match pos x a with | some n => some n | none => (pos x b).map (a.length + ·) := by
  induction a with
  | nil => cases h : pos x b <;> simp [pos, h]
  | cons y a ih =>
    simp only [List.cons_append, pos]
    split
    · rfl
    · rw [ih]
      cases pos x a <;> cases pos x b <;> simp <;> omega

theorem pos_some (x : Nat) (l : List Nat) (n : Nat) : pos x l = some n ↔ FirstAt x l n := by
  induction l generalizing n with
  | nil => simp [pos, FirstAt]
  | cons y l ih =>
    simp only [pos]
    split
    · next h =>
      subst h
      constructor
      · intro h; cases h; simp [FirstAt]
      · rintro ⟨h1, h2⟩
        rcases n with _ | n
        · rfl
        · exact absurd (by simp) (h2 0 (by omega))
    · next h =>
      constructor
      · intro h1
        cases hp : pos x l with
        | none => rw [hp] at h1; cases h1
        | some k =>
          rw [hp] at h1
          cases h1
          have ⟨h2, h3⟩ := (ih k).1 hp
          refine ⟨by simpa using h2, fun m hm => ?_⟩
          rcases m with _ | m
          · simpa using h
          · have hm : m + 1 < k + 1 := hm
            simpa using h3 m (by omega)
      · rintro ⟨h1, h2⟩
        rcases n with _ | n
        · simp at h1; exact absurd h1 h
        · have : pos x l = some n := (ih n).2 ⟨by simpa using h1, fun m hm => by simpa using h2 (m + 1) (by omega)⟩
          simp [this]

theorem pos_none (x : Nat) (l : List Nat) : pos x l = none ↔ x ∉ l := by
  induction l with
  | nil => simp [pos]
  | cons y l ih =>
    simp only [pos]
    split
    · next h => simp [h]
    · next h =>
      rw [Option.map_eq_none_iff, ih]
      simp only [List.mem_cons, not_or]
      exact ⟨fun h1 => ⟨fun h2 => h h2.symm, h1⟩, fun h1 => h1.2⟩

/-- What `tupleIndex` gives when the results for the elements are right. -/
theorem tupleIndex_spec (x : Nat) : ∀ fs, FullAll fs → tupleIndex fs (fs.map fun f => pos x (flat f)) = some (pos x (flatAll fs))
  | [], _ => rfl
  | f :: fs, h => by
    simp only [FullAll] at h
    have ih := tupleIndex_spec x fs h.2
    simp only [List.map_cons, flatAll, pos_append]
    cases hf : pos x (flat f) with
    | some n => simp [tupleIndex, elementIndex]
    | none =>
      simp only [tupleIndex, elementIndex] at ih ⊢
      cases he : elementIndex (fs.map fun f => pos x (flat f)) with
      | none =>
        rw [he] at ih
        simp only [Option.map_none]
        rw [← Option.some.inj ih]
        rfl
      | some k =>
        rw [he] at ih
        simp only at ih
        simp only [Option.map_some, List.getElem?_cons_succ, List.take_succ_cons]
        cases hr : (fs.map fun f => pos x (flat f))[k]? with
        | none => rw [hr] at ih; cases ih
        | some r =>
          rw [hr] at ih
          rcases r with _ | l
          · cases ih
          · simp only at ih ⊢
            rw [if_pos (by omega)]
            simp only [countofTuple, countof_spec f h.1]
            by_cases hk : k = 0
            · subst hk
              simp at ih ⊢
              simp [countofTuple, ← ih]
            · rw [if_pos hk] at ih
              cases hc : countofTuple (List.take k fs) with
              | none => rw [hc] at ih; cases ih
              | some p =>
                rw [hc] at ih
                simp only at ih ⊢
                rw [← Option.some.inj ih]
                simp
                omega

mutual
theorem indexof_spec (x : Nat) : ∀ t, Full t → indexof (.prim x) t = some (pos x (flat t))
  | .prim n, _ => by simp [indexof, flat, pos, Ty.same]
  | .struct i fs, h => by
    simp only [Full] at h
    rw [indexof, if_neg (by simpa using h.1), indexofAll_spec x fs h.2]
    exact tupleIndex_spec x fs h.2
theorem indexofAll_spec (x : Nat) : ∀ fs, FullAll fs → indexofAll (.prim x) fs = some (fs.map fun f => pos x (flat f))
  | [], _ => rfl
  | f :: fs, h => by
    simp only [FullAll] at h
    simp only [indexofAll, indexof_spec x f h.1, indexofAll_spec x fs h.2, List.map_cons]
end

mutual
theorem indexof_struct (i : Nat) (gs : List Ty) : ∀ t, Full t → indexof (.struct i gs) t = some none
  | .prim n, _ => by simp [indexof, Ty.same]
  | .struct j fs, h => by
    simp only [Full] at h
    rw [indexof, if_neg (by simpa using h.1), indexofAll_struct i gs fs h.2]
    have : ∀ n, elementIndex (List.replicate n none) = none := fun n => by
      induction n with
      | zero => rfl
      | succ n ih => simp [List.replicate_succ, elementIndex, ih]
    simp [tupleIndex, this]
theorem indexofAll_struct (i : Nat) (gs : List Ty) : ∀ fs, FullAll fs → indexofAll (.struct i gs) fs = some (List.replicate fs.length none)
  | [], _ => rfl
  | f :: fs, h => by
    simp only [FullAll] at h
    simp only [indexofAll, indexof_struct i gs f h.1, indexofAll_struct i gs fs h.2, List.length_cons, List.replicate_succ]
end

/-- C114: the number of fields, those of the structures in it counted one by one. -/
theorem c114_count (t : Ty) (h : Full t) : countof t = some (flat t).length := countof_spec t h

/-- C114, for types that are not structures: the index is the position of the first field of the type, and there is none exactly if there is no such field.
Missing: types that are structures (`c114_struct_violated`) and structures without fields (`c114_empty_violated`). -/
theorem c114_index_partial (t : Ty) (x : Nat) (h : Full t) :
    (∀ n, indexof (.prim x) t = some (some n) ↔ FirstAt x (flat t) n) ∧ (indexof (.prim x) t = some none ↔ x ∉ flat t) := by
  rw [indexof_spec x t h]
  constructor
  · intro n
    rw [← pos_some]
    simp
  · rw [← pos_none]
    simp

/-- C114: an index is less than the number of fields. -/
theorem c114_bound (t : Ty) (x n c : Nat) (h : Full t) (hi : indexof (.prim x) t = some (some n)) (hc : countof t = some c) : n < c := by
  have h1 := ((c114_index_partial t x h).1 n).1 hi
  rw [c114_count t h] at hc
  cases hc
  exact (List.getElem?_eq_some_iff.1 h1.1).1

/-- C114 is violated by fields that are structures: they have no index in any type, though they are fields. -/
theorem c114_struct_violated (i : Nat) (gs : List Ty) (j : Nat) (pre post : List Ty) (h : Full (.struct j (pre ++ .struct i gs :: post))) :
    indexof (.struct i gs) (.struct j (pre ++ .struct i gs :: post)) = some none := indexof_struct i gs _ h

mutual
theorem countof_full : ∀ t, (∃ n, countof t = some n) → Full t
  | .prim _, _ => by simp [Full]
  | .struct i fs, ⟨n, h⟩ => by
    rw [countof] at h
    split at h
    · cases h
    · next he => exact ⟨by simpa using he, countofTuple_full fs ⟨n, h⟩⟩
theorem countofTuple_full : ∀ fs, (∃ n, countofTuple fs = some n) → FullAll fs
  | [], _ => by simp [FullAll]
  | f :: fs, ⟨n, h⟩ => by
    simp only [countofTuple] at h
    cases h1 : countof f with
    | none => rw [h1] at h; cases h
    | some a =>
      cases h2 : countofTuple fs with
      | none => rw [h1, h2] at h; cases h
      | some b => exact ⟨countof_full f ⟨a, h1⟩, countofTuple_full fs ⟨b, h2⟩⟩
end

mutual
theorem indexof_full (g : Ty) : ∀ t, (∃ n, indexof g t = some n) → Full t
  | .prim _, _ => by simp [Full]
  | .struct i fs, ⟨n, h⟩ => by
    rw [indexof] at h
    split at h
    · cases h
    · next he =>
      cases h1 : indexofAll g fs with
      | none => rw [h1] at h; cases h
      | some rs => exact ⟨by simpa using he, indexofAll_full g fs ⟨rs, h1⟩⟩
theorem indexofAll_full (g : Ty) : ∀ fs, (∃ n, indexofAll g fs = some n) → FullAll fs
  | [], _ => by simp [FullAll]
  | f :: fs, ⟨n, h⟩ => by
    simp only [indexofAll] at h
    cases h1 : indexof g f with
    | none => rw [h1] at h; cases h
    | some a =>
      cases h2 : indexofAll g fs with
      | none => rw [h1, h2] at h; cases h
      | some b => exact ⟨indexof_full g f ⟨a, h1⟩, indexofAll_full g fs ⟨b, h2⟩⟩
end

/-- C114 is violated by structures without fields: neither the number of fields nor an index compiles for a type that has one in it. -/
theorem c114_empty_violated (t g : Ty) (h : ¬ Full t) : countof t = none ∧ indexof g t = none := by
  constructor
  · cases hc : countof t with
    | none => rfl
    | some n => exact absurd (countof_full t ⟨n, hc⟩) h
  · cases hc : indexof g t with
    | none => rfl
    | some n => exact absurd (indexof_full g t ⟨n, hc⟩) h

/-! ### Samples: the types of `Tests/TypeIndexTest.cpp` -/

/-- `A` with a `bool` (0) and an `int` (1). -/
def tA : Ty := .struct 0 [.prim 0, .prim 1]
/-- `B` with an `A` and a `double` (2). -/
def tB : Ty := .struct 1 [tA, .prim 2]
/-- `C` with a text (3), a `B`, an `A` and a vector of texts (4). -/
def tC : Ty := .struct 2 [.prim 3, tB, tA, .prim 4]

example : countof tA = some 2 ∧ countof tB = some 3 ∧ indexof (.prim 2) tC = some (some 3) ∧ indexof (.prim 4) tC = some (some 6) ∧ indexof (.prim 9) tC = some none := by decide
example : Full tC ∧ indexof tA tC = some none := by simp [tC, tB, tA, Full, FullAll]; decide
example : ¬ Full (.struct 5 [.prim 0, .struct 6 []]) := by simp [Full, FullAll]

end Verif.TypeIndex
