import Verif.Tuples.Props

/-!
# C177: every two orders of evaluation can be told apart
-/

namespace Verif.Tuples

variable {α : Type}

/-- A function object that numbers its calls, for elements of any type (an argument of the user, `func` of Awl/TupleHelpers.h:89-111). -/
def numbering : Fn Nat α Nat := fun n _ => (.ok n, n + 1)

theorem calls_numbering (t : List α) : ∀ (o : List Nat) (s : Nat) (acc : List (Nat × Nat)), (∀ i ∈ o, i < t.length) →
    calls numbering t s o acc = (.ok (acc ++ o.zip (List.range' s o.length)), s + o.length) := by
  intro o
  induction o with
  | nil => intro s acc _; simp [calls]
  | cons i o ih =>
    intro s acc h
    have hi : t[i]? = some (t[i]'(h i (by simp))) := List.getElem?_eq_getElem _
    have := ih (s + 1) (acc ++ [(i, s)]) (fun j hj => h j (by simp [hj]))
    simp only [calls, hi]
    show calls numbering t (s + 1) o (acc ++ [(i, s)]) = _
    rw [this]
    simp [List.range'_succ, Nat.add_comm, Nat.add_left_comm]

/-- The result for the numbering function: the place of every position in the order of evaluation. -/
theorem numbering_result (t : List α) (o : List Nat) (ho : o.Perm (List.range t.length)) :
    ∃ rs, transformTuple o numbering 0 t = (.ok rs, t.length) ∧ ∀ (k i : Nat), o[k]? = some i → rs[i]? = some k := by
  have hl : o.length = t.length := by simpa using ho.length_eq
  have hnd : o.Nodup := ho.nodup_iff.2 List.nodup_range
  have hlt : ∀ i ∈ o, i < t.length := fun i hi => by simpa using ho.mem_iff.1 hi
  have hk : (o.zip (List.range' 0 o.length)).map (·.1) = o := List.map_fst_zip (by simp)
  have hat : ∀ (k i : Nat), o[k]? = some i → (o.zip (List.range' 0 o.length)).lookup i = some k := by
    intro k i h
    refine lookup_of_mem (by rw [hk]; exact hnd) (List.mem_iff_getElem?.2 ⟨k, ?_⟩)
    obtain ⟨hk', he⟩ := List.getElem?_eq_some_iff.1 h
    simp [hk', he]
  have hg := inOrder_get t.length (o.zip (List.range' 0 o.length)) (by
    intro i hi
    obtain ⟨k, h⟩ := List.mem_iff_getElem?.1 (ho.mem_iff.2 (by simpa using hi))
    exact ⟨k, hat k i h⟩)
  refine ⟨inOrder t.length (o.zip (List.range' 0 o.length)), ?_, fun k i h => ?_⟩
  · simp [transformTuple, calls_numbering t o 0 [] hlt, hl]
  · rw [hg.2 i (hlt i (List.mem_of_getElem? h)), hat k i h]

/-- **C177 is violated** by `transform_tuple` for tuples of every size: with a function that numbers its calls any two different orders of evaluation give different tuples, and only the order from left to right gives what
`tuple_to_array` gives. -/
theorem c177_every_order_violated (t : List α) (o o' : List Nat) (ho : o.Perm (List.range t.length)) (ho' : o'.Perm (List.range t.length)) :
    ((transformTuple o numbering 0 t).1 = (transformTuple o' numbering 0 t).1 ↔ o = o') ∧
    ((transformTuple o numbering 0 t).1 = (tupleToArray numbering 0 t).1 ↔ o = List.range t.length) := by
  have key : ∀ o o' : List Nat, o.Perm (List.range t.length) → o'.Perm (List.range t.length) → ((transformTuple o numbering 0 t).1 = (transformTuple o' numbering 0 t).1 ↔ o = o') := by
    intro o o' ho ho'
    refine ⟨fun h => ?_, fun h => by rw [h]⟩
    obtain ⟨rs, h1, h2⟩ := numbering_result t o ho
    obtain ⟨rs', h1', h2'⟩ := numbering_result t o' ho'
    rw [h1, h1'] at h
    simp only [Res.ok.injEq] at h
    subst h
    have hl : o.length = o'.length := ho.length_eq.trans ho'.length_eq.symm
    apply List.ext_getElem?
    intro k
    rcases Nat.lt_or_ge k o.length with hk | hk
    · have hi : o[k]? = some o[k] := List.getElem?_eq_getElem hk
      obtain ⟨m, hm⟩ := List.mem_iff_getElem?.1 (ho'.mem_iff.2 (ho.mem_iff.1 (List.mem_of_getElem? hi)))
      have e := (h2 k _ hi).symm.trans (h2' m _ hm)
      simp only [Option.some.injEq] at e
      rw [← e] at hm
      rw [hi, hm]
    · rw [List.getElem?_eq_none hk, List.getElem?_eq_none (by omega)]
  exact ⟨key o o' ho ho', key o (List.range t.length) ho (List.Perm.refl _)⟩

example : (transformTuple [2, 0, 1] numbering 0 ['a', 'b', 'c']).1 = .ok [1, 2, 0] ∧ (transformTuple [0, 2, 1] numbering 0 ['a', 'b', 'c']).1 = .ok [0, 2, 1] ∧
    [2, 0, 1].Perm (List.range 3) := ⟨rfl, rfl, by decide⟩

end Verif.Tuples
