import Verif.Tuples.Lemmas

/-! # C177: functions on tuples -/

namespace Verif.Tuples

variable {σ α β : Type}

/-- C177: `for_each` calls the function for each element in order and stops at the first call that throws. -/
theorem c177_for_each (f : Fn σ α Unit) (s : σ) (t : List α) : ∃ r, Sequence f s t r ∧ forEach f s t = unitRes r := by
  induction t generalizing s with
  | nil => exact ⟨(.ok [], s), Or.inl ⟨[], rfl, .nil⟩, rfl⟩
  | cons a t ih =>
    rcases hf : f s a with ⟨_ | e | _, s1⟩
    · obtain ⟨⟨r1, r2⟩, h1, h2⟩ := ih s1
      refine ⟨_, sequence_cons hf h1, ?_⟩
      simp only [forEach, hf, h2]
      cases r1 <;> rfl
    · exact ⟨(.throw e, s1), Or.inr ⟨[], a, t, [], s, rfl, .nil, Or.inl ⟨e, rfl, hf⟩⟩, by simp [forEach, hf, unitRes]⟩
    · exact ⟨(.ub, s1), Or.inr ⟨[], a, t, [], s, rfl, .nil, Or.inr ⟨rfl, hf⟩⟩, by simp [forEach, hf, unitRes]⟩

/-- C177: `for_each_index` gives each element its position. -/
theorem c177_for_each_index (f : Nat → Fn σ α Unit) (s : σ) (t : List α) :
    ∃ r, Sequence (fun s (p : α × Nat) => f p.2 s p.1) s t.zipIdx r ∧ forEachIndex f 0 s t = unitRes r := by
  have key : ∀ (t : List α) (k : Nat) (s : σ), forEachIndex f k s t = forEach (fun s (p : α × Nat) => f p.2 s p.1) s (t.zipIdx k) := by
    intro t
    induction t with
    | nil => intro k s; rfl
    | cons a t ih =>
      intro k s
      simp only [forEachIndex, List.zipIdx_cons, forEach]
      rcases f k s a with ⟨_ | e | _, s1⟩
      · exact ih _ _
      · rfl
      · rfl
  rw [key t 0 s]
  exact c177_for_each _ s _

/-- C177: `tuple_to_array` calls the function for each element in order; the results are in the order of the elements. -/
theorem c177_array (f : Fn σ α β) (s : σ) (t : List α) : Sequence f s t (tupleToArray f s t) := by
  obtain ⟨⟨r1, r2⟩, h1, h2⟩ := calls_range f t t [] s [] rfl
  have h3 := h2
  simp only [List.length_nil, Nat.zero_add, List.map_id_fun', id, List.nil_append] at h3
  cases r1 with
  | ok bs =>
    have hb : bs.length = t.length := by
      rcases h1 with ⟨bs', e, hd⟩ | ⟨_, _, _, _, _, _, _, ⟨e, he, _⟩ | ⟨he, _⟩⟩
      · cases e; exact did_length hd
      · cases he
      · cases he
    have hi : inOrder t.length (bs.zipIdx.map fun p => (p.2, p.1)) = bs := by
      rw [← hb]
      apply inOrder_eq
      · have : ((bs.zipIdx.map fun p => (p.2, p.1)).map (·.1)) = List.range bs.length := by
          rw [List.map_map]
          exact List.zipIdx_map_snd 0 bs |>.trans (by simp [List.range_eq_range'])
        rw [this]; exact List.nodup_range
      · intro i b hb'
        rw [List.mem_map]
        exact ⟨(b, i), by simpa [List.mem_zipIdx_iff_getElem?] using hb', rfl⟩
    simp only [tupleToArray, h3]
    rw [hi]; exact h1
  | throw e => simp only [tupleToArray, h3]; exact h1
  | ub => simp only [tupleToArray, h3]; exact h1

/-- What a caller sees of a transformed tuple if they look at its elements in the given order. -/
def seen (order : List Nat) (r : Res (List β) × σ) : Res (List β) × σ :=
  match r with
  | (.ok rs, s) => (.ok (order.filterMap fun i => rs[i]?), s)
  | (.throw e, s) => (.throw e, s)
  | (.ub, s) => (.ub, s)

/-- C177: `transform_tuple` calls the function once for each element in the order the compiler chooses, until one throws; the results are at the positions of their elements. -/
theorem c177_transform (order : List Nat) (f : Fn σ α β) (s : σ) (t : List α) (ho : order.Perm (List.range t.length)) :
    Sequence f s (order.filterMap fun i => t[i]?) (seen order (transformTuple order f s t)) ∧
    ∀ rs, (transformTuple order f s t).1 = .ok rs → rs.length = t.length := by
  have hlt : ∀ i ∈ order, i < t.length := fun i hi => by simpa using ho.mem_iff.1 hi
  have hnd : order.Nodup := ho.nodup_iff.2 List.nodup_range
  obtain ⟨⟨r1, r2⟩, h1, h2⟩ := calls_seq f t order s [] hlt
  cases r1 with
  | ok bs =>
    have hl : bs.length = order.length := (sequence_ok_length h1).trans (filterMap_at t order hlt)
    have hk : ((order.zip bs).map (·.1)) = order := zip_keys hl
    have hg := inOrder_get t.length (order.zip bs) (by
      intro i hi
      have hm : i ∈ (order.zip bs).map (·.1) := by rw [hk]; exact ho.mem_iff.2 (by simpa using hi)
      obtain ⟨⟨j, b⟩, hp, rfl⟩ := List.mem_map.1 hm
      exact ⟨b, lookup_of_mem (by rw [hk]; exact hnd) hp⟩)
    have he : transformTuple order f s t = (.ok (inOrder t.length (order.zip bs)), r2) := by simp [transformTuple, h2]
    have hs : (order.filterMap fun i => (inOrder t.length (order.zip bs))[i]?) = bs := by
      have : (order.filterMap fun i => (inOrder t.length (order.zip bs))[i]?) = order.filterMap fun i => (order.zip bs).lookup i :=
        filterMap_same _ fun i hi => hg.2 i (hlt i hi)
      rw [this]
      exact lookup_zip order bs hnd hl
    rw [he]
    refine ⟨?_, fun rs h => ?_⟩
    · simp only [seen, hs]; exact h1
    · cases h; exact hg.1
  | throw e =>
    have he : transformTuple order f s t = (.throw e, r2) := by simp [transformTuple, h2]
    rw [he]
    exact ⟨h1, fun rs h => by cases h⟩
  | ub =>
    have he : transformTuple order f s t = (.ub, r2) := by simp [transformTuple, h2]
    rw [he]
    exact ⟨h1, fun rs h => by cases h⟩

/-- C177, part: the result of `transform_tuple` is that of the calls in order, if what the function returns depends on nothing but the element.
Missing: functions whose results depend on the calls before (`c177_order_violated`). -/
theorem c177_transform_partial (order : List Nat) (f : Fn σ α β) (g : α → β) (s : σ) (t : List α) (ho : order.Perm (List.range t.length)) (hg : ∀ s a, a ∈ t → (f s a).1 = .ok (g a)) :
    (transformTuple order f s t).1 = .ok (t.map g) := by
  have hlt : ∀ i ∈ order, i < t.length := fun i hi => by simpa using ho.mem_iff.1 hi
  have did : ∀ (u : List α) (s s' : σ) bs, (∀ a ∈ u, a ∈ t) → Did f s u bs s' → bs = u.map g := by
    intro u s s' bs hu hd
    induction hd with
    | nil => rfl
    | @cons s a b s' u bs s'' hf _ ih =>
      have := hg s a (hu a (by simp))
      rw [hf] at this
      simp at this
      rw [List.map_cons, ← ih (fun x hx => hu x (by simp [hx])), this]
  have hsub : ∀ a ∈ order.filterMap (fun i => t[i]?), a ∈ t := by
    intro a ha
    obtain ⟨i, _, hi⟩ := List.mem_filterMap.1 ha
    exact List.mem_of_getElem? hi
  obtain ⟨h1, h2⟩ := c177_transform order f s t ho
  rcases htr : transformTuple order f s t with ⟨r, s'⟩
  rw [htr] at h1 h2
  have bad : ∀ X a Y s1, order.filterMap (fun i => t[i]?) = X ++ a :: Y → (f s1 a).1 = .ok (g a) := fun X a Y s1 h => hg s1 a (hsub a (by rw [h]; simp))
  cases r with
  | ok rs =>
    have hlen := h2 rs rfl
    rcases h1 with ⟨bs, hb, hd⟩ | ⟨_, _, _, _, _, _, _, ⟨e, he, _⟩ | ⟨he, _⟩⟩
    · simp only [seen, Res.ok.injEq] at hb hd
      have hbs := did _ _ _ _ hsub hd
      simp only [Res.ok.injEq]
      apply List.ext_getElem?
      intro i
      rcases Nat.lt_or_ge i t.length with hi | hi
      · have hmem : i ∈ order := ho.mem_iff.2 (by simpa using hi)
        have key : ∀ o : List Nat, (∀ i ∈ o, i < t.length) → (o.filterMap fun i => rs[i]?) = (o.filterMap fun i => t[i]?).map g → i ∈ o → rs[i]? = (t.map g)[i]? := by
          intro o
          induction o with
          | nil => intro _ _ h; cases h
          | cons j o ih =>
            intro hlo he hm
            have hj := hlo j (by simp)
            have e1 : t[j]? = some t[j] := List.getElem?_eq_getElem hj
            have e2 : rs[j]? = some (rs[j]'(by omega)) := List.getElem?_eq_getElem _
            simp only [List.filterMap_cons, e1, e2, List.map_cons, List.cons.injEq] at he
            rcases List.mem_cons.1 hm with rfl | hm
            · rw [e2, List.getElem?_map, e1, he.1]; rfl
            · exact ih (fun k hk => hlo k (by simp [hk])) he.2 hm
        exact key order hlt (by rw [hb, hbs]) hmem
      · rw [List.getElem?_eq_none (by omega), List.getElem?_eq_none (by simpa using hi)]
    · simp [seen] at he
    · simp [seen] at he
  | throw e =>
    rcases h1 with ⟨bs, hb, hd⟩ | ⟨X, a, Y, _, s1, hX, _, ⟨e, he, hf⟩ | ⟨he, _⟩⟩
    · simp [seen] at hb
    · have := bad X a Y s1 hX
      rw [hf] at this; cases this
    · simp [seen] at he
  | ub =>
    rcases h1 with ⟨bs, hb, hd⟩ | ⟨X, a, Y, _, s1, hX, _, ⟨e, he, hf⟩ | ⟨he, hf⟩⟩
    · simp [seen] at hb
    · simp [seen] at he
    · have := bad X a Y s1 hX
      rw [hf] at this; cases this

/-- A function object that numbers its calls. -/
def counter : Fn Nat Nat Nat := fun n _ => (.ok n, n + 1)

/-- C177 is violated by `transform_tuple` for functions that depend on the calls before: two orders a compiler may choose give different tuples, where `tuple_to_array` gives one. -/
theorem c177_order_violated : [0, 1].Perm (List.range 2) ∧ [1, 0].Perm (List.range 2) ∧
    (transformTuple [0, 1] counter 0 [7, 8]).1 = .ok [0, 1] ∧ (transformTuple [1, 0] counter 0 [7, 8]).1 = .ok [1, 0] ∧ (tupleToArray counter 0 [7, 8]).1 = .ok [0, 1] := by
  refine ⟨by decide, by decide, rfl, rfl, rfl⟩

example : (forEach (fun s a => if a = 3 then (.throw .logic, s) else (.ok (), s ++ [a])) [] [1, 2, 3, 4] : Res Unit × List Nat) = (.throw .logic, [1, 2]) := by decide
example : (forEachIndex (fun i s a => (.ok (), s ++ [(i, a)])) 0 [] [5, 6] : Res Unit × List (Nat × Nat)) = (.ok (), [(0, 5), (1, 6)]) := by decide
example : (transformTuple [2, 0, 1] (fun (s : Nat) a => (.ok (a * a), s + 1)) 0 [1, 2, 3]).1 = .ok [1, 4, 9] := by decide

/-! ## Positions of types -/

/-- C177: the position of a type is that of its only match; with no or several matches the program does not compile. -/
theorem c177_find (x : Ty) (u : List Ty) (i : Nat) :
    findType x u = some i ↔ (u[i]? = some { x with ref := false } ∧ ∀ j, u[j]? = some { x with ref := false } → j = i) := by
  constructor
  · intro h
    have hc : (u.map fun y => decide (({ x with ref := false } : Ty) = y)).count true = 1 := by
      apply Classical.byContradiction
      intro hc
      simp [findType, hc] at h
    have hm : ({ x with ref := false } : Ty) ∈ u := by
      have : true ∈ u.map fun y => decide (({ x with ref := false } : Ty) = y) := by
        rw [← List.count_pos_iff]; omega
      obtain ⟨y, hy, he⟩ := List.mem_map.1 this
      simp only [decide_eq_true_eq] at he
      exact he ▸ hy
    obtain ⟨X, Y, hXY⟩ := List.append_of_mem hm
    have cnt : ∀ L : List Ty, (L.map fun y => decide (({ x with ref := false } : Ty) = y)).count true = 0 → ({ x with ref := false } : Ty) ∉ L := by
      intro L hL hmem
      rw [List.count_eq_zero] at hL
      exact hL (List.mem_map.2 ⟨_, hmem, by simp⟩)
    rw [hXY] at hc
    simp only [List.map_append, List.map_cons, List.count_append, List.count_cons, decide_true, beq_self_eq_true, if_true] at hc
    have hX := cnt X (by omega)
    have hY := cnt Y (by omega)
    rw [hXY, findType_at hX hY] at h
    simp only [Option.some.injEq] at h
    subst h
    refine ⟨by simp [hXY], ?_⟩
    intro j hj
    rw [hXY] at hj
    rcases Nat.lt_trichotomy j X.length with hlt | heq | hgt
    · rw [List.getElem?_append_left hlt] at hj
      exact absurd (List.mem_of_getElem? hj) hX
    · exact heq
    · rw [List.getElem?_append_right (by omega)] at hj
      obtain ⟨k, hk⟩ : ∃ k, j - X.length = k + 1 := ⟨j - X.length - 1, by omega⟩
      rw [hk, List.getElem?_cons_succ] at hj
      exact absurd (List.mem_of_getElem? hj) hY
  · rintro ⟨h1, h2⟩
    have hi : i < u.length := (List.getElem?_eq_some_iff.1 h1).1
    have hu : u = u.take i ++ { x with ref := false } :: u.drop (i + 1) := by
      have : u[i] = { x with ref := false } := (List.getElem?_eq_some_iff.1 h1).2
      rw [← this, ← List.drop_eq_getElem_cons hi, List.take_append_drop]
    have hX : ({ x with ref := false } : Ty) ∉ u.take i := by
      intro hm
      obtain ⟨j, hj⟩ := List.mem_iff_getElem?.1 hm
      have hji : j < i := by
        have := (List.getElem?_eq_some_iff.1 hj).1
        simp at this; omega
      have := h2 j (by rw [← hj, List.getElem?_take_of_lt hji])
      omega
    have hY : ({ x with ref := false } : Ty) ∉ u.drop (i + 1) := by
      intro hm
      obtain ⟨j, hj⟩ := List.mem_iff_getElem?.1 hm
      rw [List.getElem?_drop] at hj
      have := h2 _ hj
      omega
    have hl : (u.take i).length = i := by simp; omega
    rw [hu, findType_at hX hY, hl]

/-- C177: `map_types` gives for each type of the first list its position in the second, and compiles exactly if each has one there. -/
theorem c177_map_types (u t : List Ty) :
    (∀ r, mapTypes u t = some r ↔ (r.length = u.length ∧ ∀ (i : Nat) (x : Ty) (k : Nat), u[i]? = some x → r[i]? = some k → t[k]? = some { x with ref := false } ∧ ∀ j : Nat, t[j]? = some { x with ref := false } → j = k)) ∧
    (mapTypes u t = none ↔ ∃ x ∈ u, ∀ k : Nat, ¬ (t[k]? = some { x with ref := false } ∧ ∀ j : Nat, t[j]? = some { x with ref := false } → j = k)) := by
  have hsome : ∀ (u : List Ty) r, mapTypes u t = some r ↔ (r.length = u.length ∧ ∀ (i : Nat) (x : Ty) (k : Nat), u[i]? = some x → r[i]? = some k → findType x t = some k) := by
    intro u
    induction u with
    | nil =>
      intro r
      simp only [mapTypes, List.mapM_nil]
      constructor
      · intro h
        have : r = [] := by simpa using h.symm
        subst this
        exact ⟨rfl, fun i x k hx _ => by simp at hx⟩
      · rintro ⟨h, _⟩
        have : r = [] := List.eq_nil_of_length_eq_zero h
        subst this; rfl
    | cons x u ih =>
      intro r
      simp only [mapTypes, List.mapM_cons] at ih ⊢
      constructor
      · intro h
        cases hx : findType x t with
        | none => simp [hx] at h
        | some k =>
          cases hu : u.mapM (fun x => findType x t) with
          | none => simp [hx, hu] at h
          | some rs =>
            simp [hx, hu] at h
            subst h
            have := (ih rs).1 hu
            refine ⟨by simp [this.1], ?_⟩
            intro i y j hy hj
            cases i with
            | zero => simp at hy hj; subst hy; subst hj; exact hx
            | succ i => exact this.2 i y j (by simpa using hy) (by simpa using hj)
      · rintro ⟨h1, h2⟩
        cases r with
        | nil => simp at h1
        | cons k rs =>
          have hx := h2 0 x k rfl rfl
          have hu := (ih rs).2 ⟨by simpa using h1, fun i y j hy hj => h2 (i + 1) y j (by simpa using hy) (by simpa using hj)⟩
          simp [hx, hu]
  have hnone : ∀ (u : List Ty), mapTypes u t = none ↔ ∃ x ∈ u, findType x t = none := by
    intro u
    induction u with
    | nil => simp [mapTypes]
    | cons x u ih =>
      simp only [mapTypes, List.mapM_cons] at ih ⊢
      cases hx : findType x t with
      | none => simp [hx]
      | some k =>
        cases hu : u.mapM (fun x => findType x t) with
        | none => simpa [hx, hu] using ih.1 hu
        | some rs =>
          simp only [hu] at ih
          simp [hx]
          intro y hy h
          have := ih.2 ⟨y, hy, h⟩
          cases this
  constructor
  · intro r
    rw [hsome u r]
    constructor
    · rintro ⟨h1, h2⟩
      exact ⟨h1, fun i x k hx hk => (c177_find x t k).1 (h2 i x k hx hk)⟩
    · rintro ⟨h1, h2⟩
      exact ⟨h1, fun i x k hx hk => (c177_find x t k).2 (h2 i x k hx hk)⟩
  · rw [hnone u]
    constructor
    · rintro ⟨x, hx, h⟩
      refine ⟨x, hx, fun k hk => ?_⟩
      rw [(c177_find x t k).2 hk] at h; cases h
    · rintro ⟨x, hx, h⟩
      refine ⟨x, hx, ?_⟩
      cases hf : findType x t with
      | none => rfl
      | some k => exact absurd ((c177_find x t k).1 hf) (h k)

example : mapTypes [⟨3, true⟩, ⟨1, false⟩] [⟨1, false⟩, ⟨2, false⟩, ⟨3, false⟩] = some [2, 0] := by decide
example : mapTypes [⟨3, false⟩] [⟨3, false⟩, ⟨3, false⟩] = none := by decide

end Verif.Tuples
