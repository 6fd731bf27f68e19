import Verif.Tuples.Spec

/-! # Lemmas about the functions on tuples -/

namespace Verif.Tuples

variable {σ α β : Type}

theorem sequence_cons {f : Fn σ α β} {s s1 : σ} {a : α} {b : β} {t : List α} {r : Res (List β) × σ} (h : f s a = (.ok b, s1)) (hr : Sequence f s1 t r) :
    Sequence f s (a :: t) (match r with | (.ok bs, s) => (.ok (b :: bs), s) | (.throw e, s) => (.throw e, s) | (.ub, s) => (.ub, s)) := by
  obtain ⟨r1, r2⟩ := r
  rcases hr with ⟨bs, h1, h2⟩ | ⟨X, x, Y, bs, s', h1, h2, ⟨e, h3, h4⟩ | ⟨h3, h4⟩⟩
  · simp only at h1; subst h1
    exact Or.inl ⟨b :: bs, rfl, .cons h h2⟩
  · simp only at h3; subst h3
    exact Or.inr ⟨a :: X, x, Y, b :: bs, s', by simp [h1], .cons h h2, Or.inl ⟨e, rfl, h4⟩⟩
  · simp only at h3; subst h3
    exact Or.inr ⟨a :: X, x, Y, b :: bs, s', by simp [h1], .cons h h2, Or.inr ⟨rfl, h4⟩⟩

theorem calls_range (f : Fn σ α β) (t : List α) : ∀ (Y X : List α) (s : σ) (acc : List (Nat × β)), t = X ++ Y →
    ∃ r : Res (List β) × σ, Sequence f s Y r ∧ calls f t s ((List.range Y.length).map (X.length + ·)) acc =
      (match r with | (.ok bs, s) => (.ok (acc ++ (bs.zipIdx X.length).map fun p => (p.2, p.1)), s) | (.throw e, s) => (.throw e, s) | (.ub, s) => (.ub, s)) := by
  intro Y
  induction Y with
  | nil => intro X s acc _; exact ⟨(.ok [], s), Or.inl ⟨[], rfl, .nil⟩, by simp [calls]⟩
  | cons a Y ih =>
    intro X s acc ht
    have hr : (List.range (a :: Y).length).map (X.length + ·) = X.length :: (List.range Y.length).map ((X ++ [a]).length + ·) := by
      rw [List.length_cons, List.range_succ_eq_map]
      simp only [List.map_cons, List.map_map, Nat.add_zero, List.length_append, List.length_singleton]
      congr 1
      apply List.map_congr_left
      intro i _
      simp only [Function.comp]; omega
    have hg : t[X.length]? = some a := by simp [ht]
    rw [hr]
    rcases hf : f s a with ⟨b | e | _, s1⟩
    · obtain ⟨⟨r1, r2⟩, h1, h2⟩ := ih (X ++ [a]) s1 (acc ++ [(X.length, b)]) (by simp [ht])
      refine ⟨_, sequence_cons hf h1, ?_⟩
      simp only [calls, hg, hf, h2]
      cases r1 <;> simp [List.zipIdx_cons]
    · exact ⟨(.throw e, s1), Or.inr ⟨[], a, Y, [], s, rfl, .nil, Or.inl ⟨e, rfl, hf⟩⟩, by simp [calls, hg, hf]⟩
    · exact ⟨(.ub, s1), Or.inr ⟨[], a, Y, [], s, rfl, .nil, Or.inr ⟨rfl, hf⟩⟩, by simp [calls, hg, hf]⟩

theorem did_length {f : Fn σ α β} {s s' : σ} {t : List α} {bs : List β} (h : Did f s t bs s') : bs.length = t.length := by
  induction h with
  | nil => rfl
  | cons _ _ ih => simp [ih]

theorem lookup_of_mem {rs : List (Nat × β)} (hn : (rs.map (·.1)).Nodup) {i : Nat} {b : β} (h : (i, b) ∈ rs) : rs.lookup i = some b := by
  induction rs with
  | nil => cases h
  | cons p rs ih =>
    obtain ⟨j, c⟩ := p
    simp only [List.map_cons, List.nodup_cons] at hn
    rcases List.mem_cons.1 h with h' | h'
    · cases h'; simp [List.lookup]
    · have hij : i ≠ j := by rintro rfl; exact hn.1 (List.mem_map.2 ⟨(i, b), h', rfl⟩)
      have : (i == j) = false := by simpa using hij
      simp only [List.lookup, this]
      exact ih hn.2 h'

theorem inOrder_eq {rs : List (Nat × β)} (hn : (rs.map (·.1)).Nodup) {bs : List β} (h : ∀ i b, bs[i]? = some b → (i, b) ∈ rs) : inOrder bs.length rs = bs := by
  have key : ∀ (Y X : List β), bs = X ++ Y → ((List.range Y.length).map (X.length + ·)).filterMap (fun i => rs.lookup i) = Y := by
    intro Y
    induction Y with
    | nil => intro X _; rfl
    | cons b Y ih =>
      intro X hX
      rw [List.length_cons, List.range_succ_eq_map]
      have hl : rs.lookup X.length = some b := lookup_of_mem hn (h _ _ (by simp [hX]))
      simp only [List.map_cons, Nat.add_zero, List.filterMap_cons, hl, List.map_map]
      congr 1
      have := ih (X ++ [b]) (by simp [hX])
      rw [show ((fun x => X.length + x) ∘ Nat.succ) = fun x => (X ++ [b]).length + x from by funext i; simp; omega]
      exact this
  have := key bs [] rfl
  simpa [inOrder] using this

theorem calls_seq (f : Fn σ α β) (t : List α) : ∀ (o : List Nat) (s : σ) (acc : List (Nat × β)), (∀ i ∈ o, i < t.length) →
    ∃ r : Res (List β) × σ, Sequence f s (o.filterMap fun i => t[i]?) r ∧ calls f t s o acc =
      (match r with | (.ok bs, s) => (.ok (acc ++ o.zip bs), s) | (.throw e, s) => (.throw e, s) | (.ub, s) => (.ub, s)) := by
  intro o
  induction o with
  | nil => intro s acc _; exact ⟨(.ok [], s), Or.inl ⟨[], rfl, .nil⟩, by simp [calls]⟩
  | cons i o ih =>
    intro s acc ho
    have hi : i < t.length := ho i (by simp)
    have ht : t[i]? = some t[i] := List.getElem?_eq_getElem hi
    have he : (i :: o).filterMap (fun i => t[i]?) = t[i] :: o.filterMap fun i => t[i]? := by simp [ht]
    rw [he]
    rcases hf : f s t[i] with ⟨b | e | _, s1⟩
    · obtain ⟨⟨r1, r2⟩, h1, h2⟩ := ih s1 (acc ++ [(i, b)]) (fun j hj => ho j (by simp [hj]))
      refine ⟨_, sequence_cons hf h1, ?_⟩
      simp only [calls, ht, hf, h2]
      cases r1 <;> simp
    · exact ⟨(.throw e, s1), Or.inr ⟨[], t[i], _, [], s, rfl, .nil, Or.inl ⟨e, rfl, hf⟩⟩, by simp [calls, ht, hf]⟩
    · exact ⟨(.ub, s1), Or.inr ⟨[], t[i], _, [], s, rfl, .nil, Or.inr ⟨rfl, hf⟩⟩, by simp [calls, ht, hf]⟩

theorem sequence_ok_length {f : Fn σ α β} {s s' : σ} {t : List α} {bs : List β} (h : Sequence f s t (.ok bs, s')) : bs.length = t.length := by
  rcases h with ⟨bs', e, hd⟩ | ⟨_, _, _, _, _, _, _, ⟨e, he, _⟩ | ⟨he, _⟩⟩
  · cases e; exact did_length hd
  · cases he
  · cases he

theorem filterMap_at (t : List α) : ∀ o : List Nat, (∀ i ∈ o, i < t.length) → (o.filterMap fun i => t[i]?).length = o.length
  | [], _ => rfl
  | i :: o, h => by
    have ht : t[i]? = some (t[i]'(h i (by simp))) := List.getElem?_eq_getElem _
    simp [ht, filterMap_at t o fun j hj => h j (by simp [hj])]

theorem zip_keys {o : List Nat} {bs : List β} (h : bs.length = o.length) : (o.zip bs).map (·.1) = o := by
  rw [List.map_fst_zip]; omega

theorem inOrder_get (n : Nat) (rs : List (Nat × β)) (h : ∀ i, i < n → ∃ b, rs.lookup i = some b) :
    (inOrder n rs).length = n ∧ ∀ i, i < n → (inOrder n rs)[i]? = rs.lookup i := by
  induction n with
  | zero => exact ⟨rfl, fun i hi => absurd hi (Nat.not_lt_zero i)⟩
  | succ n ih =>
    obtain ⟨h1, h2⟩ := ih fun i hi => h i (by omega)
    obtain ⟨b, hb⟩ := h n (by omega)
    have he : inOrder (n + 1) rs = inOrder n rs ++ [b] := by simp [inOrder, List.range_succ, hb]
    refine ⟨by simp [he, h1], ?_⟩
    intro i hi
    rw [he]
    rcases Nat.lt_or_ge i n with hlt | hge
    · rw [List.getElem?_append_left (by omega)]; exact h2 i hlt
    · have : i = n := by omega
      subst this
      rw [List.getElem?_append_right (by omega), hb]; simp [h1]

theorem filterMap_same {f g : Nat → Option β} : ∀ o : List Nat, (∀ i ∈ o, f i = g i) → o.filterMap f = o.filterMap g
  | [], _ => rfl
  | i :: o, h => by
    simp only [List.filterMap_cons, h i (by simp), filterMap_same o fun j hj => h j (by simp [hj])]

theorem lookup_zip : ∀ (o : List Nat) (bs : List β), o.Nodup → bs.length = o.length → (o.filterMap fun i => (o.zip bs).lookup i) = bs
  | [], [], _, _ => rfl
  | [], _ :: _, _, h => by simp at h
  | _ :: _, [], _, h => by simp at h
  | i :: o, b :: bs, hn, h => by
    have hn' := List.nodup_cons.1 hn
    have ih := lookup_zip o bs hn'.2 (by simpa using h)
    simp only [List.zip_cons_cons, List.filterMap_cons, List.lookup_cons, beq_self_eq_true]
    congr 1
    conv => rhs; rw [← ih]
    apply filterMap_same
    intro j hj
    have : (j == i) = false := by
      have : j ≠ i := by rintro rfl; exact hn'.1 hj
      simpa using this
    simp [this]

theorem max_zeros : ∀ (l : List (Bool × Nat)) (m : Nat), (∀ p ∈ l, p.1 = false) → (l.map fun p => if p.1 then p.2 else 0).foldl max m = m
  | [], _, _ => rfl
  | (b, i) :: l, m, h => by
    have hb : b = false := h (b, i) (by simp)
    subst hb
    simp only [List.map_cons, Bool.false_eq_true, if_false, List.foldl_cons, Nat.max_zero]
    exact max_zeros l m fun p hp => h p (by simp [hp])

theorem findType_at {x : Ty} {X Y : List Ty} (hX : ({ x with ref := false } : Ty) ∉ X) (hY : ({ x with ref := false } : Ty) ∉ Y) :
    findType x (X ++ { x with ref := false } :: Y) = some X.length := by
  have no : ∀ (L : List Ty), ({ x with ref := false } : Ty) ∉ L → (L.map fun y => decide (({ x with ref := false } : Ty) = y)).count true = 0 := by
    intro L hL
    rw [List.count_eq_zero]
    intro h
    obtain ⟨y, hy, he⟩ := List.mem_map.1 h
    simp only [decide_eq_true_eq] at he
    exact hL (he ▸ hy)
  have nof : ∀ (L : List Ty) (k : Nat), ({ x with ref := false } : Ty) ∉ L → ∀ p ∈ (L.map fun y => decide (({ x with ref := false } : Ty) = y)).zipIdx k, p.1 = false := by
    intro L k hL p hp
    have : p.1 ∈ L.map fun y => decide (({ x with ref := false } : Ty) = y) := by
      have := List.fst_mem_of_mem_zipIdx (x := p) hp
      exact this
    obtain ⟨y, hy, he⟩ := List.mem_map.1 this
    rw [← he]
    simp only [decide_eq_false_iff_not]
    rintro rfl; exact hL hy
  simp only [findType, List.map_append, List.map_cons, List.count_append, List.count_cons, no X hX, no Y hY]
  simp only [decide_true, beq_self_eq_true, if_true, Nat.zero_add]
  simp only [List.zipIdx_append, List.zipIdx_cons, List.map_append, List.map_cons, List.foldl_append, List.foldl_cons, if_true, List.length_map, Nat.zero_add]
  rw [max_zeros _ 0 (nof X 0 hX), max_zeros _ _ (nof Y _ hY)]
  simp

end Verif.Tuples
