import Verif.Text.Spec

/-! # Names of enumerators (C50), case-insensitive texts (C91), separators (C92) -/

namespace Verif.Text

/-! ## C50 -/

theorem traverse_snoc (c : Nat) (rest : Str) (acc : Option Str) (h : ¬ (c = comma ∧ rest.head? = some space)) :
    traverse (c :: rest) acc = traverse rest (some (c :: acc.getD [])) := by
  cases rest with
  | nil => conv => lhs; rw [traverse.eq_def]
  | cons d rest =>
    simp only [List.head?_cons, Option.some.injEq] at h
    conv => lhs; rw [traverse.eq_def]
    simp only [if_neg h]

theorem traverse_name (x : Str) (hx : comma ∉ x) (rest : Str) (acc : Option Str) (hne : x ≠ []) :
    traverse (x ++ rest) acc = traverse rest (some (x.reverse ++ acc.getD [])) := by
  induction x generalizing acc with
  | nil => exact absurd rfl hne
  | cons c x ih =>
    have hc : c ≠ comma := by rintro rfl; exact hx List.mem_cons_self
    rw [List.cons_append, traverse_snoc _ _ _ (fun h => hc h.1)]
    by_cases e : x = []
    · subst e; rfl
    · rw [ih (fun h => hx (List.mem_cons_of_mem _ h)) _ e]
      simp

theorem traverse_sep (x rest : Str) (hne : x ≠ []) :
    traverse (commaSpace ++ rest) (some x.reverse) = traverse rest none >>= fun names => .ok (x :: names) := by
  show traverse (comma :: space :: rest) _ = _
  rw [traverse.eq_def]
  simp only [and_self, if_true]
  cases h : x.reverse with
  | nil => exact absurd (List.reverse_eq_nil_iff.1 h) hne
  | cons a as => simp only [← h, List.reverse_reverse]

theorem traverse_join (ids : List Str) (hids : ∀ x ∈ ids, Ident x) (hne : ids ≠ []) (acc : Option Str)
    (ha : acc = none ∨ acc = some []) : traverse (join commaSpace ids) acc = .ok ids := by
  have hg : acc.getD [] = [] := by rcases ha with rfl | rfl <;> rfl
  induction ids generalizing acc with
  | nil => exact absurd rfl hne
  | cons x ids ih =>
    obtain ⟨h1, h2⟩ := hids x List.mem_cons_self
    cases ids with
    | nil =>
      have := traverse_name x h2 [] acc h1
      rw [List.append_nil, hg, List.append_nil] at this
      show traverse x acc = _
      rw [this]
      cases h : x.reverse with
      | nil => exact absurd (List.reverse_eq_nil_iff.1 h) h1
      | cons a as =>
        rw [traverse]
        · rw [← h, List.reverse_reverse]
        · intro h'; cases h'
    | cons y ids =>
      show traverse (x ++ commaSpace ++ join commaSpace (y :: ids)) acc = _
      rw [List.append_assoc, traverse_name x h2 _ acc h1, hg, List.append_nil, traverse_sep x _ h1,
        ih (fun z hz => hids z (List.mem_cons_of_mem _ hz)) (by simp) none (.inl rfl) rfl]
      rfl

/-- C50: the names parsed from the text of the macro are the names, in order; an empty list has none. Missing: names without white space after the commas (`c50_no_space_violated`). -/
theorem c50_member_list_partial (ids : List Str) (hids : ∀ x ∈ ids, Ident x) : memberList (join commaSpace ids) = .ok ids := by
  cases ids with
  | nil => rfl
  | cons x ids => exact traverse_join _ hids (by simp) _ (.inr rfl)

/-- The enumeration declared with these names. -/
def Declared (ids : List Str) (e : Enum) : Prop :=
  e.count = ids.length ∧ memberList (join commaSpace ids) = .ok e.names

theorem fromStringLoop_spec (eq : Str → Str → Bool) (s : Str) (names : List Str) (k : Nat) (hk : k + names.length ≤ 256) :
    (∀ pre x post, names = pre ++ x :: post → eq x s = true → (∀ y ∈ pre, eq y s = false) →
      fromStringLoop eq s names k = .ok (k + pre.length)) ∧
    ((∀ x ∈ names, eq x s = false) → fromStringLoop eq s names k = .throw .runtime) := by
  induction names generalizing k with
  | nil =>
    refine ⟨?_, fun _ => rfl⟩
    intro pre x post h
    cases pre <;> cases h
  | cons y names ih =>
    simp only [List.length_cons] at hk
    refine ⟨?_, ?_⟩
    · intro pre x post h hx hpre
      cases pre with
      | nil => cases h; simp [fromStringLoop, hx]
      | cons z pre =>
        cases h
        have hm : (k + 1) % 256 = k + 1 := by
          have : (pre.append (x :: post)).length = pre.length + (post.length + 1) := List.length_append
          exact Nat.mod_eq_of_lt (by omega)
        have h1 := (ih (k + 1) (by omega)).1 pre x post rfl hx (fun w hw => hpre w (List.mem_cons_of_mem _ hw))
        rw [fromStringLoop, if_neg (by rw [hpre _ List.mem_cons_self]; simp), hm, h1]
        show Res.ok (k + 1 + pre.length) = .ok (k + (pre.length + 1))
        congr 1; omega
    · intro h
      rw [fromStringLoop, if_neg (by rw [h _ List.mem_cons_self]; simp)]
      by_cases e : names = []
      · subst e; rfl
      · have hl : 0 < names.length := List.length_pos_iff.2 e
        rw [Nat.mod_eq_of_lt (by omega)]
        exact (ih (k + 1) (by omega)).2 fun x hx => h x (List.mem_cons_of_mem _ hx)

/-- C50: an element converted to text is its name, and the text converted back is the element; any other text is rejected.
(The underlying type is `uint8_t`, the compiler allows at most 255 names.) -/
theorem c50_round_trip (ids : List Str) (hids : ∀ x ∈ ids, Ident x) (hn : ids.Nodup) (hl : ids.length ≤ 255) (e : Enum)
    (he : Declared ids e) (v : Nat) (hv : v < ids.length) :
    toString e v = .ok ids[v] ∧ fromString e ids[v] = .ok v := by
  obtain ⟨hc, hm⟩ := he
  rw [c50_member_list_partial ids hids] at hm
  have hm : ids = e.names := by injection hm
  refine ⟨?_, ?_⟩
  · simp only [toString, toIndex, hc]
    rw [if_neg (by omega)]
    simp only [Res.ok_bind, nameAt, ← hm, List.getElem?_eq_getElem hv]
  · rw [fromString, ← hm]
    have hd : ids = ids.take v ++ ids[v] :: ids.drop (v + 1) := by
      conv => lhs; rw [← List.take_append_drop v ids, List.drop_eq_getElem_cons hv]
    have := (fromStringLoop_spec equal ids[v] ids 0 (by omega)).1 (ids.take v) ids[v] (ids.drop (v + 1)) hd (by simp [equal])
      (by
        intro y hy
        rw [hd] at hn
        have := (List.nodup_append.1 hn).2.2 y hy ids[v] List.mem_cons_self
        simpa [equal] using this)
    rw [this, Nat.zero_add, List.length_take, Nat.min_eq_left (by omega)]

theorem c50_other_text (ids : List Str) (hids : ∀ x ∈ ids, Ident x) (hl : ids.length ≤ 255) (e : Enum) (he : Declared ids e)
    (s : Str) (hs : s ∉ ids) : fromString e s = .throw .runtime := by
  obtain ⟨_, hm⟩ := he
  rw [c50_member_list_partial ids hids] at hm
  have hm : ids = e.names := by injection hm
  rw [fromString, ← hm]
  refine (fromStringLoop_spec equal s ids 0 (by omega)).2 ?_
  intro x hx
  simp only [equal, beq_eq_false_iff_ne]
  rintro rfl; exact hs hx

/-- C50: values that are not elements have no text, and their index is rejected. -/
theorem c50_not_an_element (e : Enum) (v : Nat) (hv : e.count ≤ v) :
    toString e v = .throw .runtime ∧ fromIndex e v = .throw .runtime ∧ toIndex e v = .throw .runtime := by
  simp [toString, toIndex, fromIndex, hv]

theorem c50_index (e : Enum) (v : Nat) (hv : v < e.count) : toIndex e v = .ok v ∧ fromIndex e v = .ok v := by
  simp [toIndex, fromIndex]; omega

/-- `AWL_SEQUENTIAL_ENUM(E, Ab, c, ABc)`. -/
example : Declared [[65, 98], [99], [65, 66, 99]] ⟨3, [[65, 98], [99], [65, 66, 99]]⟩ := ⟨rfl, rfl⟩
example : memberList [65, 98, 44, 32, 99, 44, 32, 65, 66, 99] = .ok [[65, 98], [99], [65, 66, 99]] := rfl
example : (∀ x ∈ [[65, 98], [99], [65, 66, 99]], Ident x) ∧ [[65, 98], [99], [65, 66, 99]].Nodup := by
  unfold Ident comma; decide

/-- C50 is violated for names written without white space after the commas: `A,B` is taken for one name, and the second
element has no name: the access is undefined. -/
theorem c50_no_space_violated (ids : List Str) (hids : ∀ x ∈ ids, Ident x ∧ space ∉ x) (hl : 2 ≤ ids.length) :
    ∃ name, memberList (join [comma] ids) = .ok [name] ∧ name ∉ ids ∧ toString ⟨ids.length, [name]⟩ 1 = .ub := by
  have hj : ∀ l : List Str, (∀ x ∈ l, Ident x ∧ space ∉ x) → space ∉ join [comma] l := by
    intro l
    induction l with
    | nil => simp [join]
    | cons x l ih =>
      intro h hm
      cases l with
      | nil => exact (h x List.mem_cons_self).2 hm
      | cons y l =>
        simp only [join, List.mem_append, List.mem_singleton] at hm
        rcases hm with (hm | hm) | hm
        · exact (h x List.mem_cons_self).2 hm
        · cases hm
        · exact ih (fun z hz => h z (List.mem_cons_of_mem _ hz)) hm
  have htr : ∀ (s : Str) (acc : Str), space ∉ s → s ≠ [] → traverse s (some acc) = .ok [acc.reverse ++ s] := by
    intro s
    induction s with
    | nil => intro _ _ h; exact absurd rfl h
    | cons c s ih =>
      intro acc hs _
      rw [traverse_snoc _ _ _ (fun h => hs (List.mem_cons_of_mem _ (List.mem_of_mem_head? (by rw [h.2]; rfl))))]
      by_cases e : s = []
      · subst e
        rw [traverse]
        · simp
        · intro h; cases h
      · rw [ih _ (fun h => hs (List.mem_cons_of_mem _ h)) e]
        simp
  match ids, hl with
  | x :: y :: l, _ =>
    have hs := hj _ hids
    have hc : comma ∈ join [comma] (x :: y :: l) := by simp [join]
    refine ⟨join [comma] (x :: y :: l), ?_, ?_, ?_⟩
    · have := htr _ [] hs (List.ne_nil_of_mem hc)
      simpa [memberList] using this
    · intro h; exact (hids _ h).1.2 hc
    · simp [toString, toIndex, nameAt]

example : memberList [65, 44, 66] = .ok [[65, 44, 66]] := rfl

/-! ## C91: texts in which case does not matter -/

/-- C91: for texts without negative characters, the comparison is the lexicographic order of the lowered texts. -/
theorem c91_lexicographic_partial (low : Int → Int) (a b : List Int) (ha : ∀ c ∈ a, 0 ≤ c) (hb : ∀ c ∈ b, 0 ≤ c) :
    ∃ r, lessI low a b = .ok r ∧ (r = true ↔ lexI low a b) := by
  induction a generalizing b with
  | nil =>
    cases b with
    | nil => exact ⟨false, rfl, by simp [lexI]⟩
    | cons c b => exact ⟨true, rfl, by simp [lexI]⟩
  | cons c a ih =>
    cases b with
    | nil => exact ⟨false, rfl, by simp [lexI]⟩
    | cons d b =>
      have hc := ha c List.mem_cons_self
      have hd := hb d List.mem_cons_self
      obtain ⟨r, h1, h2⟩ := ih b (fun x hx => ha x (List.mem_cons_of_mem _ hx)) (fun x hx => hb x (List.mem_cons_of_mem _ hx))
      simp only [lessI, lower]
      rw [if_neg (by omega), if_neg (by omega)]
      simp only [Res.ok_bind]
      by_cases e : low c - low d = 0
      · rw [if_neg (by omega)]
        refine ⟨r, h1, ?_⟩
        simp only [lexI, h2]
        constructor
        · intro h; exact .inr ⟨by omega, h⟩
        · rintro (h | h)
          · omega
          · exact h.2
      · rw [if_pos e]
        refine ⟨decide (low c - low d < 0), rfl, ?_⟩
        simp only [decide_eq_true_eq, lexI]
        constructor
        · intro h; exact .inl (by omega)
        · rintro (h | h)
          · omega
          · omega

theorem lexI_irrefl (low : Int → Int) (a : List Int) : ¬ lexI low a a := by
  induction a with
  | nil => simp [lexI]
  | cons c a ih => simp [lexI, ih]

theorem lexI_trans (low : Int → Int) (a b c : List Int) (h1 : lexI low a b) (h2 : lexI low b c) : lexI low a c := by
  induction a generalizing b c with
  | nil =>
    cases b <;> cases c <;> simp_all [lexI]
  | cons x a ih =>
    cases b with
    | nil => simp [lexI] at h1
    | cons y b =>
      cases c with
      | nil => simp [lexI] at h2
      | cons z c =>
        simp only [lexI] at h1 h2 ⊢
        rcases h1 with h1 | ⟨h1, h1'⟩ <;> rcases h2 with h2 | ⟨h2, h2'⟩
        · exact .inl (by omega)
        · exact .inl (by omega)
        · exact .inl (by omega)
        · exact .inr ⟨by omega, ih b c h1' h2'⟩

theorem lexI_total (low : Int → Int) (a b : List Int) : lexI low a b ∨ lexI low b a ∨ a.map low = b.map low := by
  induction a generalizing b with
  | nil => cases b <;> simp [lexI]
  | cons x a ih =>
    cases b with
    | nil => simp [lexI]
    | cons y b =>
      simp only [lexI, List.map_cons, List.cons.injEq]
      have := ih b
      by_cases h1 : low x < low y
      · exact .inl (.inl h1)
      · by_cases h2 : low y < low x
        · exact .inr (.inl (.inl h2))
        · have e : low x = low y := by omega
          rcases this with h | h | h
          · exact .inl (.inr ⟨e, h⟩)
          · exact .inr (.inl (.inr ⟨e.symm, h⟩))
          · exact .inr (.inr ⟨e, h⟩)

theorem lexI_congr (low : Int → Int) (a b : List Int) (h : a.map low = b.map low) : ¬ lexI low a b := by
  induction a generalizing b with
  | nil => cases b <;> simp_all [lexI]
  | cons x a ih =>
    cases b with
    | nil => simp at h
    | cons y b =>
      simp only [List.map_cons, List.cons.injEq] at h
      simp only [lexI]
      rintro (h' | h')
      · omega
      · exact ih b h.2 h'.2

/-- C91: it is a strict weak order: irreflexive, transitive, and the texts it does not tell apart are exactly those that
are the same but for case; that is an equivalence. -/
theorem c91_strict_weak_partial (low : Int → Int) (a b c : List Int) (ha : ∀ x ∈ a, 0 ≤ x) (hb : ∀ x ∈ b, 0 ≤ x)
    (hc : ∀ x ∈ c, 0 ≤ x) :
    lessI low a a = .ok false ∧
    (lessI low a b = .ok true → lessI low b c = .ok true → lessI low a c = .ok true) ∧
    ((lessI low a b = .ok false ∧ lessI low b a = .ok false) ↔ a.map low = b.map low) := by
  have key : ∀ x y : List Int, (∀ c ∈ x, 0 ≤ c) → (∀ c ∈ y, 0 ≤ c) →
      ((lessI low x y = .ok true ↔ lexI low x y) ∧ (lessI low x y = .ok false ↔ ¬ lexI low x y)) := by
    intro x y hx hy
    obtain ⟨r, h1, h2⟩ := c91_lexicographic_partial low x y hx hy
    rw [h1, ← h2]
    cases r <;> simp
  refine ⟨(key a a ha ha).2.2 (lexI_irrefl low a), ?_, ?_⟩
  · intro h1 h2
    exact (key a c ha hc).1.2 (lexI_trans low a b c ((key a b ha hb).1.1 h1) ((key b c hb hc).1.1 h2))
  · rw [(key a b ha hb).2, (key b a hb ha).2]
    constructor
    · rintro ⟨h1, h2⟩
      rcases lexI_total low a b with h | h | h
      · exact absurd h h1
      · exact absurd h h2
      · exact h
    · intro h
      exact ⟨lexI_congr low a b h, lexI_congr low b a h.symm⟩

/-- C91: equality without case says yes exactly for the texts that are the same but for case. -/
theorem c91_equal (low : Nat → Nat) (a b : Str) : equalI low a b = true ↔ a.map low = b.map low := by
  induction a generalizing b with
  | nil => cases b <;> simp [equalI]
  | cons x a ih =>
    cases b with
    | nil => simp [equalI]
    | cons y b =>
      have := ih b
      simp only [equalI, Bool.and_eq_true, beq_iff_eq, List.all_eq_true] at this
      simp only [equalI, List.length_cons, Bool.and_eq_true, beq_iff_eq, List.zip_cons_cons, List.all_cons, List.map_cons,
        List.cons.injEq, List.all_eq_true, Nat.add_right_cancel_iff, ← this]
      constructor
      · rintro ⟨h1, h2, h3⟩; exact ⟨h2, h1, h3⟩
      · rintro ⟨h1, h2, h3⟩; exact ⟨h2, h1, h3⟩

/-- C50, C91: an element is found by its name in any case, if the names are distinct whatever the case. -/
theorem c91_enum_name (low : Nat → Nat) (ids : List Str) (hids : ∀ x ∈ ids, Ident x) (hn : (ids.map (·.map low)).Nodup)
    (hl : ids.length ≤ 255) (e : Enum) (he : Declared ids e) (v : Nat) (hv : v < ids.length) (s : Str)
    (hs : s.map low = ids[v].map low) : fromStringI low e s = .ok v := by
  obtain ⟨_, hm⟩ := he
  rw [c50_member_list_partial ids hids] at hm
  have hm : ids = e.names := by injection hm
  rw [fromStringI, ← hm]
  have hd : ids = ids.take v ++ ids[v] :: ids.drop (v + 1) := by
    conv => lhs; rw [← List.take_append_drop v ids, List.drop_eq_getElem_cons hv]
  have := (fromStringLoop_spec (equalI low) s ids 0 (by omega)).1 (ids.take v) ids[v] (ids.drop (v + 1)) hd
    ((c91_equal low _ _).2 hs.symm)
    (by
      intro y hy
      rw [hd, List.map_append] at hn
      have := (List.nodup_append.1 hn).2.2 (y.map low) (List.mem_map.2 ⟨y, hy, rfl⟩) (ids[v].map low) List.mem_cons_self
      cases h : equalI low y s with
      | false => rfl
      | true => exact absurd (((c91_equal low _ _).1 h).trans hs) this)
  rw [this, Nat.zero_add, List.length_take, Nat.min_eq_left (by omega)]

/-- Lower case letters. -/
def asciiLow (c : Int) : Int := if 65 ≤ c ∧ c ≤ 90 then c + 32 else c

example : lessI asciiLow [65, 98] [97, 67] = .ok true ∧ lessI asciiLow [65] [97] = .ok false ∧
    lessI asciiLow [65] [97, 98] = .ok true := by decide

/-- C91 is violated for other texts: with `char` signed, the first character of a text in UTF-8 that is not ASCII makes the
comparison undefined. -/
theorem c91_not_ascii_violated (low : Int → Int) (c d : Int) (a b : List Int) (hc : c < -1) :
    lessI low (c :: a) (d :: b) = .ub := by
  simp [lessI, lower, hc]

example : lessI asciiLow [-48, -65] [-47, -113] = .ub := by decide

/-! ## C92: separators -/

/-- C92: writing the separator before every item, whatever they are, puts it between the items and nowhere else. -/
theorem c92_separated (sep : Str) (xs : List Str) : separated sep true xs = join sep xs := by
  have h : ∀ (x : Str) (xs : List Str), join sep (x :: xs) = x ++ separated sep false xs := by
    intro x xs
    induction xs generalizing x with
    | nil => simp [join, separated]
    | cons y xs ih => rw [join, ih y, separated, List.append_assoc, List.append_assoc]; simp
  cases xs with
  | nil => rfl
  | cons x xs => rw [h, separated]

example : separated commaSpace true [[65], [], [66]] = [65, 44, 32, 44, 32, 66] := rfl

end Verif.Text
