import Verif.Testing.Spec

/-! # The command line (C59) and the exit code (C60) -/

namespace Verif.Testing

/-! ## The command line -/

theorem optionName_some (L : Locale) (s n : Str) :
    optionName L s = some n ↔ IsName L n ∧ 2 ≤ n.length ∧ s = dash :: dash :: n := by
  constructor
  · intro h
    match s, h with
    | a :: b :: c :: d :: rest, h =>
      simp only [optionName] at h
      split at h
      · rename_i hc
        cases h
        obtain ⟨rfl, rfl, h3, h4⟩ := hc
        refine ⟨⟨c, d :: rest, rfl, h3, ?_⟩, by simp, rfl⟩
        intro x hx
        have := List.all_eq_true.1 h4 x hx
        simp only [Bool.or_eq_true, beq_iff_eq] at this
        rcases this with (h | h) | h
        · exact .inl h
        · exact .inr (.inl h)
        · exact .inr (.inr h)
      · cases h
    | [], h => simp [optionName] at h
    | [_], h => simp [optionName] at h
    | [_, _], h => simp [optionName] at h
    | [_, _, _], h => simp [optionName] at h
  · rintro ⟨⟨c, rest, rfl, h1, h2⟩, h3, rfl⟩
    match rest, h2, h3 with
    | [], _, h3 => simp at h3
    | d :: rest, h2, _ =>
      simp only [optionName]
      rw [if_pos]
      refine ⟨by simp, by simp, h1, ?_⟩
      rw [List.all_eq_true]
      intro x hx
      simp only [Bool.or_eq_true, beq_iff_eq]
      rcases h2 x hx with h | h | h
      · exact .inl (.inl h)
      · exact .inl (.inr h)
      · exact .inr h

theorem optionName_none (L : Locale) (s : Str) : optionName L s = none ↔ ¬ (LooksLikeOption L s ∧ 4 ≤ s.length) := by
  cases h : optionName L s with
  | none =>
    simp only [true_iff]
    rintro ⟨⟨n, hn, rfl⟩, hl⟩
    have := (optionName_some L (dash :: dash :: n) n).2 ⟨hn, by simp at hl; omega, rfl⟩
    rw [h] at this; cases this
  | some n =>
    rw [optionName_some] at h
    simp only [reduceCtorEq, false_iff, Classical.not_not]
    obtain ⟨h1, h2, rfl⟩ := h
    exact ⟨⟨n, h1, rfl⟩, by simp; omega⟩

/-- The map of an option list. -/
def toOpts (is : List Item) : Options := is.map (fun i => (i.name, ⟨i.value, 0⟩))

theorem find_append (o : Options) (name n : Str) (x : Opt) (h : find o name = none) :
    find (o ++ [(n, x)]) name = if n = name then some x else none := by
  unfold find at *
  rw [List.find?_append]
  have : o.find? (fun p => p.1 == name) = none := by simpa using h
  rw [this]
  simp only [Option.none_or, List.find?_cons, List.find?_nil]
  by_cases e : n = name
  · simp [e]
  · have : (n == name) = false := by simpa using e
    simp [e, this]

theorem find_none_iff (o : Options) (name : Str) : find o name = none ↔ name ∉ o.map (·.1) := by
  simp only [find, Option.map_eq_none_iff, List.find?_eq_none, List.mem_map, beq_iff_eq]
  constructor
  · rintro h ⟨p, hp, e⟩; exact h p hp e
  · intro h p hp e; exact h ⟨p, hp, e⟩

theorem update_append (o : Options) (name : Str) (x y : Opt) (h : find o name = none) :
    update (o ++ [(name, x)]) name y = o ++ [(name, y)] := by
  rw [find_none_iff] at h
  unfold update
  rw [List.map_append]
  congr 1
  · conv => rhs; rw [← List.map_id o]
    apply List.map_congr_left
    intro p hp
    have : (p.1 == name) = false := by
      simp only [beq_eq_false_iff_ne]
      intro e; exact h (List.mem_map.2 ⟨p, hp, e⟩)
    simp [this]
  · simp

theorem parse_render (L : Locale) (is : List Item) (o : Options) (cur : Option Str) (hl : IsOptionList L is)
    (hd : (o.map (·.1) ++ is.map (·.name)).Nodup) :
    parseLoop L o cur (render is) = .ok (o ++ toOpts is) := by
  induction is generalizing o cur with
  | nil => simp [render, parseLoop, toOpts]
  | cons i is ih =>
    have hi := hl i List.mem_cons_self
    have hl' : IsOptionList L is := fun j hj => hl j (List.mem_cons_of_mem _ hj)
    have hname := (optionName_some L (dash :: dash :: i.name) i.name).2 ⟨hi.1.1, hi.1.2, rfl⟩
    have hf : find o i.name = none := by
      rw [find_none_iff]
      intro hm
      have := (List.nodup_append.1 hd).2.2 i.name hm i.name (by simp)
      exact this rfl
    have hd' : ∀ x : Opt, ((o ++ [(i.name, x)]).map (·.1) ++ is.map (·.name)).Nodup := by
      intro x
      simpa [List.append_assoc] using hd
    cases hv : i.value with
    | none =>
      simp only [render, hv, Option.toList, List.nil_append, parseLoop, hname, hf]
      rw [ih _ _ hl' (hd' _)]
      simp [toOpts, hv]
    | some v =>
      have hvn := (optionName_none L v).2 (hi.2 v hv)
      simp only [render, hv, Option.toList, List.cons_append, List.nil_append, parseLoop, hname, hf, hvn]
      rw [update_append _ _ _ _ hf, ih _ _ hl' (hd' _)]
      simp [toOpts, hv]

theorem parse_dup (L : Locale) (is : List Item) (o : Options) (cur : Option Str) (hl : IsOptionList L is)
    (ho : (o.map (·.1)).Nodup) (hd : ¬ (o.map (·.1) ++ is.map (·.name)).Nodup) :
    parseLoop L o cur (render is) = .throw .test := by
  induction is generalizing o cur with
  | nil => simp at hd; exact absurd ho hd
  | cons i is ih =>
    have hi := hl i List.mem_cons_self
    have hl' : IsOptionList L is := fun j hj => hl j (List.mem_cons_of_mem _ hj)
    have hname := (optionName_some L (dash :: dash :: i.name) i.name).2 ⟨hi.1.1, hi.1.2, rfl⟩
    simp only [render, parseLoop, hname]
    cases hf : find o i.name with
    | some x => rfl
    | none =>
      have hf' := (find_none_iff o i.name).1 hf
      have ho' : ∀ x : Opt, ((o ++ [(i.name, x)]).map (·.1)).Nodup := by
        intro x
        rw [List.map_append, List.nodup_append]
        refine ⟨ho, by simp, ?_⟩
        intro a ha b hb e
        simp at hb
        subst e; subst hb
        exact hf' ha
      have hd' : ∀ x : Opt, ¬ ((o ++ [(i.name, x)]).map (·.1) ++ is.map (·.name)).Nodup := by
        intro x; simpa [List.append_assoc] using hd
      cases hv : i.value with
      | none =>
        simp only [Option.toList, List.nil_append]
        exact ih _ _ hl' (ho' _) (hd' _)
      | some v =>
        have hvn := (optionName_none L v).2 (hi.2 v hv)
        simp only [Option.toList, List.cons_append, List.nil_append, parseLoop, hvn]
        rw [update_append _ _ _ _ hf]
        exact ih _ _ hl' (ho' _) (hd' _)

/-- Whatever is accepted is an option list. -/
theorem parse_accepts (L : Locale) (args : List Str) (o : Options) (cur : Option Str) (r : Options)
    (h : parseLoop L o cur args = .ok r) :
    ∃ v is, (v = none ∨ cur ≠ none) ∧ (∀ x, v = some x → optionName L x = none) ∧
      args = Option.toList v ++ render is ∧ IsOptionList L is := by
  induction args generalizing o cur with
  | nil => exact ⟨none, [], .inl rfl, by simp, rfl, by intro i hi; cases hi⟩
  | cons a args ih =>
    simp only [parseLoop] at h
    cases ha : optionName L a with
    | some name =>
      simp only [ha] at h
      cases hf : find o name with
      | some x => simp only [hf] at h; cases h
      | none =>
        simp only [hf] at h
        obtain ⟨v, is, _, h2, rfl, h4⟩ := ih _ _ h
        rw [optionName_some] at ha
        refine ⟨none, ⟨name, v⟩ :: is, .inl rfl, by simp, ?_, ?_⟩
        · simp [render, ha.2.2]
        · intro j hj
          rcases List.mem_cons.1 hj with rfl | hj
          · refine ⟨⟨ha.1, ha.2.1⟩, ?_⟩
            intro x hx
            exact (optionName_none L x).1 (h2 x hx)
          · exact h4 j hj
    | none =>
      simp only [ha] at h
      cases cur with
      | none => simp only at h; cases h
      | some name =>
        simp only at h
        obtain ⟨v, is, h1, h2, rfl, h4⟩ := ih _ _ h
        rcases h1 with rfl | h1
        · exact ⟨some a, is, .inr (by simp), fun x hx => by cases hx; exact ha, by simp, h4⟩
        · exact absurd rfl h1

theorem parse_exn (L : Locale) (args : List Str) (o : Options) (cur : Option Str) :
    (∃ r, parseLoop L o cur args = .ok r) ∨ parseLoop L o cur args = .throw .test := by
  induction args generalizing o cur with
  | nil => exact .inl ⟨o, rfl⟩
  | cons a args ih =>
    simp only [parseLoop]
    cases optionName L a with
    | some name =>
      simp only []
      cases find o name with
      | some x => exact .inr rfl
      | none => exact ih _ _
    | none =>
      simp only []
      cases cur with
      | none => exact .inr rfl
      | some name => exact ih _ _

/-- C59: a list of options with different names, in any order, is parsed to the map from names to values. Missing: names of one letter (`c59_one_letter_violated`). -/
theorem c59_parsed_partial (L : Locale) (is : List Item) (hl : IsOptionList L is) (hd : (is.map (·.name)).Nodup) :
    parse L (render is) = .ok (toOpts is) := by
  have := parse_render L is [] none hl (by simpa using hd)
  rw [List.nil_append] at this
  exact this

/-- C59: a repeated name is rejected. -/
theorem c59_repeated (L : Locale) (is : List Item) (hl : IsOptionList L is) (hd : ¬ (is.map (·.name)).Nodup) :
    parse L (render is) = .throw .test :=
  parse_dup L is [] none hl (by simp) (by simpa using hd)

/-- C59: arguments that are not an option list, a value without a name for example, are rejected. -/
theorem c59_rejected (L : Locale) (args : List Str) (h : ¬ ∃ is, IsOptionList L is ∧ args = render is) :
    parse L args = .throw .test := by
  rcases parse_exn L args [] none with ⟨r, hr⟩ | hr
  · obtain ⟨v, is, h1, _, h3, h4⟩ := parse_accepts L args [] none r hr
    rcases h1 with rfl | h1
    · exact absurd ⟨is, h4, by simpa using h3⟩ h
    · exact absurd rfl h1
  · exact hr

/-- C59: an option is found with its value (empty if none was given), other names are not found. -/
theorem c59_found (L : Locale) (is : List Item) (hl : IsOptionList L is) (hd : (is.map (·.name)).Nodup) (o : Options)
    (ho : parse L (render is) = .ok o) :
    (∀ i ∈ is, (tryFind o i.name).1 = some (i.value.getD [])) ∧ ∀ n, n ∉ is.map (·.name) → (tryFind o n).1 = none := by
  rw [c59_parsed_partial L is hl hd] at ho
  cases ho
  constructor
  · intro i hi
    have hf : find (toOpts is) i.name = some ⟨i.value, 0⟩ := by
      clear hl
      induction is with
      | nil => cases hi
      | cons j is ih =>
        simp only [List.map_cons, List.nodup_cons] at hd
        simp only [toOpts, List.map_cons, find, List.find?_cons]
        by_cases e : j.name = i.name
        · rcases List.mem_cons.1 hi with rfl | hi'
          · simp
          · exact absurd (List.mem_map.2 ⟨i, hi', e.symm⟩) hd.1
        · have e' : (j.name == i.name) = false := by simpa using e
          simp only [e']
          rcases List.mem_cons.1 hi with rfl | hi'
          · exact absurd rfl e
          · exact ih hd.2 hi'
    simp only [tryFind, hf]
  · intro n hn
    have hf : find (toOpts is) n = none := by
      rw [find_none_iff]
      simpa [toOpts] using hn
    simp only [tryFind, hf]

/-- The options after the runner has looked for some names. -/
def lookAll (o : Options) : List Str → Options
  | [] => o
  | n :: ns => lookAll (tryFind o n).2 ns

theorem find_update (o : Options) (n name : Str) (y : Opt) :
    find (update o n y) name = if n = name then (find o n).map (fun _ => y) else find o name := by
  induction o with
  | nil => simp [find, update]
  | cons p o ih =>
    unfold find update at *
    rw [List.map_cons, List.find?_cons, List.find?_cons, List.find?_cons]
    by_cases e1 : p.1 = n
    · subst e1
      by_cases e2 : p.1 = name
      · simp [e2]
      · have e2' : (p.1 == name) = false := by simpa using e2
        simp only [beq_self_eq_true, if_true, e2', ih, if_neg e2]
    · have e1' : (p.1 == n) = false := by simpa using e1
      by_cases e2 : p.1 = name
      · subst e2
        have : ¬ n = p.1 := fun h => e1 h.symm
        simp [e1', this]
      · have e2' : (p.1 == name) = false := by simpa using e2
        simp only [e1', Bool.false_eq_true, if_false, e2', ih]

theorem usage_lookAll (o : Options) (ns : List Str) (hn : (o.map (·.1)).Nodup) :
    (lookAll o ns).map (·.1) = o.map (·.1) ∧
    ∀ name x, find o name = some x → find (lookAll o ns) name = some { x with usage := x.usage + ns.count name } := by
  induction ns generalizing o with
  | nil => exact ⟨rfl, fun name x h => by simpa [lookAll] using h⟩
  | cons n ns ih =>
    cases hf : find o n with
    | none =>
      have h1 : lookAll o (n :: ns) = lookAll o ns := by simp only [lookAll, tryFind, hf]
      rw [h1]
      refine ⟨(ih o hn).1, ?_⟩
      intro name x hx
      rw [(ih o hn).2 name x hx, List.count_cons]
      have : (n == name) = false := by
        simp only [beq_eq_false_iff_ne]
        rintro rfl
        rw [hf] at hx; cases hx
      simp [this]
    | some y =>
      have h1 : lookAll o (n :: ns) = lookAll (update o n { y with usage := y.usage + 1 }) ns := by
        simp only [lookAll, tryFind, hf]
      have hmap : (update o n { y with usage := y.usage + 1 }).map (·.1) = o.map (·.1) := by
        unfold update
        rw [List.map_map]
        apply List.map_congr_left
        intro p _
        simp only [Function.comp]
        split
        · rename_i h; simp at h; exact h.symm
        · rfl
      have hfind : ∀ name x, find o name = some x →
          find (update o n { y with usage := y.usage + 1 }) name =
            some { x with usage := x.usage + if n = name then 1 else 0 } := by
        intro name x hx
        rw [find_update]
        by_cases e : n = name
        · subst e
          rw [hf] at hx
          cases hx
          simp [hf]
        · rw [if_neg e, if_neg e, hx]
          rfl
      have hn' : ((update o n { y with usage := y.usage + 1 }).map (·.1)).Nodup := by rw [hmap]; exact hn
      have := ih _ hn'
      rw [h1]
      refine ⟨this.1.trans hmap, ?_⟩
      intro name x hx
      rw [this.2 name _ (hfind name x hx), List.count_cons]
      by_cases e : n = name
      · simp [e]; omega
      · have e' : (n == name) = false := by simpa using e
        simp [e, e']

/-- C59: the options reported as unused are those given on the command line that nobody asked for. -/
theorem c59_unused (L : Locale) (is : List Item) (hl : IsOptionList L is) (hd : (is.map (·.name)).Nodup) (o : Options)
    (ho : parse L (render is) = .ok o) (asked : List Str) (n : Str) :
    n ∈ unused (lookAll o asked) ↔ n ∈ is.map (·.name) ∧ n ∉ asked := by
  rw [c59_parsed_partial L is hl hd] at ho
  cases ho
  have hn : ((toOpts is).map (·.1)).Nodup := by simpa [toOpts, Function.comp_def] using hd
  obtain ⟨h1, h2⟩ := usage_lookAll (toOpts is) asked hn
  have hzero : ∀ name x, find (toOpts is) name = some x → x.usage = 0 := by
    intro name x hx
    simp only [find, Option.map_eq_some_iff] at hx
    obtain ⟨p, hp, rfl⟩ := hx
    have := List.mem_of_find?_eq_some hp
    simp only [toOpts, List.mem_map] at this
    obtain ⟨i, _, rfl⟩ := this
    rfl
  have hmem : ∀ (l : Options), (l.map (·.1)).Nodup → ∀ p, p ∈ l ↔ find l p.1 = some p.2 := by
    intro l hl p
    induction l with
    | nil => simp [find]
    | cons q l ih =>
      simp only [List.map_cons, List.nodup_cons] at hl
      unfold find
      rw [List.find?_cons, List.mem_cons]
      by_cases e : q.1 = p.1
      · simp only [e, beq_self_eq_true, Option.map_some, Option.some.injEq]
        constructor
        · rintro (rfl | hp)
          · rfl
          · exact absurd (List.mem_map.2 ⟨p, hp, e.symm⟩) hl.1
        · intro h; left
          obtain ⟨p1, p2⟩ := p
          obtain ⟨q1, q2⟩ := q
          simp only [] at e h
          rw [e, h]
      · have e' : (q.1 == p.1) = false := by simpa using e
        simp only [e']
        rw [show (l.find? (fun r => r.1 == p.1)).map (·.2) = find l p.1 from rfl, ← ih hl.2]
        constructor
        · rintro (rfl | hp)
          · exact absurd rfl e
          · exact hp
        · exact .inr
  have hn2 : ((lookAll (toOpts is) asked).map (·.1)).Nodup := by rw [h1]; exact hn
  have hnames : (toOpts is).map (·.1) = is.map (·.name) := by simp [toOpts]
  simp only [unused, List.mem_map, List.mem_filter, beq_iff_eq]
  constructor
  · rintro ⟨p, ⟨hp, hu⟩, rfl⟩
    have hin : p.1 ∈ (toOpts is).map (·.1) := by rw [← h1]; exact List.mem_map.2 ⟨p, hp, rfl⟩
    refine ⟨by rw [hnames] at hin; simpa using hin, ?_⟩
    obtain ⟨q, hq, hqn⟩ := List.mem_map.1 hin
    have hf := (hmem _ hn q).1 hq
    rw [hqn] at hf
    have h3 := h2 _ _ hf
    rw [(hmem _ hn2 p).1 hp] at h3
    have h4 := congrArg Opt.usage (Option.some.inj h3)
    rw [hu] at h4
    simp only [] at h4
    rw [← List.count_eq_zero]
    omega
  · rintro ⟨hin, hna⟩
    have hin' : n ∈ (toOpts is).map (·.1) := by rw [hnames]; simpa using hin
    obtain ⟨q, hq, hqn⟩ := List.mem_map.1 hin'
    have hf := (hmem _ hn q).1 hq
    rw [hqn] at hf
    have h3 := h2 _ _ hf
    rw [List.count_eq_zero.2 hna, hzero _ _ hf] at h3
    exact ⟨(n, ⟨q.2.val, 0⟩), ⟨(hmem _ hn2 _).2 h3, rfl⟩, rfl⟩

/-- ASCII. -/
def ascii : Locale :=
  ⟨fun c => (65 ≤ c && c ≤ 90) || (97 ≤ c && c ≤ 122), fun c => 48 ≤ c && c ≤ 57, fun c => c == 32⟩

def str (s : String) : Str := s.toList.map Char.toNat

def sampleItems : List Item := [⟨str "loop", some (str "10")⟩, ⟨str "list", none⟩, ⟨str "filter", some (str "--x")⟩]

theorem sample_options : IsOptionList ascii sampleItems := by
  have key : ∀ i ∈ sampleItems, (optionName ascii (dash :: dash :: i.name)).isSome = true ∧
      ∀ v ∈ i.value.toList, optionName ascii v = none := by decide +kernel
  intro i hi
  obtain ⟨h1, h2⟩ := key i hi
  cases h : optionName ascii (dash :: dash :: i.name) with
  | none => rw [h] at h1; cases h1
  | some n =>
    rw [optionName_some] at h
    obtain ⟨h3, h4, h5⟩ := h
    injection h5 with _ h5
    injection h5 with _ h5
    refine ⟨⟨h5 ▸ h3, h5 ▸ h4⟩, ?_⟩
    intro v hv
    exact (optionName_none ascii v).1 (h2 v (by rw [hv]; simp))

example : (sampleItems.map (·.name)).Nodup := by decide +kernel
example : render sampleItems = [str "--loop", str "10", str "--list", str "--filter", str "--x"] := by decide +kernel
example : (parse ascii (render sampleItems)) =
    .ok [(str "loop", ⟨some (str "10"), 0⟩), (str "list", ⟨none, 0⟩), (str "filter", ⟨some (str "--x"), 0⟩)] := by decide +kernel
example : parse ascii [str "--loop", str "10", str "20"] = .throw .test := by decide +kernel
example : parse ascii [str "--loop", str "10", str "--loop"] = .throw .test := by decide +kernel

/-- C59 is violated: a name of one letter is no name.  As the first argument it is rejected; behind an option without a
value it becomes the value of that option. -/
theorem c59_one_letter_violated (L : Locale) (c : Nat) (n : Str) (hn : IsName L n) (h2 : 2 ≤ n.length) :
    parse L [[dash, dash, c]] = .throw .test ∧
    parse L [dash :: dash :: n, [dash, dash, c]] = .ok [(n, ⟨some [dash, dash, c], 0⟩)] := by
  constructor
  · simp [parse, parseLoop, optionName]
  · have hname := (optionName_some L (dash :: dash :: n) n).2 ⟨hn, h2, rfl⟩
    have h1 : optionName L [dash, dash, c] = none := rfl
    simp only [parse, parseLoop, hname, h1]
    simp [find, update]

/-! ## The exit code -/

theorem strLess_total (a b : Str) (h1 : strLess a b = false) (h2 : strLess b a = false) : a = b := by
  induction a generalizing b with
  | nil => cases b with
    | nil => rfl
    | cons => simp [strLess] at h1
  | cons x a ih => cases b with
    | nil => simp [strLess] at h2
    | cons y b =>
      simp only [strLess] at h1 h2
      by_cases hxy : x < y
      · simp [hxy] at h1
      · by_cases hyx : y < x
        · simp [hyx] at h2
        · simp only [hxy, hyx, if_false] at h1 h2
          rw [ih b h1 h2, show x = y by omega]

theorem strLess_irrefl (a : Str) : strLess a a = false := by
  induction a with
  | nil => rfl
  | cons x a ih => simp [strLess, ih]

theorem emplace_mem (t : Test) (m : List Test) (h : t.name ∉ m.map (·.name)) :
    ∃ m', emplace t m = some m' ∧ ∀ u, u ∈ m' ↔ u = t ∨ u ∈ m := by
  induction m with
  | nil => exact ⟨[t], rfl, by simp⟩
  | cons u m ih =>
    simp only [List.map_cons, List.mem_cons, not_or] at h
    simp only [emplace]
    cases h1 : strLess t.name u.name with
    | true => exact ⟨t :: u :: m, by simp, by simp⟩
    | false =>
      cases h2 : strLess u.name t.name with
      | true =>
        obtain ⟨m', h3, h4⟩ := ih h.2
        refine ⟨u :: m', by simp [h3], ?_⟩
        intro x
        rw [List.mem_cons, h4, List.mem_cons]
        constructor
        · rintro (h | h | h)
          · exact .inr (.inl h)
          · exact .inl h
          · exact .inr (.inr h)
        · rintro (h | h | h)
          · exact .inr (.inl h)
          · exact .inl h
          · exact .inr (.inr h)
      | false => exact absurd (strLess_total _ _ h1 h2) h.1

theorem testMap_mem (chain m : List Test) (h : ((m ++ chain).map (·.name)).Nodup) :
    ∃ m', testMap m chain = .ok m' ∧ (m'.map (·.name)).Nodup ∧ ∀ u, u ∈ m' ↔ u ∈ m ∨ u ∈ chain := by
  induction chain generalizing m with
  | nil => exact ⟨m, rfl, by simpa using h, by simp⟩
  | cons t chain ih =>
    rw [List.map_append, List.map_cons, List.nodup_append] at h
    obtain ⟨h1, h2, h3⟩ := h
    have hnot : t.name ∉ m.map (·.name) := fun hm => h3 _ hm _ List.mem_cons_self rfl
    obtain ⟨m1, h4, h5⟩ := emplace_mem t m hnot
    -- the new map has no duplicates either
    have hnd : ∀ (m m1 : List Test), (m.map (·.name)).Nodup → emplace t m = some m1 → t.name ∉ m.map (·.name) →
        (m1.map (·.name)).Nodup := by
      intro m
      induction m with
      | nil => intro m1 _ he _; cases he; simp
      | cons u m ih2 =>
        intro m1 hm he hn
        simp only [List.map_cons, List.mem_cons, not_or, List.nodup_cons] at hm hn
        simp only [emplace] at he
        split at he
        · cases he
          simp only [List.map_cons, List.nodup_cons, List.mem_cons, not_or]
          exact ⟨hn, hm⟩
        · split at he
          · cases hem : emplace t m with
            | none => rw [hem] at he; cases he
            | some m2 =>
              rw [hem] at he
              cases he
              have h6 := ih2 m2 hm.2 hem hn.2
              obtain ⟨m2', h7, h8⟩ := emplace_mem t m hn.2
              rw [hem] at h7; cases h7
              simp only [List.map_cons, List.nodup_cons]
              refine ⟨?_, h6⟩
              rw [List.mem_map]
              rintro ⟨x, hx, hxe⟩
              rcases (h8 x).1 hx with rfl | hx'
              · exact hn.1 hxe
              · exact hm.1 (List.mem_map.2 ⟨x, hx', hxe⟩)
          · cases he
    have h6 := hnd m m1 h1 h4 hnot
    have h7 : ((m1 ++ chain).map (·.name)).Nodup := by
      rw [List.map_append, List.nodup_append]
      simp only [List.nodup_cons] at h2
      refine ⟨h6, h2.2, ?_⟩
      intro a ha b hb e
      obtain ⟨x, hx, rfl⟩ := List.mem_map.1 ha
      rcases (h5 x).1 hx with rfl | hx'
      · exact h2.1 (e ▸ hb)
      · exact h3 _ (List.mem_map.2 ⟨x, hx', rfl⟩) _ (List.mem_cons_of_mem _ hb) e
    obtain ⟨m2, h8, h10, h9⟩ := ih m1 h7
    refine ⟨m2, by simp only [testMap, h4, h8], h10, ?_⟩
    intro u
    rw [h9, h5, List.mem_cons]
    constructor
    · rintro ((h | h) | h)
      · exact .inr (.inl h)
      · exact .inl h
      · exact .inr (.inr h)
    · rintro (h | h | h)
      · exact .inl (.inr h)
      · exact .inl (.inl h)
      · exact .inr h

/-- Repeating a test: everything passes, or the first failure decides. -/
theorem repeat_spec (t : Test) (i n : Nat) :
    (repeatTest t i n = .ok () ∧ ∀ j, i ≤ j → j < i + n → t.outcome j = .pass) ∨
    (∃ j, i ≤ j ∧ j < i + n ∧ t.outcome j = .fail ∧ repeatTest t i n = .throw .test) ∨
    (∃ j, i ≤ j ∧ j < i + n ∧ t.outcome j = .other ∧ repeatTest t i n = .throw .general) := by
  induction n generalizing i with
  | zero => exact .inl ⟨rfl, fun j h1 h2 => by omega⟩
  | succ n ih =>
    simp only [repeatTest]
    cases ho : t.outcome i with
    | pass =>
      rcases ih (i + 1) with ⟨h1, h2⟩ | ⟨j, h1, h2, h3, h4⟩ | ⟨j, h1, h2, h3, h4⟩
      · refine .inl ⟨h1, ?_⟩
        intro j hj1 hj2
        rcases Nat.lt_or_eq_of_le hj1 with h | h
        · exact h2 j (by omega) (by omega)
        · exact h ▸ ho
      · exact .inr (.inl ⟨j, by omega, by omega, h3, h4⟩)
      · exact .inr (.inr ⟨j, by omega, by omega, h3, h4⟩)
    | fail => exact .inr (.inl ⟨i, by omega, by omega, ho, rfl⟩)
    | other => exact .inr (.inr ⟨i, by omega, by omega, ho, rfl⟩)

/-- The outcome of running one test: it passes, an assertion fails, or another exception is thrown. -/
theorem internalRun_spec (c : Config) (hv : c.validOutput = true) (t : Test) :
    (internalRun c t = .ok () ∧ Passes c t) ∨
    (internalRun c t = .throw .test ∧ ¬ Passes c t) ∨
    (internalRun c t = .throw .general ∧ ¬ Passes c t ∧ ∃ i, t.outcome i = .other) := by
  have hn : (if c.loop ≠ 0 then c.loop else 1) = max c.loop 1 := by split <;> omega
  unfold internalRun
  rw [hv, if_pos rfl, hn]
  rcases repeat_spec t 0 (max c.loop 1) with ⟨h1, h2⟩ | ⟨j, h1, h2, h3, h4⟩ | ⟨j, h1, h2, h3, h4⟩
  · exact .inl ⟨h1, fun i hi => h2 i (by omega) (by omega)⟩
  · exact .inr (.inl ⟨h4, fun hp => by have := hp j (by omega); rw [h3] at this; cases this⟩)
  · exact .inr (.inr ⟨h4, (fun hp => by have := hp j (by omega); rw [h3] at this; cases this), j, h3⟩)

/-- The three ways a run ends. -/
def Ends (P : Test → Prop) (c : Config) (r : Res Unit) : Prop :=
  (r = .ok () ∧ ∀ t, P t → Passes c t) ∨
  (r = .throw .test ∧ ∃ t, P t ∧ ¬ Passes c t) ∨
  (r = .throw .general ∧ ∃ t, P t ∧ ¬ Passes c t ∧ ∃ i, t.outcome i = .other)

theorem runAll_ends (rx : Str → Str → Option Bool) (c : Config) (hv : c.validOutput = true) (f : Str)
    (hrx : ∀ s, rx f s ≠ none) (m : List Test) :
    Ends (fun t => t ∈ m ∧ (f = [] ∨ rx f t.name = some true)) c (runAll rx c f m) := by
  induction m with
  | nil => exact .inl ⟨rfl, fun t ht => by cases ht.1⟩
  | cons t m ih =>
    have hmt : ∃ b, matches' rx f t.name = .ok b ∧ (b = true ↔ (f = [] ∨ rx f t.name = some true)) := by
      unfold matches'
      cases f with
      | nil => exact ⟨true, rfl, by simp⟩
      | cons x f =>
        cases hr : rx (x :: f) t.name with
        | none => exact absurd hr (hrx _)
        | some b => exact ⟨b, rfl, by simp⟩
    obtain ⟨b, h1, h2⟩ := hmt
    simp only [runAll, h1, Res.ok_bind]
    cases b with
    | false =>
      have hnot : ¬ (f = [] ∨ rx f t.name = some true) := fun h => by simpa using h2.2 h
      simp only [Bool.false_eq_true, if_false]
      rcases ih with ⟨h3, h4⟩ | ⟨h3, u, h4, h5⟩ | ⟨h3, u, h4, h5⟩
      · refine .inl ⟨h3, ?_⟩
        rintro u ⟨hu, hu'⟩
        rcases List.mem_cons.1 hu with rfl | hu
        · exact absurd hu' hnot
        · exact h4 u ⟨hu, hu'⟩
      · exact .inr (.inl ⟨h3, u, ⟨List.mem_cons_of_mem _ h4.1, h4.2⟩, h5⟩)
      · exact .inr (.inr ⟨h3, u, ⟨List.mem_cons_of_mem _ h4.1, h4.2⟩, h5⟩)
    | true =>
      have hyes := h2.1 rfl
      simp only [if_true]
      rcases internalRun_spec c hv t with ⟨h3, h4⟩ | ⟨h3, h4⟩ | ⟨h3, h4, h5⟩
      · rw [h3, Res.ok_bind]
        rcases ih with ⟨h6, h7⟩ | ⟨h6, u, h7, h8⟩ | ⟨h6, u, h7, h8⟩
        · refine .inl ⟨h6, ?_⟩
          rintro u ⟨hu, hu'⟩
          rcases List.mem_cons.1 hu with rfl | hu
          · exact h4
          · exact h7 u ⟨hu, hu'⟩
        · exact .inr (.inl ⟨h6, u, ⟨List.mem_cons_of_mem _ h7.1, h7.2⟩, h8⟩)
        · exact .inr (.inr ⟨h6, u, ⟨List.mem_cons_of_mem _ h7.1, h7.2⟩, h8⟩)
      · rw [h3]; exact .inr (.inl ⟨rfl, t, ⟨List.mem_cons_self, hyes⟩, h4⟩)
      · rw [h3]; exact .inr (.inr ⟨rfl, t, ⟨List.mem_cons_self, hyes⟩, h4, h5⟩)

theorem runNames_ends (c : Config) (hv : c.validOutput = true) (m : List Test) (hd : (m.map (·.name)).Nodup) (ns : List Str)
    (hk : ∀ n ∈ ns, ∃ t ∈ m, t.name = n) : Ends (fun t => t ∈ m ∧ t.name ∈ ns) c (runNames c m ns) := by
  induction ns with
  | nil => exact .inl ⟨rfl, fun t ht => by cases ht.2⟩
  | cons n ns ih =>
    obtain ⟨t, ht, hn⟩ := hk n List.mem_cons_self
    have hfind : m.find? (fun t => t.name == n) = some t := by
      clear ih hk
      induction m with
      | nil => cases ht
      | cons u m ih2 =>
        simp only [List.map_cons, List.nodup_cons] at hd
        rw [List.find?_cons]
        by_cases e : u.name = n
        · simp only [e, beq_self_eq_true]
          rcases List.mem_cons.1 ht with rfl | ht'
          · rfl
          · exact absurd (List.mem_map.2 ⟨t, ht', hn.trans e.symm⟩) hd.1
        · have e' : (u.name == n) = false := by simpa using e
          simp only [e']
          rcases List.mem_cons.1 ht with rfl | ht'
          · exact absurd hn e
          · exact ih2 hd.2 ht'
    have huniq : ∀ u ∈ m, u.name = n → u = t := by
      intro u hu hun
      clear ih hk hfind
      induction m with
      | nil => cases hu
      | cons w m ih2 =>
        simp only [List.map_cons, List.nodup_cons] at hd
        rcases List.mem_cons.1 hu with rfl | hu' <;> rcases List.mem_cons.1 ht with rfl | ht'
        · rfl
        · exact absurd (List.mem_map.2 ⟨t, ht', hn.trans hun.symm⟩) hd.1
        · exact absurd (List.mem_map.2 ⟨u, hu', hun.trans hn.symm⟩) hd.1
        · exact ih2 hd.2 ht' hu'
    simp only [runNames, hfind]
    rcases internalRun_spec c hv t with ⟨h3, h4⟩ | ⟨h3, h4⟩ | ⟨h3, h4, h5⟩
    · rw [h3, Res.ok_bind]
      rcases ih (fun n' hn' => hk n' (List.mem_cons_of_mem _ hn')) with ⟨h6, h7⟩ | ⟨h6, u, h7, h8⟩ | ⟨h6, u, h7, h8⟩
      · refine .inl ⟨h6, ?_⟩
        rintro u ⟨hu, hu'⟩
        rcases List.mem_cons.1 hu' with hu'' | hu''
        · rw [huniq u hu hu'']; exact h4
        · exact h7 u ⟨hu, hu''⟩
      · exact .inr (.inl ⟨h6, u, ⟨h7.1, List.mem_cons_of_mem _ h7.2⟩, h8⟩)
      · exact .inr (.inr ⟨h6, u, ⟨h7.1, List.mem_cons_of_mem _ h7.2⟩, h8⟩)
    · rw [h3]; exact .inr (.inl ⟨rfl, t, ⟨ht, by rw [hn]; exact List.mem_cons_self⟩, h4⟩)
    · rw [h3]; exact .inr (.inr ⟨rfl, t, ⟨ht, by rw [hn]; exact List.mem_cons_self⟩, h4, h5⟩)

theorem count_ok (rx : Str → Str → Option Bool) (f : Str) (hrx : ∀ s, rx f s ≠ none) (m : List Test) :
    ∃ n, countNames rx f m = .ok n := by
  induction m with
  | nil => exact ⟨0, rfl⟩
  | cons t m ih =>
    obtain ⟨n, hn⟩ := ih
    have hmt : ∃ b, matches' rx f t.name = .ok b := by
      unfold matches'
      split
      · exact ⟨_, rfl⟩
      · cases hr : rx f t.name with
        | none => exact absurd hr (hrx _)
        | some b => exact ⟨b, rfl⟩
    obtain ⟨b, hb⟩ := hmt
    exact ⟨if b then n + 1 else n, by simp only [countNames, hb, hn, Res.ok_bind]⟩

theorem runTests_ends (rx : Str → Str → Option Bool) (c : Config) (chain : List Test) (h : Proper rx c chain) :
    (runTests rx c chain = .ok true ∧ ∀ t, Selected rx c chain t → Passes c t) ∨
    (runTests rx c chain = .ok false ∧ ∃ t, Selected rx c chain t ∧ ¬ Passes c t) ∨
    (runTests rx c chain = .throw .general ∧ ∃ t, Selected rx c chain t ∧ ¬ Passes c t ∧ ∃ i, t.outcome i = .other) := by
  obtain ⟨m, hm, hd, hmem⟩ := testMap_mem chain [] (by simpa using h.distinct)
  have hmem' : ∀ u, u ∈ m ↔ u ∈ chain := fun u => by rw [hmem]; simp
  have hends : Ends (Selected rx c chain) c (runSelected rx c m) := by
    unfold runSelected
    cases hr : c.run with
    | nil =>
      obtain ⟨n, hn⟩ := count_ok rx _ h.regex m
      simp only [List.isEmpty_nil, if_true, hn, Res.ok_bind]
      have := runAll_ends rx c h.output _ h.regex m
      have hsel : (fun t => t ∈ m ∧ (c.filter.getD defaultFilter = [] ∨ rx (c.filter.getD defaultFilter) t.name = some true)) =
          Selected rx c chain := by
        funext t
        simp only [Selected, hr, if_true, hmem']
      rw [hsel] at this
      exact this
    | cons n ns =>
      simp only [List.isEmpty_cons, Bool.false_eq_true, if_false]
      have := runNames_ends c h.output m hd c.run (fun n hn => by
        obtain ⟨t, ht, hnt⟩ := h.known n hn
        exact ⟨t, (hmem' t).2 ht, hnt⟩)
      have hsel : (fun t => t ∈ m ∧ t.name ∈ c.run) = Selected rx c chain := by
        funext t
        simp only [Selected, hmem']
        rw [if_neg (by rw [hr]; simp)]
      rw [hsel, hr] at this
      exact this
  simp only [runTests, h.noList, Bool.false_eq_true, if_false, hm, Res.ok_bind]
  rcases hends with ⟨h1, h2⟩ | ⟨h1, h2⟩ | ⟨h1, h2⟩
  · left; rw [h1]; exact ⟨rfl, h2⟩
  · right; left; rw [h1]; exact ⟨rfl, h2⟩
  · right; right; rw [h1]; exact ⟨rfl, h2⟩

/-- C60 is violated: whenever the tests are run properly, the exit code is 1 if all selected tests pass, and 0 if an
assertion in one of them fails. -/
theorem c60_exit_code_violated (L : Locale) (rx : Str → Str → Option Bool) (config : Options → Config) (args : List Str)
    (o : Options) (chain : List Test) (ha : parse L args = .ok o) (h : Proper rx (config o) chain) :
    ((∀ t, Selected rx (config o) chain t → Passes (config o) t) → main L rx config args chain = .code 1) ∧
    ((∃ t, Selected rx (config o) chain t ∧ ¬ Passes (config o) t) → (∀ t ∈ chain, ∀ i, t.outcome i ≠ .other) →
      main L rx config args chain = .code 0) := by
  simp only [main, ha, consoleRun]
  rcases runTests_ends rx (config o) chain h with ⟨h1, h2⟩ | ⟨h1, t, h2, h3⟩ | ⟨h1, t, h2, h3, i, h4⟩
  · rw [h1]
    refine ⟨fun _ => rfl, ?_⟩
    rintro ⟨t, ht, hn⟩
    exact absurd (h2 t ht) hn
  · rw [h1]
    exact ⟨fun hp => absurd (hp t h2) h3, fun _ _ => rfl⟩
  · rw [h1]
    exact ⟨fun hp => absurd (hp t h2) h3, fun _ ho => absurd h4 (ho t h2.1 i)⟩

/-- C60 is violated: a malformed command line ends with exit code 0, no test being run. -/
theorem c60_bad_command_line_violated (L : Locale) (rx : Str → Str → Option Bool) (config : Options → Config) (args : List Str)
    (chain : List Test) (h : ¬ ∃ is, IsOptionList L is ∧ args = render is) :
    main L rx config args chain = .code 0 := by
  simp only [main, c59_rejected L args h]

/-- C60, what the exit code does say: when the tests are run properly, it is 1 exactly if all selected tests pass.  Missing:
the convention that success is 0. -/
theorem c60_one_iff_passed_partial (L : Locale) (rx : Str → Str → Option Bool) (config : Options → Config) (args : List Str)
    (o : Options) (chain : List Test) (ha : parse L args = .ok o) (h : Proper rx (config o) chain) :
    main L rx config args chain = .code 1 ↔ ∀ t, Selected rx (config o) chain t → Passes (config o) t := by
  simp only [main, ha, consoleRun]
  rcases runTests_ends rx (config o) chain h with ⟨h1, h2⟩ | ⟨h1, t, h2, h3⟩ | ⟨h1, t, h2, h3, _⟩
  · rw [h1]; exact ⟨fun _ => h2, fun _ => rfl⟩
  · rw [h1]; exact ⟨fun hc => (by cases hc), fun hp => absurd (hp t h2) h3⟩
  · rw [h1]; exact ⟨fun hc => (by cases hc), fun hp => absurd (hp t h2) h3⟩

theorem strLess_trans (a b c : Str) (h1 : strLess a b = true) (h2 : strLess b c = true) : strLess a c = true := by
  induction a generalizing b c with
  | nil =>
    cases b with
    | nil => simp [strLess] at h1
    | cons => cases c with
      | nil => simp [strLess] at h2
      | cons => rfl
  | cons x a ih =>
    cases b with
    | nil => simp [strLess] at h1
    | cons y b =>
      cases c with
      | nil => simp [strLess] at h2
      | cons z c =>
        simp only [strLess] at h1 h2 ⊢
        by_cases hxy : x < y
        · by_cases hyz : y < z
          · rw [if_pos (by omega)]
          · by_cases hzy : z < y
            · simp [hyz, hzy] at h2
            · rw [if_pos (by omega)]
        · by_cases hyx : y < x
          · simp [hxy, hyx] at h1
          · simp only [hxy, hyx, if_false] at h1
            have e : x = y := by omega
            subst e
            by_cases hyz : x < z
            · rw [if_pos hyz]
            · by_cases hzy : z < x
              · simp [hyz, hzy] at h2
              · simp only [hyz, hzy, if_false] at h2 ⊢
                exact ih b c h1 h2

/-- The map is sorted by name. -/
def Sorted (m : List Test) : Prop := m.Pairwise (fun a b => strLess a.name b.name = true)

theorem emplace_sorted (t : Test) (m : List Test) (hs : Sorted m) :
    (t.name ∈ m.map (·.name) → emplace t m = none) ∧
    ∀ m', emplace t m = some m' → Sorted m' ∧ ∀ u, u ∈ m' ↔ u = t ∨ u ∈ m := by
  induction m with
  | nil =>
    refine ⟨fun h => by simp at h, ?_⟩
    intro m' h; cases h
    exact ⟨List.pairwise_singleton _ _, by simp⟩
  | cons u m ih =>
    have hs' := List.pairwise_cons.1 hs
    obtain ⟨h1, h2⟩ := ih hs'.2
    constructor
    · intro h
      simp only [emplace]
      rw [List.map_cons, List.mem_cons] at h
      rcases h with h | h
      · rw [h, strLess_irrefl]; simp
      · obtain ⟨w, hw, hwn⟩ := List.mem_map.1 h
        have h3 := hs'.1 w hw
        rw [hwn] at h3
        have h4 : strLess t.name u.name = false := by
          cases hc : strLess t.name u.name with
          | false => rfl
          | true =>
            have := strLess_trans _ _ _ hc h3
            rw [strLess_irrefl] at this; cases this
        simp [h4, h3, h1 h]
    · intro m' h
      simp only [emplace] at h
      split at h
      · rename_i hlt
        cases h
        refine ⟨List.pairwise_cons.2 ⟨?_, hs⟩, by simp⟩
        intro w hw
        rcases List.mem_cons.1 hw with rfl | hw
        · exact hlt
        · exact strLess_trans _ _ _ hlt (hs'.1 w hw)
      · split at h
        · rename_i hlt
          cases he : emplace t m with
          | none => rw [he] at h; cases h
          | some m1 =>
            rw [he] at h; cases h
            obtain ⟨h3, h4⟩ := h2 m1 he
            refine ⟨List.pairwise_cons.2 ⟨?_, h3⟩, ?_⟩
            · intro w hw
              rcases (h4 w).1 hw with rfl | hw
              · exact hlt
              · exact hs'.1 w hw
            · intro w
              rw [List.mem_cons, h4, List.mem_cons]
              constructor
              · rintro (h | h | h)
                · exact .inr (.inl h)
                · exact .inl h
                · exact .inr (.inr h)
              · rintro (h | h | h)
                · exact .inr (.inl h)
                · exact .inl h
                · exact .inr (.inr h)
        · cases h

theorem testMap_dup (chain m : List Test) (hs : Sorted m) (hm : (m.map (·.name)).Nodup)
    (h : ¬ ((m ++ chain).map (·.name)).Nodup) : testMap m chain = .throw .test := by
  induction chain generalizing m with
  | nil => rw [List.append_nil] at h; exact absurd hm h
  | cons t chain ih =>
    obtain ⟨h1, h2⟩ := emplace_sorted t m hs
    simp only [testMap]
    cases he : emplace t m with
    | none => rfl
    | some m1 =>
      obtain ⟨h3, h4⟩ := h2 m1 he
      have hnot : t.name ∉ m.map (·.name) := fun hc => by rw [h1 hc] at he; cases he
      have hm1 : (m1.map (·.name)).Nodup := by
        rw [List.nodup_iff_pairwise_ne, List.pairwise_map]
        refine h3.imp ?_
        intro a b hab e
        rw [e, strLess_irrefl] at hab; cases hab
      refine ih m1 h3 hm1 ?_
      intro hc
      apply h
      rw [List.map_append, List.nodup_append] at hc ⊢
      obtain ⟨_, hc2, hc3⟩ := hc
      have hin : ∀ n, n ∈ m.map (·.name) ∨ n = t.name → n ∈ m1.map (·.name) := by
        rintro n (hn | rfl)
        · obtain ⟨w, hw, rfl⟩ := List.mem_map.1 hn
          exact List.mem_map.2 ⟨w, (h4 w).2 (.inr hw), rfl⟩
        · exact List.mem_map.2 ⟨t, (h4 t).2 (.inl rfl), rfl⟩
      refine ⟨hm, ?_, ?_⟩
      · rw [List.map_cons, List.nodup_cons]
        exact ⟨fun hx => hc3 _ (hin _ (.inr rfl)) _ hx rfl, hc2⟩
      · intro a ha b hb e
        rw [List.map_cons, List.mem_cons] at hb
        rcases hb with rfl | hb
        · exact hnot (e ▸ ha)
        · exact hc3 a (hin a (.inl ha)) b hb e

/-- C60: two tests of the same name: no test is run, the exit code is 2. -/
theorem c60_duplicate_test (L : Locale) (rx : Str → Str → Option Bool) (config : Options → Config) (args : List Str)
    (o : Options) (chain : List Test) (ha : parse L args = .ok o) (hd : ¬ (chain.map (·.name)).Nodup) :
    main L rx config args chain = .code 2 := by
  have hm := testMap_dup chain [] List.Pairwise.nil (by simp) (by simpa using hd)
  have hr : runTests rx (config o) chain = .throw .test := by
    unfold runTests
    rw [hm]
    split <;> rfl
  simp only [main, ha, consoleRun, hr]

/-- C60: an unknown test name counts as a failure (exit code 0). -/
theorem c60_unknown_name_partial (L : Locale) (rx : Str → Str → Option Bool) (config : Options → Config) (args : List Str)
    (o : Options) (chain : List Test) (ha : parse L args = .ok o) (hd : (chain.map (·.name)).Nodup)
    (hl : (config o).list = false) (n : Str) (hn : n ∈ (config o).run) (hu : ∀ t ∈ chain, t.name ≠ n)
    (ho : ∀ t ∈ chain, ∀ i, t.outcome i ≠ .other) :
    main L rx config args chain = .code 0 := by
  obtain ⟨m, hm, _, hmem⟩ := testMap_mem chain [] (by simpa using hd)
  have hmem' : ∀ u, u ∈ m ↔ u ∈ chain := fun u => by rw [hmem]; simp
  have hrep : ∀ (t : Test), (∀ i, t.outcome i ≠ .other) → ∀ i k, repeatTest t i k = .ok () ∨ repeatTest t i k = .throw .test := by
    intro t ht i k
    rcases repeat_spec t i k with ⟨h1, _⟩ | ⟨_, _, _, _, h1⟩ | ⟨j, _, _, h2, _⟩
    · exact .inl h1
    · exact .inr h1
    · exact absurd h2 (ht j)
  have hfail : ∀ ns, n ∈ ns → runNames (config o) m ns = .throw .test := by
    intro ns
    induction ns with
    | nil => intro h; cases h
    | cons a ns ih =>
      intro h
      simp only [runNames]
      cases hf : m.find? (fun t => t.name == a) with
      | none => rfl
      | some t =>
        have htm := (hmem' t).1 (List.mem_of_find?_eq_some hf)
        have hta := List.find?_some hf
        simp only [beq_iff_eq] at hta
        have hn' : n ∈ ns := by
          rcases List.mem_cons.1 h with rfl | h
          · exact absurd hta (hu t htm)
          · exact h
        have : internalRun (config o) t = .ok () ∨ internalRun (config o) t = .throw .test := by
          unfold internalRun
          split
          · exact hrep t (ho t htm) _ _
          · exact .inr rfl
        simp only []
        rcases this with h1 | h1
        · rw [h1, Res.ok_bind]; exact ih hn'
        · rw [h1]; rfl
  have hsel : runSelected rx (config o) m = .throw .test := by
    unfold runSelected
    cases hr : (config o).run with
    | nil => rw [hr] at hn; cases hn
    | cons a ns =>
      simp only [List.isEmpty_cons, Bool.false_eq_true, if_false]
      rw [hr] at hn
      exact hfail _ hn
  simp only [main, ha, consoleRun, runTests, hl, Bool.false_eq_true, if_false, hm, Res.ok_bind, hsel]
  rfl

/-! Two tests, one of them fails at its third repetition. -/

def goodTest : Test := ⟨str "A_Test", fun _ => .pass⟩
def badTest : Test := ⟨str "B_Test", fun i => if i = 2 then .fail else .pass⟩
def sampleConfig (n : Nat) : Config := ⟨false, none, [], n, true⟩

def anyFilter : Str → Str → Option Bool := fun _ _ => some true

example : Proper anyFilter (sampleConfig 3) [badTest, goodTest] :=
  ⟨by decide +kernel, (by intro n hn; cases hn), (by intro s; simp [anyFilter]), rfl, rfl⟩
example : main ascii anyFilter (fun _ => sampleConfig 3) [] [badTest, goodTest] = .code 0 := by decide +kernel
example : main ascii anyFilter (fun _ => sampleConfig 2) [] [badTest, goodTest] = .code 1 := by decide +kernel
example : main ascii anyFilter (fun _ => sampleConfig 2) [str "loop"] [badTest, goodTest] = .code 0 := by decide +kernel
example : main ascii anyFilter (fun _ => sampleConfig 2) [] [goodTest, goodTest] = .code 2 := by decide +kernel
example : main ascii anyFilter (fun _ => { sampleConfig 2 with run := [str "C_Test"] }) [] [badTest, goodTest] = .code 0 := by
  decide +kernel

end Verif.Testing
