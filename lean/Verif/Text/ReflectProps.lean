import Verif.Text.Props
import Verif.Text.ReflectSpec
import Verif.Vts.Model

/-! # The names of a reflected structure are the names of its members (C164) -/

namespace Verif.Text

theorem Identifier.ne_nil {x : Str} (h : Identifier x) : x ≠ [] := h.1

theorem Identifier.comma_notMem {x : Str} (h : Identifier x) : comma ∉ x := by
  intro hm; have := h.2 _ hm; revert this; decide

theorem Identifier.space_notMem {x : Str} (h : Identifier x) : space ∉ x := by
  intro hm; have := h.2 _ hm; revert this; decide

theorem Identifier.zero_notMem {x : Str} (h : Identifier x) : 0 ∉ x := by
  intro hm; have := h.2 _ hm; revert this; decide

/-- What is found in the text: a comma without white space behind it is part of a name, and so is white space before a comma. -/
def pieces : Str → List (Gap × Str) → List Str
  | acc, [] => [acc]
  | acc, (g, x) :: r =>
    if g.after then (acc ++ blank g.before) :: pieces x r else pieces (acc ++ blank g.before ++ [comma] ++ x) r

theorem traverse_end (acc : Str) (h : acc ≠ []) : traverse [] (some acc.reverse) = .ok [acc] := by
  cases e : acc.reverse with
  | nil => exact absurd (List.reverse_eq_nil_iff.1 e) h
  | cons a as =>
    rw [traverse]
    · rw [← e, List.reverse_reverse]
    · intro h'; cases h'

theorem traverse_blank (acc : Str) (b : Bool) (rest : Str) :
    traverse (blank b ++ rest) (some acc.reverse) = traverse rest (some (acc ++ blank b).reverse) := by
  cases b with
  | false => simp [blank]
  | true =>
    show traverse (space :: rest) _ = _
    rw [traverse_snoc _ _ _ (fun h => absurd h.1 (by decide))]
    simp [blank]

theorem traverse_pieces (acc : Str) (r : List (Gap × Str)) (ha : acc ≠ []) (hr : ∀ p ∈ r, Identifier p.2) :
    traverse (stringizeRest r) (some acc.reverse) = .ok (pieces acc r) := by
  induction r generalizing acc with
  | nil => exact traverse_end acc ha
  | cons p r ih =>
    obtain ⟨g, x⟩ := p
    have hx : Identifier x := hr _ List.mem_cons_self
    have hr' : ∀ p ∈ r, Identifier p.2 := fun p hp => hr p (List.mem_cons_of_mem _ hp)
    have hn : acc ++ blank g.before ≠ [] := by simp [ha]
    simp only [stringizeRest, List.append_assoc]
    rw [traverse_blank]
    cases hg : g.after with
    | true =>
      show traverse (commaSpace ++ (x ++ stringizeRest r)) _ = _
      rw [traverse_sep _ _ hn, traverse_name x hx.comma_notMem _ _ hx.ne_nil]
      show (traverse (stringizeRest r) (some (x.reverse ++ [])) >>= _) = _
      rw [List.append_nil, ih x hx.ne_nil hr']
      simp [pieces, hg]
    | false =>
      show traverse (comma :: (x ++ stringizeRest r)) _ = _
      have hh : (x ++ stringizeRest r).head? ≠ some space := by
        cases x with
        | nil => exact absurd rfl hx.ne_nil
        | cons c x =>
          intro h
          have : c = space := by simpa using h
          exact hx.space_notMem (this ▸ List.mem_cons_self)
      rw [traverse_snoc _ _ _ (fun h => hh h.2), traverse_name x hx.comma_notMem _ _ hx.ne_nil]
      have := ih (acc ++ blank g.before ++ [comma] ++ x) (by simp) hr'
      simp only [pieces, hg]
      rw [if_neg (by simp), ← this]
      congr 2
      simp

theorem getMemberNames_eq (s : Source) (hs : s.Ok) : getMemberNames s = .ok (pieces s.first s.rest) := by
  have h1 : Identifier s.first := hs _ List.mem_cons_self
  have h2 : ∀ p ∈ s.rest, Identifier p.2 := fun p hp =>
    hs _ (List.mem_cons_of_mem _ (List.mem_map_of_mem hp))
  rw [getMemberNames, memberList, stringize, traverse_name _ h1.comma_notMem _ _ h1.ne_nil]
  show traverse _ (some (s.first.reverse ++ [])) = _
  rw [List.append_nil]
  exact traverse_pieces _ _ h1.ne_nil h2

theorem pieces_length (acc : Str) (r : List (Gap × Str)) : (pieces acc r).length ≤ r.length + 1 := by
  induction r generalizing acc with
  | nil => simp [pieces]
  | cons p r ih =>
    simp only [pieces]
    split
    · simp only [List.length_cons]; have := ih p.2; omega
    · have := ih (acc ++ blank p.1.before ++ [comma] ++ p.2); simp only [List.length_cons]; omega

theorem pieces_iff (acc : Str) (r : List (Gap × Str)) :
    pieces acc r = acc :: r.map (·.2) ↔ ∀ p ∈ r, p.1.before = false ∧ p.1.after = true := by
  induction r generalizing acc with
  | nil => simp [pieces]
  | cons p r ih =>
    obtain ⟨g, x⟩ := p
    rw [List.forall_mem_cons]
    simp only [pieces, List.map_cons]
    cases hg : g.after with
    | true =>
      simp only [if_true, List.cons.injEq]
      rw [ih x]
      cases g.before <;> simp [blank]
    | false =>
      simp only [Bool.false_eq_true, if_false, and_false, false_and]
      refine ⟨fun h => ?_, False.elim⟩
      have := congrArg List.length h
      have h2 := pieces_length (acc ++ blank g.before ++ [comma] ++ x) r
      rw [this] at h2
      simp only [List.length_cons, List.length_map] at h2
      omega

/-- C164: the names of a reflected structure are the names that the user wrote, in order, if and only if there is white space behind every comma and none before it. -/
theorem c164_names_partial (s : Source) (hs : s.Ok) : getMemberNames s = .ok s.ids ↔ s.Usual := by
  rw [getMemberNames_eq s hs, Res.ok.injEq]
  exact pieces_iff s.first s.rest

/-- `AWL_REFLECT(ab, c, d_1)`: the hypotheses are met. -/
example : (⟨[97, 98], [(⟨false, true⟩, [99]), (⟨false, true⟩, [100, 95, 49])]⟩ : Source).Ok ∧
    (⟨[97, 98], [(⟨false, true⟩, [99]), (⟨false, true⟩, [100, 95, 49])]⟩ : Source).Usual := by
  unfold Source.Ok Source.Usual Identifier; decide

/-- However the list is written, its names are read without undefined behaviour, and there are never more names than members. -/
theorem c164_not_more (s : Source) (hs : s.Ok) : ∃ names, getMemberNames s = .ok names ∧ 0 < names.length ∧ names.length ≤ s.ids.length := by
  refine ⟨_, getMemberNames_eq s hs, ?_, ?_⟩
  · cases h : pieces s.first s.rest with
    | cons _ _ => simp
    | nil =>
      exfalso
      have : ∀ (r : List (Gap × Str)) (acc : Str), pieces acc r ≠ [] := by
        intro r
        induction r with
        | nil => intro acc; simp [pieces]
        | cons p r ih => intro acc; simp only [pieces]; split <;> simp [ih]
      exact this _ _ h
  · simpa [Source.ids] using pieces_length s.first s.rest

/-! ## Looking for a name -/

/-- C164: `find` and `find_index` give the first position of a name, and say so, by the largest number of 64 bits, if it is not there. -/
theorem c164_find (names : List Str) (s : Str) (hl : names.length < 2 ^ 64 - 1) :
    (∀ i, find names s = some i ↔ ∃ h : i < names.length, names[i] = s ∧ ∀ j, (hj : j < i) → names[j] ≠ s) ∧
    (find names s = none ↔ s ∉ names) ∧
    (findIndex names s = 2 ^ 64 - 1 ↔ s ∉ names) ∧ (∀ i, i < names.length → (findIndex names s = i ↔ find names s = some i)) := by
  have hn : find names s = none ↔ s ∉ names := by
    simp only [find, List.findIdx?_eq_none_iff, beq_eq_false_iff_ne]
    exact ⟨fun h hm => h s hm rfl, fun h x hx e => h (e ▸ hx)⟩
  have hs : ∀ i, find names s = some i ↔ ∃ h : i < names.length, names[i] = s ∧ ∀ j, (hj : j < i) → names[j] ≠ s := by
    intro i
    simp only [find, List.findIdx?_eq_some_iff_getElem, beq_iff_eq]
  refine ⟨hs, hn, ?_, ?_⟩
  · rw [← hn, findIndex]
    cases h : find names s with
    | none => simp [notAnIndex]
    | some i =>
      obtain ⟨hi, -⟩ := (hs i).1 h
      simp; omega
  · intro i hi
    rw [findIndex]
    cases h : find names s with
    | none => simp [notAnIndex]; omega
    | some i => simp

example : find [[97], [98], [97]] [98] = some 1 ∧ findIndex [[97], [98], [97]] [97] = 0 ∧ findIndex [[97], [98]] [99] = notAnIndex := by decide

/-- C164: `find_cstr` finds what `find` finds, for the text up to its terminating zero. -/
theorem c164_find_cstr (names : List Str) (hn : ∀ x ∈ names, Identifier x) (text beyond : Str) (ht : 0 ∉ text) :
    findCstr names (text ++ 0 :: beyond) = find names text := by
  have h0 : ∀ x : Str, 0 ∉ x → cstr x = x := by
    intro x hx
    have := List.takeWhile_append_of_pos (p := (· ≠ 0)) (l₁ := x) (l₂ := []) (by
      intro c hc
      simp only [ne_eq, decide_not, Bool.not_eq_true', decide_eq_false_iff_not]
      rintro rfl; exact hx hc)
    simpa [cstr] using this
  have h1 : cstr (text ++ 0 :: beyond) = text := by
    rw [cstr, List.takeWhile_append_of_pos]
    · simp
    · intro c hc
      simp only [ne_eq, decide_not, Bool.not_eq_true', decide_eq_false_iff_not]
      rintro rfl; exact ht hc
  rw [findCstr, find, h1]
  induction names with
  | nil => rfl
  | cons x names ih =>
    rw [List.findIdx?_cons, List.findIdx?_cons, h0 x (hn x List.mem_cons_self).zero_notMem,
      ih (fun y hy => hn y (List.mem_cons_of_mem _ hy))]

example : findCstr [[97], [98, 99]] [98, 99, 0, 120] = some 1 := by decide

/-! ## Members by their names -/

theorem nameOf_append (pre : List Str) (n : Str) (post : List Str) : nameOf (pre ++ n :: post) pre.length = .ok n := by
  simp [nameOf]

theorem storeLoop (ids pre : List Str) (members : List AnyVal) (m : NameMap) (hl : members.length = ids.length) :
    ∃ m', forEachIndex (fun v i m => nameOf (pre ++ ids) i >>= fun k => .ok (emplace m k v)) members pre.length m = .ok m' ∧
      ∀ n, m' n = (match m n with | some v => some v | none => valueOf ids members n) := by
  induction ids generalizing pre members m with
  | nil =>
    obtain rfl : members = [] := List.length_eq_zero_iff.1 hl
    refine ⟨m, rfl, fun n => ?_⟩
    cases m n <;> simp [valueOf]
  | cons k ids ih =>
    cases members with
    | nil => simp at hl
    | cons v members =>
      obtain ⟨m', h1, h2⟩ := ih (pre ++ [k]) members (emplace m k v) (by simpa using hl)
      refine ⟨m', ?_, ?_⟩
      · rw [forEachIndex, nameOf_append, Res.ok_bind, Res.ok_bind, ← h1]
        simp
      · intro n
        rw [h2 n]
        by_cases e : n = k
        · subst e
          cases hm : m n <;> simp [emplace, hm, valueOf]
        · have hb : (n == k) = false := by simpa using e
          simp [emplace, e, valueOf, List.lookup_cons, hb]

/-- C164: the members of a structure stored by their names are the values of the members of these names; of members that have the same name, the first. -/
theorem c164_store (s : Source) (hs : s.Ok) (hu : s.Usual) (members : List AnyVal) (hl : members.length = s.ids.length) :
    ∃ m, (getMemberNames s >>= fun names => storeByName names members (fun _ => none)) = .ok m ∧ ∀ n, m n = valueOf s.ids members n := by
  obtain ⟨m, h1, h2⟩ := storeLoop s.ids [] members (fun _ => none) hl
  refine ⟨m, ?_, fun n => ?_⟩
  · rw [(c164_names_partial s hs).2 hu]
    exact h1
  · rw [h2 n]

theorem loadLoop (ids pre : List Str) (m : NameMap) (members : List AnyVal) (hl : members.length = ids.length) (out : List AnyVal) :
    forEachIndexRef (fun v i => nameOf (pre ++ ids) i >>= fun k =>
      match m k with
      | none => .throw badAnyCast
      | some w => if w.ty = v.ty then .ok w else .throw badAnyCast) members pre.length = .ok out ↔
    ids.map m = out.map some ∧ out.map (·.ty) = members.map (·.ty) := by
  induction ids generalizing pre members out with
  | nil =>
    obtain rfl : members = [] := List.length_eq_zero_iff.1 hl
    simp only [forEachIndexRef, Res.ok.injEq, List.map_nil]
    constructor
    · rintro rfl; simp
    · rintro ⟨h, -⟩; exact (List.map_eq_nil_iff.1 h.symm).symm
  | cons k ids ih =>
    cases members with
    | nil => simp at hl
    | cons v members =>
      have ih' := ih (pre ++ [k]) members (by simpa using hl)
      have hp : pre ++ k :: ids = (pre ++ [k]) ++ ids := by simp
      have hq : pre.length + 1 = (pre ++ [k]).length := by simp
      simp only [forEachIndexRef, nameOf_append, Res.ok_bind]
      rw [hp, hq, Res.bind_eq_ok]
      constructor
      · rintro ⟨w, h1, h2⟩
        obtain ⟨ws, h3, h4⟩ := Res.bind_eq_ok.1 h2
        obtain rfl : w :: ws = out := by simpa using h4
        obtain ⟨h5, h6⟩ := (ih' ws).1 h3
        cases hm : m k with
        | none => rw [hm] at h1; simp at h1
        | some u =>
          simp only [hm] at h1
          split at h1
          · rename_i hty
            obtain rfl : u = w := by simpa using h1
            simp [hm, h5, h6, hty]
          · simp at h1
      · rintro ⟨h1, h2⟩
        cases out with
        | nil => simp at h1
        | cons w ws =>
          simp only [List.map_cons, List.cons.injEq] at h1 h2
          refine ⟨w, ?_, Res.bind_eq_ok.2 ⟨ws, (ih' ws).2 ⟨h1.2, h2.2⟩, rfl⟩⟩
          simp [h1.1, h2.1]

/-- C164: a structure whose members were stored by their names is loaded from them again, whatever it was before. -/
theorem c164_round_trip (s : Source) (hs : s.Ok) (hu : s.Usual) (hd : s.ids.Nodup) (a b : List AnyVal) (ha : a.length = s.ids.length)
    (hb : b.map (·.ty) = a.map (·.ty)) :
    (do let names ← getMemberNames s
        let m ← storeByName names a (fun _ => none)
        loadByName names m b) = .ok a := by
  obtain ⟨m, h1, h2⟩ := c164_store s hs hu a ha
  rw [(c164_names_partial s hs).2 hu, Res.ok_bind] at h1 ⊢
  rw [h1, Res.ok_bind]
  have hl : b.length = s.ids.length := by
    have := congrArg List.length hb
    simp only [List.length_map] at this; omega
  refine (loadLoop s.ids [] m b hl a).2 ⟨?_, hb.symm⟩
  have h3 : ∀ (ids : List Str) (a : List AnyVal), a.length = ids.length → ids.Nodup → ids.map (valueOf ids a) = a.map some := by
    intro ids
    induction ids with
    | nil => intro a ha _; rw [List.length_eq_zero_iff.1 ha]; rfl
    | cons k ids ih =>
      intro a ha hd
      cases a with
      | nil => simp at ha
      | cons v a =>
        obtain ⟨hk, hd⟩ := List.nodup_cons.1 hd
        rw [List.map_cons, List.map_cons]
        congr 1
        · simp [valueOf]
        · rw [← ih a (by simpa using ha) hd]
          refine List.map_congr_left fun n hn => ?_
          have hb : (n == k) = false := by
            rw [beq_eq_false_iff_ne]; rintro rfl; exact hk hn
          simp [valueOf, List.lookup_cons, hb]
  rw [← h3 s.ids a ha hd]
  exact List.map_congr_left fun n _ => h2 n

/-- C164: another structure is loaded from them if and only if it has only members of these names and of the same types, and each gets the value of the member of its
name, in whatever order the members of the two structures are. -/
theorem c164_other (s t : Source) (hs : s.Ok) (ht : t.Ok) (hu : s.Usual) (hv : t.Usual) (a b out : List AnyVal) (ha : a.length = s.ids.length)
    (hb : b.length = t.ids.length) :
    (do let names ← getMemberNames s
        let m ← storeByName names a (fun _ => none)
        let names' ← getMemberNames t
        loadByName names' m b) = .ok out ↔
    t.ids.map (valueOf s.ids a) = out.map some ∧ out.map (·.ty) = b.map (·.ty) := by
  obtain ⟨m, h1, h2⟩ := c164_store s hs hu a ha
  rw [(c164_names_partial s hs).2 hu, Res.ok_bind] at h1 ⊢
  rw [h1, Res.ok_bind, (c164_names_partial t ht).2 hv, Res.ok_bind]
  have := loadLoop t.ids [] m b hb out
  rw [show t.ids.map (valueOf s.ids a) = t.ids.map m from List.map_congr_left fun n _ => (h2 n).symm]
  exact this

/-- `struct { int x; double y; }` and `struct { double y; int x; }`. -/
example : (do
    let names ← getMemberNames ⟨[120], [(⟨false, true⟩, [121])]⟩
    let m ← storeByName names [⟨0, 5⟩, ⟨1, 7⟩] (fun _ => none)
    let names' ← getMemberNames ⟨[121], [(⟨false, true⟩, [120])]⟩
    loadByName names' m [⟨1, 0⟩, ⟨0, 0⟩]) = .ok [⟨1, 7⟩, ⟨0, 5⟩] := by rfl

/-- C164: the table that version tolerant serialization makes of the structure has the name and the type of each member. -/
theorem c164_fields (dbg : Bool) (s : Source) (hs : s.Ok) (hu : s.Usual) (types : List Nat) (hl : types.length = s.ids.length) (i : Nat) (hi : i < types.length) :
    (getMemberNames s >>= fun names => getField dbg names types i) = .ok (s.ids[i]'(hl ▸ hi), types[i]) := by
  rw [(c164_names_partial s hs).2 hu, Res.ok_bind, getField, if_neg (fun h => h.2 hl), List.getElem?_eq_getElem (hl ▸ hi), List.getElem?_eq_getElem hi]

example : (getMemberNames ⟨[120], [(⟨false, true⟩, [121])]⟩ >>= fun names => getField true names [3, 4] 1) = .ok ([121], 4) := by rfl

/-! ## Where it fails -/

/-- C164 is violated if a comma has white space before it (as in lists with the comma at the beginning of a line): the name before it has a blank at its end, and the
name that the user wrote is not found unless another member has it. -/
theorem c164_blank_violated (s : Source) (hs : s.Ok) (hd : s.ids.Nodup) (g : Gap) (x : Str) (r : List (Gap × Str)) (hr : s.rest = (g, x) :: r)
    (hb : g.before = true) :
    ∃ names, getMemberNames s = .ok names ∧ s.first ∉ names ∧ find names s.first = none ∧
      (g.after = true → (s.first ++ [space]) ∈ names) := by
  refine ⟨_, getMemberNames_eq s hs, ?_⟩
  have hmem : ∀ (r : List (Gap × Str)) (acc n : Str), n ∈ pieces acc r → Identifier n → n = acc ∨ n ∈ r.map (·.2) := by
    intro r
    induction r with
    | nil => intro acc n h _; left; simpa [pieces] using h
    | cons p r ih =>
      intro acc n h hn
      simp only [pieces] at h
      split at h
      · rcases List.mem_cons.1 h with h | h
        · cases hp : p.1.before with
          | false => left; simpa [hp, blank] using h
          | true =>
            exfalso
            apply hn.space_notMem
            rw [h, hp]; simp [blank]
        · right
          rcases ih p.2 n h hn with h | h
          · simp [h]
          · exact List.mem_cons_of_mem _ h
      · rcases ih _ n h hn with h | h
        · exfalso
          apply hn.comma_notMem
          rw [h]; simp
        · right; exact List.mem_cons_of_mem _ h
  have hf : Identifier s.first := hs _ List.mem_cons_self
  have hnr : s.first ∉ s.rest.map (·.2) := (List.nodup_cons.1 hd).1
  rw [hr] at hnr
  have hno : s.first ∉ pieces s.first s.rest := by
    rw [hr]
    intro h
    simp only [pieces, hb, blank] at h
    have hx : s.first ≠ x ∧ s.first ∉ r.map (·.2) := by simpa using hnr
    split at h
    · rcases List.mem_cons.1 h with h | h
      · have := congrArg List.length h; simp at this
      · rcases hmem r x _ h hf with h | h
        · exact hx.1 h
        · exact hx.2 h
    · rcases hmem r _ _ h hf with h | h
      · have := congrArg List.length h
        simp only [List.length_append, List.length_cons, List.length_nil] at this
        omega
      · exact hx.2 h
  refine ⟨hno, ?_, ?_⟩
  · simp only [find, List.findIdx?_eq_none_iff, beq_eq_false_iff_ne]
    intro y hy e
    exact hno (e ▸ hy)
  · intro hg
    rw [hr]
    simp [pieces, hg, hb, blank]

/-- `AWL_REFLECT(x , y)`. -/
example : (⟨[120], [(⟨true, true⟩, [121])]⟩ : Source).Ok ∧ (⟨[120], [(⟨true, true⟩, [121])]⟩ : Source).ids.Nodup ∧
    getMemberNames ⟨[120], [(⟨true, true⟩, [121])]⟩ = .ok [[120, 32], [121]] := by
  refine ⟨?_, by decide, rfl⟩
  unfold Source.Ok Identifier; decide

/-- C164 is violated if a comma has no white space behind it: with assertions the table of the structure cannot be made, and without them the last member has no name:
the access is undefined. -/
theorem c164_no_table_violated (s : Source) (hs : s.Ok) (hg : ∃ p ∈ s.rest, p.1.after = false) (types : List Nat) (hl : types.length = s.ids.length) :
    (∀ i, (getMemberNames s >>= fun names => getField true names types i) = .ub) ∧
    (getMemberNames s >>= fun names => getField false names types (types.length - 1)) = .ub := by
  have : ∀ (r : List (Gap × Str)) (acc : Str), (∃ p ∈ r, p.1.after = false) → (pieces acc r).length < r.length + 1 := by
    intro r
    induction r with
    | nil => rintro acc ⟨p, hp, -⟩; cases hp
    | cons p r ih =>
      rintro acc ⟨q, hq, hqa⟩
      simp only [pieces]
      cases hp : p.1.after with
      | true =>
        rcases List.mem_cons.1 hq with rfl | hq
        · rw [hp] at hqa; cases hqa
        · have := ih p.2 ⟨q, hq, hqa⟩
          simp only [if_true, List.length_cons]; omega
      | false =>
        have := pieces_length (acc ++ blank p.1.before ++ [comma] ++ p.2) r
        simp only [Bool.false_eq_true, if_false, List.length_cons]; omega
  have hlt : (pieces s.first s.rest).length < types.length := by
    have := this s.rest s.first hg
    simp only [Source.ids, List.length_cons, List.length_map] at hl
    omega
  simp only [getMemberNames_eq s hs, Res.ok_bind]
  refine ⟨fun i => ?_, ?_⟩
  · rw [getField, if_pos ⟨rfl, by omega⟩]
  · rw [getField, if_neg (fun h => by cases h.1), List.getElem?_eq_none (by omega)]

example : (⟨[120], [(⟨false, false⟩, [121])]⟩ : Source).Ok ∧ ∃ p ∈ [((⟨false, false⟩ : Gap), ([121] : Str))], p.1.after = false := by
  refine ⟨?_, by decide⟩
  unfold Source.Ok Identifier; decide

/-- C164 is violated, with loss of data: a program whose source was `AWL_REFLECT(x , y)` and is `AWL_REFLECT(x, y)` now, with the same members of the same types, does
not find the first field of the files of its earlier version: it is taken for a deleted field. -/
theorem c164_reformatted_violated (tn : Vts.Name) (ty : Option Nat) :
    let bytes (names : List Str) : List Vts.Name := names.map (·.map UInt8.ofNat)
    ∃ old new, getMemberNames ⟨[120], [(⟨true, true⟩, [121])]⟩ = .ok old ∧ getMemberNames ⟨[120], [(⟨false, true⟩, [121])]⟩ = .ok new ∧
      Vts.mapPrototypes [tn] id ((bytes old).map fun n => (n, ty)) ((bytes new).map fun n => (n, ty)) = .ok [none, some 1] ∧
      Vts.mapPrototypes [tn] id ((bytes new).map fun n => (n, ty)) ((bytes new).map fun n => (n, ty)) = .ok [] := by
  refine ⟨[[120, 32], [121]], [[120], [121]], rfl, rfl, ?_, ?_⟩ <;>
  simp [Vts.mapPrototypes, Vts.mapFields, Vts.checkTypesCompatible, List.findIdx?_cons] <;> decide

end Verif.Text
