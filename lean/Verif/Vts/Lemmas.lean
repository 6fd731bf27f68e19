import Verif.Vts.Spec
import Verif.Serialize.RoundTrip

namespace Verif.Vts

open Verif.Serialize

/-! ### Mapping of prototypes -/

/-- The types of an old and a new field are compatible: equal indices or equal names. -/
def Compat (names : List Name) (a b : Option Nat) : Prop :=
  a = b ∨ ∃ x y z, a = some x ∧ b = some y ∧ names[x]? = some z ∧ names[y]? = some z

theorem checkTypesCompatible_ok {names : List Name} {a b : Option Nat} (h : Compat names a b) :
    checkTypesCompatible names a b = .ok () := by
  unfold checkTypesCompatible
  split
  · rfl
  · rcases h with h | ⟨x, y, z, rfl, rfl, h1, h2⟩
    · contradiction
    · simp [areTypeNamesEqual, h1, h2]

theorem areTypesEqual_ok {names : List Name} {a b : Option Nat} (h : Compat names a b) :
    areTypesEqual names a b = .ok true := by
  unfold areTypesEqual
  split
  · rfl
  · rcases h with h | ⟨x, y, z, rfl, rfl, h1, h2⟩
    · contradiction
    · simp [areTypeNamesEqual, h1, h2]

/-- The position of a new field with a given name. -/
def posOf (q : Proto) (n : Name) : Option Nat := q.findIdx? (fun f => f.1 == n)

theorem posOf_of_get {q : Proto} (hq : (q.map (·.1)).Nodup) {j : Nat} {n : Name} {r : Option Nat}
    (h : q[j]? = some (n, r)) : posOf q n = some j := by
  unfold posOf
  rw [List.findIdx?_eq_some_iff_getElem]
  obtain ⟨hj, e⟩ := List.getElem?_eq_some_iff.mp h
  refine ⟨hj, by simp [e], ?_⟩
  intro k hk
  have hk' : k < q.length := by omega
  intro heq
  have heq' : (q[k]'hk').1 = n := by simpa using heq
  have := (List.nodup_iff_pairwise_ne.mp hq)
  rw [List.pairwise_iff_getElem] at this
  exact this k j (by simpa using hk') (by simpa using hj) hk (by simp [heq', e])

theorem posOf_none {q : Proto} {n : Name} (h : n ∉ q.map (·.1)) : posOf q n = none := by
  unfold posOf
  rw [List.findIdx?_eq_none_iff]
  intro f hf
  simp only [beq_eq_false_iff_ne, ne_eq]
  intro he
  exact h (List.mem_map.mpr ⟨f, hf, he⟩)

theorem posOf_some {q : Proto} {n : Name} {j : Nat} (h : posOf q n = some j) : ∃ r, q[j]? = some (n, r) := by
  unfold posOf at h
  rw [List.findIdx?_eq_some_iff_getElem] at h
  obtain ⟨hj, e, _⟩ := h
  refine ⟨(q[j]).2, ?_⟩
  rw [List.getElem?_eq_getElem hj]
  have : (q[j]).1 = n := by simpa using e
  rw [← this]

/-- A field of the structure in the stream: its name and type, the conversion of its value, its bytes. -/
structure Item where
  n : Name
  ty : Option Nat
  f : Ty → Val → Val
  bs : List UInt8

variable {I : Cache → Prop}

/-- The field can be read into a field of the object or skipped. -/
def ItemOk (I : Cache → Prop) (names : List Name) (allowDelete : Bool) (rn : Name → Name)
    (skip : Option Nat → Rd Cache Unit) (q : Proto) (rds : List (Val → Rd Cache Val)) (us : List Ty) (os : List Val)
    (it : Item) : Prop :=
  (∃ (j : Nat) (r : Option Nat) (u : Ty) (rd : Val → Rd Cache Val) (o : Val), q[j]? = some (rn it.n, r) ∧ us[j]? = some u ∧ rds[j]? = some rd ∧ os[j]? = some o ∧
    Compat names it.ty r ∧ Exact I (rd o) it.bs (it.f u o)) ∨
  (rn it.n ∉ q.map (·.1) ∧ allowDelete = true ∧ Exact I (skip it.ty) it.bs ())

section

variable {names : List Name} {allowDelete : Bool} {rn : Name → Name} {skip : Option Nat → Rd Cache Unit} {q : Proto}
  {rds : List (Val → Rd Cache Val)} {us : List Ty} {os : List Val}

theorem mapFields_ok (hq : (q.map (·.1)).Nodup) : ∀ (items : List Item),
    (∀ it ∈ items, ItemOk I names allowDelete rn skip q rds us os it) →
    mapFields names rn q (items.map fun it => (it.n, it.ty)) = .ok (items.map fun it => posOf q (rn it.n))
  | [], _ => rfl
  | it :: items, h => by
    have ih := mapFields_ok hq items (fun x hx => h x (by simp [hx]))
    simp only [List.map_cons, mapFields]
    rcases h it (by simp) with ⟨j, r, u, rd, o, h1, _, _, _, h5, _⟩ | ⟨h1, _, _⟩
    · have hp := posOf_of_get hq h1
      have hp' : q.findIdx? (fun f => f.1 == rn it.n) = some j := hp
      simp only [hp', h1, checkTypesCompatible_ok h5, ih, hp, Res.ok_bind]
    · have hp := posOf_none h1
      have hp' : q.findIdx? (fun f => f.1 == rn it.n) = none := hp
      simp only [hp', ih, hp, Res.ok_bind]

/-- The fields of the object after the fields of the stream have been stored. -/
def storeAll (q : Proto) (rn : Name → Name) (us : List Ty) (os : List Val) : List Item → List Val → List Val
  | [], vs => vs
  | it :: items, vs =>
    match posOf q (rn it.n) with
    | none => storeAll q rn us os items vs
    | some j =>
      match us[j]?, os[j]? with
      | some u, some o => storeAll q rn us os items (vs.set j (it.f u o))
      | _, _ => vs

theorem readMapped_exact (hq : (q.map (·.1)).Nodup) : ∀ (items : List Item) (vs : List Val),
    (∀ it ∈ items, ItemOk I names allowDelete rn skip q rds us os it) →
    (items.map fun it => rn it.n).Nodup →
    (∀ it ∈ items, ∀ j, posOf q (rn it.n) = some j → vs[j]? = os[j]?) →
    Exact I (readMapped names allowDelete skip q rds
      ((items.map fun it => (it.n, it.ty)).zip (items.map fun it => posOf q (rn it.n))) vs)
      (items.flatMap (·.bs)) (storeAll q rn us os items vs)
  | [], vs, _, _, _ => by
    simp only [List.map_nil, List.zip_nil_left, readMapped, List.flatMap_nil, storeAll]
    exact Exact.pure vs
  | it :: items, vs, h, hn, hv => by
    simp only [List.map_cons, List.nodup_cons] at hn
    have ih := readMapped_exact hq items
    simp only [List.map_cons, List.zip_cons_cons, List.flatMap_cons]
    rcases h it (by simp) with ⟨j, r, u, rd, o, h1, h2, h3, h4, h5, h6⟩ | ⟨h1, h2, h3⟩
    · have hp := posOf_of_get hq h1
      have hvj : vs[j]? = some o := by rw [hv it (by simp) j hp, h4]
      simp only [hp, readMapped, h1, h3, hvj, storeAll, h2, h4]
      refine Exact.nil_bind (Exact.lift (areTypesEqual_ok h5)) ?_
      simp only [if_true]
      refine Exact.bind h6 ?_
      refine ih (vs.set j (it.f u o)) (fun x hx => h x (by simp [hx])) hn.2 ?_
      intro x hx k hk
      have hne : j ≠ k := by
        intro he
        subst he
        obtain ⟨r', hr'⟩ := posOf_some hk
        rw [h1] at hr'
        simp only [Option.some.injEq, Prod.mk.injEq] at hr'
        exact hn.1 (List.mem_map.mpr ⟨x, hx, hr'.1.symm⟩)
      rw [List.getElem?_set_ne hne]
      exact hv x (by simp [hx]) k hk
    · have hp := posOf_none h1
      simp only [hp, readMapped, storeAll]
      rw [if_pos h2]
      refine Exact.bind h3 ?_
      exact ih vs (fun x hx => h x (by simp [hx])) hn.2 (fun x hx => hv x (by simp [hx]))

theorem storeAll_length : ∀ (items : List Item) (vs : List Val),
    (storeAll q rn us os items vs).length = vs.length
  | [], _ => rfl
  | it :: items, vs => by
    simp only [storeAll]
    cases posOf q (rn it.n) with
    | none => exact storeAll_length items vs
    | some j =>
      simp only
      split
      · rw [storeAll_length items]; simp
      · rfl

theorem storeAll_get (hq : (q.map (·.1)).Nodup) (hus : us.length = q.length) (hos : os.length = q.length) :
    ∀ (items : List Item) (vs : List Val), vs.length = os.length →
    (items.map fun it => rn it.n).Nodup → ∀ (j : Nat) (n : Name) (r : Option Nat) (u : Ty) (o : Val),
    q[j]? = some (n, r) → us[j]? = some u → os[j]? = some o →
    (storeAll q rn us os items vs)[j]? =
      match (items.map fun it => (rn it.n, it.f)).lookup n with
      | some f => some (f u o)
      | none => vs[j]?
  | [], vs, _, _, j, n, r, u, o, _, _, _ => by simp [storeAll]
  | it :: items, vs, hl, hn, j, n, r, u, o, h1, h2, h3 => by
    simp only [List.map_cons, List.nodup_cons] at hn
    simp only [storeAll, List.map_cons, List.lookup_cons]
    by_cases he : n = rn it.n
    · subst he
      rw [posOf_of_get hq h1]
      simp only [h2, h3, beq_self_eq_true]
      rw [storeAll_get hq hus hos items _ (by simpa using hl) hn.2 j _ r u o h1 h2 h3]
      have hnl : (items.map fun it => (rn it.n, it.f)).lookup (rn it.n) = none := by
        rw [List.lookup_eq_none_iff]
        intro p hp
        obtain ⟨x, hx, rfl⟩ := List.mem_map.mp hp
        simp only [bne_iff_ne, ne_eq]
        intro hcon
        exact hn.1 (List.mem_map.mpr ⟨x, hx, hcon.symm⟩)
      simp only [hnl]
      have hj : j < vs.length := by
        rw [hl]
        exact (List.getElem?_eq_some_iff.mp h3).1
      rw [List.getElem?_set_self hj]
    · have hb : (n == rn it.n) = false := by simpa using he
      simp only [hb]
      cases hp : posOf q (rn it.n) with
      | none =>
        simp only
        exact storeAll_get hq hus hos items vs hl hn.2 j n r u o h1 h2 h3
      | some k =>
        obtain ⟨r', hr'⟩ := posOf_some hp
        have hk : k < q.length := (List.getElem?_eq_some_iff.mp hr').1
        have e1 : us[k]? = some us[k] := List.getElem?_eq_getElem (by omega)
        have e2 : os[k]? = some os[k] := List.getElem?_eq_getElem (by omega)
        simp only [e1, e2]
        rw [storeAll_get hq hus hos items _ (by simpa using hl) hn.2 j n r u o h1 h2 h3]
        have hne : k ≠ j := by
          intro hkj
          subst hkj
          rw [h1] at hr'
          simp only [Option.some.injEq, Prod.mk.injEq] at hr'
          exact he hr'.1
        rw [List.getElem?_set_ne hne]

theorem convertFields_get (src : List (Name × (Ty → Val → Val))) : ∀ (ns : List Name) (us : List Ty) (os : List Val),
    us.length = ns.length → os.length = ns.length →
    (convertFields src ns us os).length = ns.length ∧
    ∀ (j : Nat) (n : Name) (u : Ty) (o : Val), ns[j]? = some n → us[j]? = some u → os[j]? = some o →
      (convertFields src ns us os)[j]? = match src.lookup n with
        | some f => some (f u o)
        | none => some o
  | [], us, os, h1, h2 => by simp [convertFields]
  | n :: ns, us, os, h1, h2 => by
    cases us with
    | nil => simp at h1
    | cons u us =>
      cases os with
      | nil => simp at h2
      | cons o os =>
        obtain ⟨i1, i2⟩ := convertFields_get src ns us os (by simpa using h1) (by simpa using h2)
        refine ⟨by simp [convertFields, i1], ?_⟩
        intro j n' u' o' e1 e2 e3
        cases j with
        | zero =>
          simp only [List.getElem?_cons_zero, Option.some.injEq] at e1 e2 e3
          subst e1 e2 e3
          simp only [convertFields, List.getElem?_cons_zero]
          cases src.lookup n <;> rfl
        | succ j =>
          simp only [List.getElem?_cons_succ] at e1 e2 e3
          simp only [convertFields, List.getElem?_cons_succ]
          exact i2 j n' u' o' e1 e2 e3

theorem storeAll_eq (hq : (q.map (·.1)).Nodup) (hus : us.length = q.length) (hos : os.length = q.length)
    (items : List Item) (hn : (items.map fun it => rn it.n).Nodup) :
    storeAll q rn us os items os = convertFields (items.map fun it => (rn it.n, it.f)) (q.map (·.1)) us os := by
  obtain ⟨c1, c2⟩ := convertFields_get (items.map fun it => (rn it.n, it.f)) (q.map (·.1)) us os
    (by simpa using hus) (by simpa using hos)
  apply List.ext_getElem?
  intro j
  by_cases hj : j < q.length
  · have e1 : q[j]? = some ((q[j]).1, (q[j]).2) := by rw [List.getElem?_eq_getElem hj]
    have e2 : us[j]? = some us[j] := List.getElem?_eq_getElem (by omega)
    have e3 : os[j]? = some os[j] := List.getElem?_eq_getElem (by omega)
    rw [storeAll_get hq hus hos items os rfl hn j _ _ _ _ e1 e2 e3,
      c2 j (q[j]).1 us[j] os[j] (by simp [e1]) e2 e3]
    simp [e3]
  · rw [List.getElem?_eq_none (by rw [storeAll_length, hos]; omega),
      List.getElem?_eq_none (by rw [c1, List.length_map]; omega)]

/-- Fields read one after another. -/
theorem readFields_exact : ∀ (rds : List (Val → Rd Cache Val)) (os : List Val) (bss : List (List UInt8)) (rs : List Val),
    os.length = rds.length → bss.length = rds.length → rs.length = rds.length →
    (∀ (j : Nat) (rd : Val → Rd Cache Val) (o : Val) (b : List UInt8) (r : Val),
      rds[j]? = some rd → os[j]? = some o → bss[j]? = some b → rs[j]? = some r → Exact I (rd o) b r) →
    Exact I (readFields rds os) bss.flatten rs
  | [], os, bss, rs, h1, h2, h3, _ => by
    have : os = [] := List.eq_nil_of_length_eq_zero h1
    subst this
    have : bss = [] := List.eq_nil_of_length_eq_zero h2
    subst this
    have : rs = [] := List.eq_nil_of_length_eq_zero h3
    subst this
    exact Exact.pure []
  | rd :: rds, os, bss, rs, h1, h2, h3, h => by
    cases os with
    | nil => simp at h1
    | cons o os =>
      cases bss with
      | nil => simp at h2
      | cons b bss =>
        cases rs with
        | nil => simp at h3
        | cons r rs =>
          simp only [readFields, List.flatten_cons]
          refine Exact.bind (h 0 rd o b r rfl rfl rfl rfl) ?_
          refine Exact.bind_nil (readFields_exact rds os bss rs (by simpa using h1) (by simpa using h2)
            (by simpa using h3) ?_) (Exact.pure _)
          intro j rd' o' b' r' e1 e2 e3 e4
          exact h (j + 1) rd' o' b' r' e1 e2 e3 e4

/-- Reading a structure whose prototypes have been mapped. -/
theorem struct_exact (items : List Item) (hq : (q.map (·.1)).Nodup) (hn : (items.map fun it => rn it.n).Nodup)
    (hus : us.length = q.length) (hos : os.length = q.length) (hrd : rds.length = q.length)
    (hok : ∀ it ∈ items, ItemOk I names allowDelete rn skip q rds us os it) (hne : items ≠ [] ∨ q = []) :
    ∃ m, mapPrototypes names rn (items.map fun it => (it.n, it.ty)) q = .ok m ∧
      Exact I (if m.isEmpty then readFields rds os
        else readMapped names allowDelete skip q rds ((items.map fun it => (it.n, it.ty)).zip m) os)
        (items.flatMap (·.bs))
        (convertFields (items.map fun it => (rn it.n, it.f)) (q.map (·.1)) us os) := by
  have hm := mapFields_ok (names := names) (allowDelete := allowDelete) (skip := skip) (rds := rds) (us := us)
    (os := os) (I := I) hq items hok
  rw [← storeAll_eq hq hus hos items hn]
  by_cases htriv : items.length = q.length ∧
      (items.map fun it => posOf q (rn it.n)) = (List.range (items.map fun it => posOf q (rn it.n)).length).map some
  · refine ⟨[], ?_, ?_⟩
    · simp only [mapPrototypes, hm, Res.ok_bind, List.length_map]
      rw [if_pos (by simpa using htriv)]
    · simp only [List.isEmpty_nil, if_true]
      obtain ⟨hlen, hid⟩ := htriv
      have hpos : ∀ (j : Nat) (it : Item), items[j]? = some it → posOf q (rn it.n) = some j := by
        intro j it hj
        have h1 : (items.map fun it => posOf q (rn it.n))[j]? = some (posOf q (rn it.n)) := by simp [hj]
        rw [hid] at h1
        have hjl : j < items.length := (List.getElem?_eq_some_iff.mp hj).1
        simp only [List.getElem?_map, List.length_map] at h1
        rw [List.getElem?_range hjl] at h1
        simpa using h1.symm
      rw [List.flatMap_def]
      refine readFields_exact rds os _ _ (by omega) (by simp; omega) (by rw [storeAll_length]; omega) ?_
      intro j rd o b r e1 e2 e3 e4
      simp only [List.getElem?_map, Option.map_eq_some_iff] at e3
      obtain ⟨it, e3, rfl⟩ := e3
      have hp := hpos j it e3
      obtain ⟨r', hr'⟩ := posOf_some hp
      have hj : j < q.length := (List.getElem?_eq_some_iff.mp hr').1
      have hu : us[j]? = some us[j] := List.getElem?_eq_getElem (by omega)
      rw [storeAll_get hq hus hos items os rfl hn j _ _ _ _ hr' hu e2] at e4
      have hlk : (items.map fun it => (rn it.n, it.f)).lookup (rn it.n) = some it.f := by
        have hmem : it ∈ items := List.mem_of_getElem? e3
        clear hid hlen e4 hp hr' hj hu e1 e2 hpos hm hok hne e3
        induction items with
        | nil => simp at hmem
        | cons x xs ih =>
          simp only [List.map_cons, List.nodup_cons] at hn
          simp only [List.map_cons, List.lookup_cons]
          rcases List.mem_cons.mp hmem with h | h
          · subst h; simp
          · have : (rn it.n == rn x.n) = false := by
              simp only [beq_eq_false_iff_ne, ne_eq]
              intro he
              exact hn.1 (List.mem_map.mpr ⟨it, h, he⟩)
            simp only [this]
            exact ih hn.2 h
      simp only [hlk, Option.some.injEq] at e4
      subst e4
      rcases hok it (List.mem_of_getElem? e3) with ⟨k, r2, u, rd2, o2, h1, h2, h3, h4, _, h6⟩ | ⟨h1, _⟩
      · have hk := posOf_of_get hq h1
        rw [hp] at hk
        simp only [Option.some.injEq] at hk
        subst hk
        rw [e1] at h3
        rw [e2] at h4
        rw [hu] at h2
        simp only [Option.some.injEq] at h2 h3 h4
        subst h2 h3 h4
        exact h6
      · exact absurd (List.mem_map.mpr ⟨_, List.mem_of_getElem? hr', rfl⟩) h1
  · refine ⟨items.map fun it => posOf q (rn it.n), ?_, ?_⟩
    · simp only [mapPrototypes, hm, Res.ok_bind, List.length_map]
      rw [if_neg (by simpa using htriv)]
    · have hemp : (items.map fun it => posOf q (rn it.n)).isEmpty = false := by
        cases items with
        | nil =>
          rcases hne with h | h
          · exact absurd rfl h
          · subst h
            exact absurd ⟨rfl, rfl⟩ htriv
        | cons _ _ => rfl
      rw [hemp]
      exact readMapped_exact hq items os hok hn (fun _ _ _ _ => rfl)

end

end Verif.Vts
