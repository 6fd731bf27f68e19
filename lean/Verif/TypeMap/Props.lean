import Verif.TypeMap.Lemmas

/-!
# C181: types that have got other names are read if the program says so
-/

namespace Verif.TypeMap

open Verif.Serialize Verif.Vts

/-- **C181**: with the map the program reads, whatever comes after the tables and into whatever object, exactly what a program without a map reads if the types had their new names
when the data was written: the same values, the same exceptions.  A name is replaced once, all names at the same time. -/
theorem c181_as_if (g : Cfg) (m : Renaming) (hm : IsMap m) (rn : Name → Name) (hrn : ∀ n, Renames m n (rn n)) (nm₁ : Ty → Name) (S₁ : Schema)
    (hF : Fits g.env.cap nm₁ S₁) (hF' : Fits g.env.cap (fun t => rn (nm₁ t)) S₁) :
    ∃ ts ts', writeNewPrototypes g.env.cap nm₁ S₁ = .ok ts ∧ writeNewPrototypes g.env.cap (fun t => rn (nm₁ t)) S₁ = .ok ts' ∧
      ∀ fuel u o s, readWith g m fuel u o (ts ++ s) = readWith g [] fuel u o (ts' ++ s) := by
  obtain ⟨ts, h1, h2⟩ := readTables_eq hF
  obtain ⟨ts', h1', h2'⟩ := readTables_eq hF'
  refine ⟨ts, ts', h1, h1', fun fuel u o s => ?_⟩
  have e : readTables g m (ts ++ s) = readTables g [] (ts' ++ s) := by
    rw [h2, h2', renameLoop_nil, renameLoop_map hm nm₁ (fun t => rn (nm₁ t)) S₁.fields fun a _ => hrn (nm₁ a)]
  simp only [readWith, e]

/-- **C181**: what the old version wrote is converted as if its types had been called `nm'`, also if fields were added, removed, reordered and renamed (C36), if the map
has the old and the new name of every type whose name has changed. -/
theorem c181_evolved_partial (g : Cfg) (m : Renaming) (hm : IsMap m) (nm₁ nm' : Ty → Name) (φ : Nat → Nat) (S₁ : Schema) (t u : Ty) (v o : Val)
    (hmap : ∀ t ∈ S₁.fields, Renames m (nm₁ t) (nm' t)) (hF : Fits g.env.cap nm₁ S₁) (hF' : Fits g.env.cap nm' S₁)
    (hK : Known nm' { g with tm := id } S₁) (hv : HasTy g.env t v) (hd : Described S₁ t) (hd' : Described g.S u)
    (he : Evolves nm' { g with tm := id } φ t u) (hf : Fresh u o) :
    ∃ bs, writeV g.env nm₁ S₁ t v = .ok bs ∧ ∀ fuel, bs.length < fuel → ∀ rest,
      readWith g m fuel u o (bs ++ rest) = .ok (convert g.ren t v u o, rest) := by
  obtain ⟨ts, h1, h2⟩ := readTables_eq (g := g) hF
  obtain ⟨ts', h1', h2'⟩ := readTables_eq (g := g) hF'
  obtain ⟨ms, old, hms, ho, _, hr, _⟩ := readOldPrototypes_ok (g := { g with tm := id }) hF' hK
  have hms : ms = ts' := by
    have : writeNewPrototypes g.env.cap nm' S₁ = .ok ms := hms
    rw [h1'] at this
    cases this; rfl
  subst hms
  obtain ⟨body, hb⟩ := writeTy_ok g.env t v hv
  refine ⟨ts ++ body, by simp [writeV, h1, hb], fun fuel hfuel rest => ?_⟩
  have e : readTables g m (ts ++ (body ++ rest)) = .ok (old, body ++ rest) := by
    have e1 : readTables g m (ts ++ (body ++ rest)) = readTables g [] (ms ++ (body ++ rest)) := by
      rw [h2, h2', renameLoop_nil, renameLoop_map hm nm₁ nm' S₁.fields hmap]
    rw [e1, ← hr (body ++ rest)]
    simp only [readTables, readOldPrototypes, renameLoop_nil, List.map_id_fun, id]
    rfl
  simp only [List.length_append] at hfuel
  have hI : Inv { g with tm := id } φ old (fun _ => none) := by intro i n m h; cases h
  obtain ⟨c', _, x⟩ := ((conv_main (φ := φ) ho t).1 v u o body fuel hv hd hd' he hf hb (by omega) (fun _ => none) hI).1 rest
  have x' : readBody g fuel old u o (fun _ => none) (body ++ rest) = .ok (convert g.ren t v u o, c', rest) := by
    rw [← readBody_tm g id]
    exact x
  rw [List.append_assoc]
  simp only [readWith, e, Res.ok_bind, x']

/-- **C181**: what the old version wrote is read back, if the types are the same and the map has, for every type whose name has changed, the old and the new name. -/
theorem c181_read_back_partial (g : Cfg) (m : Renaming) (hm : IsMap m) (nm₁ : Ty → Name) (t : Ty) (v o : Val)
    (hmap : ∀ t ∈ g.S.fields, Renames m (nm₁ t) (g.nm t)) (hF : Fits g.env.cap nm₁ g.S) (hF' : Fits g.env.cap g.nm g.S)
    (hw : WellFormed g.ren t) (hd : Described g.S t) (hv : HasTy g.env t v) (hf : Fresh t o) :
    ∃ bs, writeV g.env nm₁ g.S t v = .ok bs ∧ ∀ fuel, bs.length < fuel → ∀ rest, readWith g m fuel t o (bs ++ rest) = .ok (v, rest) := by
  have hK : Known g.nm { g with tm := id } g.S := by
    intro p _ f _ k _ t ht
    exact List.mem_map_of_mem (List.mem_of_getElem? ht)
  obtain ⟨bs, h1, h2⟩ := c181_evolved_partial g m hm nm₁ g.nm id g.S t t v o hmap hF hF' hK hv hd hd
    (evolves_refl (g := { g with tm := id }) (fun _ _ => rfl) t hw hd) hf
  rw [convert_refl g.env g.S g.ren t v o hw hd hv hf] at h2
  exact ⟨bs, h1, h2⟩

/-- **C181**: the same map may be given for the data of the new version, if it renames none of the names of the new version. -/
theorem c181_new_data (g : Cfg) (m : Renaming) (hm : IsMap m) (t : Ty) (v o : Val) (hkeys : ∀ t ∈ g.S.fields, ∀ x, (g.nm t, x) ∉ m)
    (hF : Fits g.env.cap g.nm g.S) (hw : WellFormed g.ren t) (hd : Described g.S t) (hv : HasTy g.env t v) (hf : Fresh t o) :
    ∃ bs, writeV g.env g.nm g.S t v = .ok bs ∧ ∀ fuel, bs.length < fuel → ∀ rest, readWith g m fuel t o (bs ++ rest) = .ok (v, rest) :=
  c181_read_back_partial g m hm g.nm t v o (fun t ht => Or.inr ⟨hkeys t ht, rfl⟩) hF hF hw hd hv hf

/-- **C181**: a type of a field that has no namesake in the reading program, after the names were replaced, is reported when the tables are read, whatever comes after them. -/
theorem c181_missing (g : Cfg) (m : Renaming) (hm : IsMap m) (nm₁ : Ty → Name) (S₁ : Schema) (hF : Fits g.env.cap nm₁ S₁)
    (p : Proto) (hp : p ∈ S₁.protos) (f : Name × Option Nat) (hf : f ∈ p) (k : Nat) (hk : f.2 = some k) (t : Ty) (ht : S₁.fields[k]? = some t)
    (n : Name) (hn : Renames m (nm₁ t) n) (hmis : n ∉ g.S.fields.map g.nm) :
    ∃ ts, writeNewPrototypes g.env.cap nm₁ S₁ = .ok ts ∧ ∀ fuel u o s, readWith g m fuel u o (ts ++ s) = .throw .typeMismatch := by
  obtain ⟨ts, h1, h2⟩ := readTables_eq (g := g) hF
  refine ⟨ts, h1, fun fuel u o s => ?_⟩
  have hl : (renameLoop m (S₁.fields.map nm₁)).length = S₁.fields.length := by
    have : ∀ l : List Name, (renameLoop m l).length = l.length := by
      intro l
      induction l with
      | nil => rfl
      | cons a l ih =>
        simp only [renameLoop]
        split <;> simp [ih]
    rw [this, List.length_map]
  have hlt : ∀ p ∈ S₁.protos, ∀ f ∈ p, ∀ k, f.2 = some k → k < S₁.fields.length := fun p hp f hf => ((hF.proto p hp).2.2 f hf).2.2
  have hg : ∀ (l : List Ty) (k : Nat), l[k]? = some t → (renameLoop m (l.map nm₁))[k]? = some n := by
    intro l
    induction l with
    | nil => intro k h; simp at h
    | cons a l ih =>
      intro k h
      cases k with
      | zero =>
        simp only [List.getElem?_cons_zero, Option.some.injEq] at h
        subst h
        have := renameLoop_map hm nm₁ (fun _ => n) [a] (by simpa using hn)
        simp only [List.map_cons, List.map_nil, renameLoop] at this ⊢
        split
        · next e => rw [e] at this; simpa using this
        · next e => rw [e] at this; simpa using this
      | succ k =>
        simp only [List.getElem?_cons_succ] at h
        simp only [List.map_cons, renameLoop]
        split <;> simp [ih k h]
  have e : attachMetadata (renameLoop m (S₁.fields.map nm₁)) (g.S.fields.map g.nm) (S₁.protos.map fun p => p.map fun f => (f.1, encType f.2)) =
      .throw .typeMismatch := by
    refine attachMetadata_missing ?_ ?_
    · intro q hq f hf hne
      obtain ⟨p, hp, rfl⟩ := List.mem_map.mp hq
      obtain ⟨f', hf', rfl⟩ := List.mem_map.mp hf
      rw [hl]
      cases hk : f'.2 with
      | none => simp [hk, encType] at hne
      | some k => simpa [encType] using hlt p hp f' hf' k hk
    · refine ⟨_, List.mem_map_of_mem hp, _, List.mem_map_of_mem hf, ?_, n, ?_, hmis⟩
      · have := hlt p hp f hf k hk
        have := hF.fields.2
        simp only [hk, encType]
        omega
      · simp only [hk, encType]
        exact hg S₁.fields k ht
  simp only [readWith, h2, e, Res.throw_bind]

/-! ### The sample: `struct A { QString a; int32_t b; }` has become `struct A { std::string a; int32_t b; }` -/

/-- "QString". -/
def qstring : Name := Mp.chars ['Q', 'S', 't', 'r', 'i', 'n', 'g']

/-- "sequence<int8_t>". -/
def string8 : Name := Mp.seqName (Mp.intName 1)

/-- The structure. -/
def sA : Ty := .struct (some ⟨0, [[97], [98]]⟩) [.str 1, .num 4]

/-- Its tables. -/
def sS : Schema := ⟨[.str 1, .num 4], [[([97], some 0), ([98], some 1)]]⟩

/-- The program in which the field is a `std::string`. -/
def sG : Cfg := ⟨⟨none, 1000⟩, sS, nameWith string8, fun _ n => n, id, true⟩

/-- The map in the comment of Reader.h:151, and a name that occurs nowhere. -/
def sM : Renaming := [(qstring, string8), (Mp.chars ['x'], qstring)]

theorem sample_fits (str : Name) (h : str.length ≤ 1000) : Fits 1000 (nameWith str) sS := by
  constructor
  · simp [sS]
  · simp only [sS, List.mem_cons, List.not_mem_nil, or_false, forall_eq_or_imp, forall_eq]
    have hi : (nameWith str (.num 4)).length = 7 := by
      show (Mp.intName 4).length = 7
      decide
    rw [hi]
    refine ⟨⟨h, ?_⟩, by omega, by omega⟩
    simp only [nameWith]
    omega
  · simp [sS]
  · simp only [sS, forall_eq, List.mem_cons, List.not_mem_nil, or_false]
    refine ⟨by simp, by simp, ?_⟩
    rintro f (rfl | rfl) <;> simp

/-- "hi" and 7, written with the old name and read with the map; without the map an exception is thrown. -/
example : ∃ bs, writeV sG.env (nameWith qstring) sS sA (.list [.list [.num 104, .num 105], .num 7]) = .ok bs ∧ ∀ fuel, bs.length < fuel → ∀ rest,
    readWith sG sM fuel sA (.list [.list [], .num 0]) (bs ++ rest) = .ok (.list [.list [.num 104, .num 105], .num 7], rest) :=
  c181_read_back_partial sG sM (show (sM.map Prod.fst).Nodup by decide) (nameWith qstring) sA _ _
    (by
      intro t ht
      simp only [sG, sS, List.mem_cons, List.not_mem_nil, or_false] at ht
      rcases ht with rfl | rfl
      · exact Or.inl (by decide)
      · exact Or.inr ⟨by intro x; simp only [sM, List.mem_cons, Prod.mk.injEq, List.not_mem_nil, or_false]; rintro (⟨h, _⟩ | ⟨h, _⟩) <;> exact absurd h (by decide), rfl⟩)
    (sample_fits _ (by decide)) (sample_fits _ (by decide)) (by simp [sA, WellFormed, WellFormedAll, sG])
    (by simp [sA, sG, sS, Described, DescribedAll, DescribesFields, isStruct]) (by simp [sA, HasTy, HasTys, sG]) (by simp [sA, Fresh, Freshs])

example : ∃ ts, writeNewPrototypes 1000 (nameWith qstring) sS = .ok ts ∧ ∀ fuel u o s, readWith sG [] fuel u o (ts ++ s) = .throw .typeMismatch :=
  c181_missing sG [] isMap_nil (nameWith qstring) sS (sample_fits _ (by decide)) _ (List.mem_singleton.mpr rfl) ([97], some 0) (by simp) 0 rfl (.str 1) rfl
    qstring (Or.inr ⟨by simp, rfl⟩) (by decide)

/-- A map that exchanges the names of two types. -/
def sX : Renaming := [(qstring, Mp.intName 4), (Mp.intName 4, qstring)]

example : ∃ ts ts', writeNewPrototypes 1000 (nameWith qstring) sS = .ok ts ∧
    writeNewPrototypes 1000 (fun t => (sX.lookup (nameWith qstring t)).getD (nameWith qstring t)) sS = .ok ts' ∧
    ∀ fuel u o s, readWith sG sX fuel u o (ts ++ s) = readWith sG [] fuel u o (ts' ++ s) :=
  c181_as_if sG sX (show (sX.map Prod.fst).Nodup by decide) (fun n => (sX.lookup n).getD n) (renames_lookup sX) (nameWith qstring) sS
    (sample_fits _ (by decide)) (by
      constructor
      · simp [sG, sS]
      · simp only [sG, sS, List.mem_cons, List.not_mem_nil, or_false, forall_eq_or_imp, forall_eq]
        decide
      · simp [sG, sS]
      · exact (sample_fits qstring (by decide)).proto)

example : ∃ bs, writeV sG.env sG.nm sS sA (.list [.list [.num 104, .num 105], .num 7]) = .ok bs ∧ ∀ fuel, bs.length < fuel → ∀ rest,
    readWith sG sM fuel sA (.list [.list [], .num 0]) (bs ++ rest) = .ok (.list [.list [.num 104, .num 105], .num 7], rest) :=
  c181_new_data sG sM (show (sM.map Prod.fst).Nodup by decide) sA _ _
    (by
      intro t ht x hx
      simp only [sG, sS, List.mem_cons, List.not_mem_nil, or_false] at ht
      simp only [sM, List.mem_cons, Prod.mk.injEq, List.not_mem_nil, or_false] at hx
      rcases ht with rfl | rfl <;> rcases hx with ⟨h, _⟩ | ⟨h, _⟩ <;> exact absurd h (by decide))
    (sample_fits _ (by decide)) (by simp [sA, WellFormed, WellFormedAll, sG])
    (by simp [sA, sG, sS, Described, DescribedAll, DescribesFields, isStruct]) (by simp [sA, HasTy, HasTys, sG]) (by simp [sA, Fresh, Freshs])

/-- The next version: `b` comes first and there is a new field `c`; the old data has the old name. -/
def sA' : Ty := .struct (some ⟨0, [[98], [99], [97]]⟩) [.num 4, .num 4, .str 1]

/-- Its program. -/
def sG' : Cfg := { sG with S := ⟨[.num 4, .str 1], [[([98], some 0), ([99], some 0), ([97], some 1)]]⟩ }

example : ∃ bs, writeV sG'.env (nameWith qstring) sS sA (.list [.list [.num 104, .num 105], .num 7]) = .ok bs ∧ ∀ fuel, bs.length < fuel → ∀ rest,
    readWith sG' sM fuel sA' (.list [.num 0, .num 5, .list []]) (bs ++ rest) = .ok (.list [.num 7, .num 5, .list [.num 104, .num 105]], rest) :=
  c181_evolved_partial sG' sM (show (sM.map Prod.fst).Nodup by decide) (nameWith qstring) (nameWith string8) id sS sA sA' _ _
    (by
      intro t ht
      simp only [sS, List.mem_cons, List.not_mem_nil, or_false] at ht
      rcases ht with rfl | rfl
      · exact Or.inl (by decide)
      · exact Or.inr ⟨by intro x; simp only [sM, List.mem_cons, Prod.mk.injEq, List.not_mem_nil, or_false]; rintro (⟨h, _⟩ | ⟨h, _⟩) <;> exact absurd h (by decide), rfl⟩)
    (sample_fits _ (by decide)) (sample_fits _ (by decide))
    (by
      intro p hp f hf k hk t ht
      have := List.mem_of_getElem? ht
      simp only [sS, List.mem_cons, List.not_mem_nil, or_false] at this
      rcases this with rfl | rfl <;> decide)
    (by simp [sA, HasTy, HasTys, sG', sG]) (by simp [sA, sS, Described, DescribedAll, DescribesFields, isStruct])
    (by simp [sA', sG', Described, DescribedAll, DescribesFields, isStruct])
    (by
      simp only [sA, sA', Evolves, EvolvesFields]
      refine ⟨rfl, Or.inl (by simp), rfl, rfl, by decide, by decide, ?_, ?_, trivial⟩
      · exact Or.inl ⟨2, .str 1, rfl, rfl, rfl, fun _ => rfl, by simp [Evolves]⟩
      · exact Or.inl ⟨0, .num 4, rfl, rfl, rfl, fun _ => rfl, by simp [Evolves]⟩)
    (by simp [sA', Fresh, Freshs])

/-- **C181**, the names are replaced as a whole: a field `std::vector<QString>`, which has become `std::vector<std::string>`, is refused by a program with a map that has the
name `QString` only. -/
theorem c181_inside_violated :
    Renames sM (nameWith qstring (.str 1)) (nameWith string8 (.str 1)) ∧
    ∃ bs, writeV sG.env (nameWith qstring) ⟨[.vec (.str 1)], [[([97], some 0)]]⟩ (.struct (some ⟨0, [[97]]⟩) [.vec (.str 1)]) (.list [.list []]) = .ok bs ∧
      readWith { sG with S := ⟨[.vec (.str 1)], [[([97], some 0)]]⟩ } sM 1000 (.struct (some ⟨0, [[97]]⟩) [.vec (.str 1)]) (.list [.list []]) bs =
        .throw .typeMismatch :=
  ⟨Or.inl (by decide), _, rfl, rfl⟩

end Verif.TypeMap
