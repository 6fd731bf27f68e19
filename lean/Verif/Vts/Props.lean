import Verif.Vts.Same

/-!
# Version tolerant serialization: the properties
-/

namespace Verif.Vts

open Verif.Serialize

/-! ### C36 -/

/-- Reading what another version has written: the bytes, and what becomes of them.  The reader of the tables and the
reader of the value are run on the bytes and on every proper prefix. -/
theorem read_written {nm₁ : Ty → Name} {g : Cfg} {φ : Nat → Nat} {S₁ : Schema} {t u : Ty} {v o : Val}
    (hF : Fits g.env.cap nm₁ S₁) (hK : Known nm₁ g S₁) (hv : HasTy g.env t v) (hd : Described S₁ t)
    (hd' : Described g.S u) (he : Evolves nm₁ g φ t u) (hf : Fresh u o) :
    ∃ bs, writeV g.env nm₁ S₁ t v = .ok bs ∧ ∀ fuel, bs.length < fuel →
      (∀ rest, readV g fuel u o (bs ++ rest) = .ok (convert g.ren t v u o, rest)) ∧
      (∀ p, p <+: bs → p ≠ bs → readV g fuel u o p = .throw .endOfFile) := by
  obtain ⟨ms, old, hm, ho, _, hr, hp⟩ := readOldPrototypes_ok hF hK
  obtain ⟨bs, hb⟩ := writeTy_ok g.env t v hv
  refine ⟨ms ++ bs, by simp [writeV, hm, hb], ?_⟩
  intro fuel hfuel
  simp only [List.length_append] at hfuel
  have hx := (conv_main (φ := φ) ho t).1 v u o bs fuel hv hd hd' he hf hb (by omega)
  have hI : Inv g φ old (fun _ => none) := by intro i n m h; cases h
  obtain ⟨h1, h2⟩ := hx (fun _ => none) hI
  constructor
  · intro rest
    obtain ⟨c', _, e⟩ := h1 rest
    simp only [readV, List.append_assoc, hr, Res.ok_bind, readBody, e]
  · intro p hpre hne
    rcases List.prefix_or_prefix_of_prefix hpre (List.prefix_append ms bs) with h | h
    · by_cases e : p = ms
      · subst e
        have hne' : ([] : List UInt8) ≠ bs := by
          intro h
          apply hne
          rw [← h, List.append_nil]
        have := h2 [] List.nil_prefix hne'
        have h3 := hr []
        rw [List.append_nil] at h3
        simp only [readV, h3, Res.ok_bind, readBody, this]
      · simp only [readV, hp p h e, Res.throw_bind]
    · obtain ⟨q, rfl⟩ := h
      have hq : q <+: bs := by
        rwa [List.prefix_append_right_inj] at hpre
      have hq' : q ≠ bs := by
        intro h
        exact hne (by rw [h])
      simp only [readV, hr, Res.ok_bind, readBody, h2 q hq hq']

/-- C36: for every pair of versions related by `Evolves` (fields added, removed, reordered, renamed; nested to any
depth) and every value, reading the written bytes gives the converted value (`convert`: fields matched by name) and
consumes exactly the written bytes, whatever follows. -/
theorem c36_read_converts_partial (nm₁ : Ty → Name) (g : Cfg) (φ : Nat → Nat) (S₁ : Schema) (t u : Ty) (v o : Val)
    (hF : Fits g.env.cap nm₁ S₁) (hK : Known nm₁ g S₁) (hv : HasTy g.env t v) (hd : Described S₁ t)
    (hd' : Described g.S u) (he : Evolves nm₁ g φ t u) (hf : Fresh u o) :
    ∃ bs, writeV g.env nm₁ S₁ t v = .ok bs ∧ ∀ fuel, bs.length < fuel → ∀ rest,
      readV g fuel u o (bs ++ rest) = .ok (convert g.ren t v u o, rest) := by
  obtain ⟨bs, h1, h2⟩ := read_written hF hK hv hd hd' he hf
  exact ⟨bs, h1, fun fuel hf => (h2 fuel hf).1⟩

/-- C36 for a structure, field by field: a field whose new name is that of a written field gets the written value
(converted, if its own type has changed), every other field keeps the value it had before. -/
theorem c36_fields_partial (nm₁ : Ty → Name) (g : Cfg) (φ : Nat → Nat) (S₁ : Schema) (i j : SInfo) (ts us : List Ty)
    (vs os : List Val) (hF : Fits g.env.cap nm₁ S₁) (hK : Known nm₁ g S₁)
    (hv : HasTy g.env (.struct (some i) ts) (.list vs)) (hd : Described S₁ (.struct (some i) ts))
    (hd' : Described g.S (.struct (some j) us)) (he : Evolves nm₁ g φ (.struct (some i) ts) (.struct (some j) us))
    (hf : Fresh (.struct (some j) us) (.list os)) :
    ∃ bs, writeV g.env nm₁ S₁ (.struct (some i) ts) (.list vs) = .ok bs ∧ ∀ fuel, bs.length < fuel → ∀ rest,
      ∃ ws, readV g fuel (.struct (some j) us) (.list os) (bs ++ rest) = .ok (.list ws, rest) ∧
        ws.length = us.length ∧
        (∀ (k m : Nat) (n n' : Name) (t u : Ty) (v o : Val), i.names[k]? = some n → ts[k]? = some t →
          vs[k]? = some v → j.names[m]? = some n' → us[m]? = some u → os[m]? = some o → g.ren j.idx n = n' →
          ws[m]? = some (convert g.ren t v u o)) ∧
        (∀ (m : Nat) (n' : Name), j.names[m]? = some n' → (∀ n ∈ i.names, g.ren j.idx n ≠ n') → ws[m]? = os[m]?) := by
  obtain ⟨bs, h1, h2⟩ := c36_read_converts_partial nm₁ g φ S₁ _ _ _ _ hF hK hv hd hd' he hf
  refine ⟨bs, h1, fun fuel hfuel rest => ?_⟩
  have h := h2 fuel hfuel rest
  simp only [Evolves] at he
  simp only [Fresh] at hf
  obtain ⟨ws, e, l1, l2, l3⟩ := convertFields_spec g.ren i j ts us vs os he.2.2.2.1 (freshs_length us os hf)
    he.2.2.2.2.1
  rw [e] at h
  refine ⟨ws, h, l1, l2, fun m n' hm hn => l3 m n' hm ?_⟩
  intro hc
  obtain ⟨n, hn1, hn2⟩ := List.mem_map.mp hc
  exact hn n hn1 hn2

/-- C36: a field whose type has not changed and contains no structure that has changed gets exactly the written
value. -/
theorem c36_same_field (env : Env) (S : Schema) (ren : Nat → Name → Name) (t : Ty) (v o : Val) (hw : WellFormed ren t)
    (hd : Described S t) (hv : HasTy env t v) (hf : Fresh t o) : convert ren t v t o = v :=
  convert_refl env S ren t v o hw hd hv hf

/-- C36/C32: reading a proper prefix of a version tolerant stream throws `EndOfFileException`. -/
theorem c36_truncated (nm₁ : Ty → Name) (g : Cfg) (φ : Nat → Nat) (S₁ : Schema) (t u : Ty) (v o : Val)
    (hF : Fits g.env.cap nm₁ S₁) (hK : Known nm₁ g S₁) (hv : HasTy g.env t v) (hd : Described S₁ t)
    (hd' : Described g.S u) (he : Evolves nm₁ g φ t u) (hf : Fresh u o) (bs p : List UInt8)
    (hb : writeV g.env nm₁ S₁ t v = .ok bs) (hp : p <+: bs) (hne : p ≠ bs) (fuel : Nat) (hfuel : bs.length < fuel) :
    readV g fuel u o p = .throw .endOfFile := by
  obtain ⟨b', h1, h2⟩ := read_written hF hK hv hd hd' he hf
  rw [hb] at h1
  cases h1
  exact (h2 fuel hfuel).2 p hp hne

/-! ### Two versions used in the examples -/

section Sample

/-- Names by type: 4 byte integer, float, string, 1 byte, 2 byte, vector of structures. -/
def sampleNm : Ty → Name
  | .num 4 0 => [52]
  | .num 4 _ => [70]
  | .num 1 _ => [49]
  | .num 2 _ => [50]
  | .str _ => [83]
  | .vec _ => [86]
  | _ => [63]

/-- `struct B { uint8_t p; uint16_t q; }`, first version. -/
def b1 : Ty := .struct (some ⟨1, [[112], [113]]⟩) [.num 1, .num 2]

/-- `struct B { uint16_t q; float r; uint8_t p; }`, second version: reordered, `r` added. -/
def b2 : Ty := .struct (some ⟨0, [[113], [114], [112]]⟩) [.num 2, .num 4 1, .num 1]

/-- `struct A { int32_t x; std::string n; B b; B c; std::vector<B> w; }`, first version. -/
def a1 : Ty := .struct (some ⟨0, [[120], [110], [98], [99], [119]]⟩) [.num 4, .str 1, b1, b1, .vec b1]

/-- `struct A { B b; float y; std::string t; std::vector<B> w; }`, second version: `x` and `c` removed, `n` renamed to
`t`, `y` added. -/
def a2 : Ty := .struct (some ⟨1, [[98], [121], [116], [119]]⟩) [b2, .num 4 1, .str 1, .vec b2]

/-- Tables of the first version. -/
def s1 : Schema := ⟨[.num 4, .str 1, .num 1, .num 2, .vec b1],
  [[([120], some 0), ([110], some 1), ([98], none), ([99], none), ([119], some 4)],
   [([112], some 2), ([113], some 3)]]⟩

/-- Tables of the second version; the type of the removed field is still there. -/
def s2 : Schema := ⟨[.num 2, .num 1, .num 4 1, .str 1, .num 4, .vec b2],
  [[([113], some 0), ([114], some 2), ([112], some 1)],
   [([98], none), ([121], some 2), ([116], some 3), ([119], some 5)]]⟩

/-- The reading program. -/
def g2 : Cfg := ⟨⟨none, 1000⟩, s2, sampleNm, fun i n => if i = 1 ∧ n = [110] then [116] else n, id, true⟩

/-- Which structure has become which. -/
def φ2 : Nat → Nat := fun i => 1 - i

/-- A value of the first version. -/
def v1 : Val := .list [.num 77, .list [.num 104, .num 105], .list [.num 5, .num 600], .list [.num 1, .num 2],
  .list [.list [.num 8, .num 9]]]

/-- The object of the second version before reading. -/
def o2 : Val := .list [.list [.num 0, .num 31, .num 0], .num 32, .list [.num 1], .list []]

theorem sample_fits : Fits 1000 sampleNm s1 := by
  constructor
  · simp [s1]
  · simp [s1, sampleNm]
  · simp [s1]
  · intro p hp
    simp only [s1, List.mem_cons, List.not_mem_nil, or_false] at hp
    rcases hp with rfl | rfl
    · refine ⟨by simp, by simp, fun f hf => ?_⟩
      simp only [List.mem_cons, List.not_mem_nil, or_false] at hf
      rcases hf with rfl | rfl | rfl | rfl | rfl <;> simp [s1]
    · refine ⟨by simp, by simp, fun f hf => ?_⟩
      simp only [List.mem_cons, List.not_mem_nil, or_false] at hf
      rcases hf with rfl | rfl <;> simp [s1]

theorem sample_known : Known sampleNm g2 s1 := by
  intro p hp f hf k hk t ht
  simp only [s1, List.mem_cons, List.not_mem_nil, or_false] at hp
  rcases hp with rfl | rfl
  · simp only [List.mem_cons, List.not_mem_nil, or_false] at hf
    rcases hf with rfl | rfl | rfl | rfl | rfl <;> cases hk <;> cases ht <;> simp [g2, s2, sampleNm, b2]
  · simp only [List.mem_cons, List.not_mem_nil, or_false] at hf
    rcases hf with rfl | rfl <;> cases hk <;> cases ht <;> simp [g2, s2, sampleNm, b2]

theorem sample_hasTy : HasTy ⟨none, 1000⟩ a1 v1 := by
  simp [a1, b1, v1, HasTy, HasTys]

theorem sample_described1 : Described s1 a1 := by
  simp [a1, b1, s1, Described, DescribedAll, DescribesFields, isStruct]

theorem sample_described2 : Described s2 a2 := by
  simp [a2, b2, s2, Described, DescribedAll, DescribesFields, isStruct]

theorem sample_b : Evolves sampleNm g2 φ2 b1 b2 := by
  simp only [b1, b2, Evolves, EvolvesFields]
  refine ⟨rfl, Or.inl (by simp), rfl, rfl, by decide, by decide, ?_, ?_, trivial⟩
  · exact Or.inl ⟨2, .num 1, rfl, rfl, rfl, fun _ => rfl, by simp [Evolves]⟩
  · exact Or.inl ⟨0, .num 2, rfl, rfl, rfl, fun _ => rfl, by simp [Evolves]⟩

theorem sample_evolves : Evolves sampleNm g2 φ2 a1 a2 := by
  simp only [a1, a2, Evolves, EvolvesFields]
  refine ⟨rfl, Or.inl (by simp), rfl, rfl, by decide, by decide, ?_, ?_, ?_, ?_, ?_, trivial⟩
  · exact Or.inr ⟨by decide, rfl, Or.inl ⟨rfl, 4, .num 4, rfl, rfl, by simp [Described], by simp [Evolves]⟩⟩
  · exact Or.inl ⟨2, .str 1, rfl, rfl, rfl, fun _ => rfl, by simp [Evolves]⟩
  · exact Or.inl ⟨0, b2, rfl, rfl, rfl, fun h => by simp [b2, isStruct] at h, sample_b⟩
  · refine Or.inr ⟨by decide, rfl, Or.inr ⟨rfl, ?_⟩⟩
    simp only [b1, Skips, SkipsAll]
    exact ⟨Or.inl ⟨rfl, 1, .num 1, rfl, rfl, by simp [Described], by simp [Evolves]⟩,
      Or.inl ⟨rfl, 0, .num 2, rfl, rfl, by simp [Described], by simp [Evolves]⟩, trivial⟩
  · exact Or.inl ⟨3, .vec b2, rfl, rfl, rfl, fun _ => rfl, by simpa only [Evolves] using sample_b⟩

theorem sample_fresh : Fresh a2 o2 := by
  simp [a2, b2, o2, Fresh, Freshs]

/-- The hypotheses of the C36 theorems are satisfied by the sample. -/
example : ∃ bs, writeV g2.env sampleNm s1 a1 v1 = .ok bs ∧ ∀ fuel, bs.length < fuel → ∀ rest,
    readV g2 fuel a2 o2 (bs ++ rest) = .ok (convert g2.ren a1 v1 a2 o2, rest) :=
  c36_read_converts_partial sampleNm g2 φ2 s1 a1 a2 v1 o2 sample_fits sample_known sample_hasTy sample_described1
    sample_described2 sample_evolves sample_fresh

/-- The converted value: `b` = {600, 31, 5}, `y` = 32 as before, `t` = "hi", `w` = one element with a new `r`. -/
example : convert g2.ren a1 v1 a2 o2 = .list [.list [.num 600, .num 31, .num 5], .num 32,
    .list [.num 104, .num 105], .list [.list [.num 9, .num 0, .num 8]]] := rfl

end Sample

/-! ### Empty structures -/

/-- `struct E {};` in the first version. -/
def e1 : Ty := .struct (some ⟨0, []⟩) []

/-- `struct E { uint8_t p; };` in the second version. -/
def e2 : Ty := .struct (some ⟨0, [[112]]⟩) [.num 1]

/-- Tables of the first version. -/
def es1 : Schema := ⟨[.num 1], [[]]⟩

/-- Tables of the second version. -/
def es2 : Schema := ⟨[.num 1], [[([112], some 0)]]⟩

/-- The reading program. -/
def ge : Cfg := ⟨⟨none, 1000⟩, es2, sampleNm, fun _ n => n, id, true⟩

/-- C36 is violated if the written structure has no fields: its map is empty, an empty map means "read the fields
sequentially", so the added field, which should keep its value 50, is read from the bytes that follow the structure (7, 8), or the
end of the stream is reported.  All conditions of C36 except the one about empty structures hold. -/
theorem c36_empty_structure_violated :
    Fits ge.env.cap sampleNm es1 ∧ Known sampleNm ge es1 ∧ HasTy ge.env e1 (.list []) ∧ Described es1 e1 ∧
    Described ge.S e2 ∧ Fresh e2 (.list [.num 50]) ∧
    ∃ bs, writeV ge.env sampleNm es1 e1 (.list []) = .ok bs ∧
      readV ge 1000 e2 (.list [.num 50]) (bs ++ [7, 8]) = .ok (.list [.num 7], [8]) ∧
      convert ge.ren e1 (.list []) e2 (.list [.num 50]) = .list [.num 50] ∧
      readV ge 1000 e2 (.list [.num 50]) bs = .throw .endOfFile := by
  refine ⟨by constructor <;> simp [es1, sampleNm, ge], ?_, by simp [e1, HasTy, HasTys],
    by simp [e1, es1, Described, DescribedAll, DescribesFields],
    by simp [e2, ge, es2, Described, DescribedAll, DescribesFields, isStruct], by simp [e2, Fresh, Freshs], _, rfl, rfl, rfl, rfl⟩
  intro p hp f hf
  simp only [es1, List.mem_singleton] at hp
  subst hp
  simp at hf

/-! ### C35 -/

/-- C35: reading with the same type definitions gives the written value and consumes exactly its bytes.  The structures
inside of the type are described by the tables (`Described`), the names of the fields of a structure are different
and not registered as old names (`WellFormed`), the names of the types are not renamed. -/
theorem c35_round_trip (g : Cfg) (t : Ty) (v o : Val) (hF : Fits g.env.cap g.nm g.S)
    (htm : ∀ t ∈ g.S.fields, g.tm (g.nm t) = g.nm t) (hw : WellFormed g.ren t) (hd : Described g.S t)
    (hv : HasTy g.env t v) (hf : Fresh t o) :
    ∃ bs, writeV g.env g.nm g.S t v = .ok bs ∧ ∀ fuel, bs.length < fuel → ∀ rest,
      readV g fuel t o (bs ++ rest) = .ok (v, rest) := by
  have hK : Known g.nm g g.S := by
    intro p _ f _ k _ t ht
    have hm := List.mem_of_getElem? ht
    rw [htm t hm]
    exact List.mem_map_of_mem hm
  obtain ⟨bs, h1, h2⟩ := c36_read_converts_partial g.nm g id g.S t t v o hF hK hv hd hd (evolves_refl htm t hw hd) hf
  rw [convert_refl g.env g.S g.ren t v o hw hd hv hf] at h2
  exact ⟨bs, h1, h2⟩

/-- C35: different values have different bytes. -/
theorem c35_injective (g : Cfg) (t : Ty) (v v' : Val) (hF : Fits g.env.cap g.nm g.S)
    (htm : ∀ t ∈ g.S.fields, g.tm (g.nm t) = g.nm t) (hw : WellFormed g.ren t) (hd : Described g.S t)
    (hv : HasTy g.env t v) (hv' : HasTy g.env t v') (h : writeV g.env g.nm g.S t v = writeV g.env g.nm g.S t v') :
    v = v' := by
  obtain ⟨bs, h1, h2⟩ := c35_round_trip g t v (dflt t) hF htm hw hd hv (fresh_dflt t)
  obtain ⟨bs', h1', h2'⟩ := c35_round_trip g t v' (dflt t) hF htm hw hd hv' (fresh_dflt t)
  rw [h1, h1'] at h
  cases h
  have a := h2 (bs.length + 1) (by omega) []
  rw [h2' (bs.length + 1) (by omega) []] at a
  cases a
  rfl

example : ∃ bs, writeV ⟨none, 1000⟩ sampleNm s1 a1 v1 = .ok bs ∧ ∀ fuel, bs.length < fuel → ∀ rest,
    readV ⟨⟨none, 1000⟩, s1, sampleNm, fun _ n => n, id, false⟩ fuel a1 (dflt a1) (bs ++ rest) = .ok (v1, rest) :=
  c35_round_trip ⟨⟨none, 1000⟩, s1, sampleNm, fun _ n => n, id, false⟩ a1 v1 (dflt a1) sample_fits (fun _ _ => rfl)
    (by simp only [a1, b1, WellFormed, WellFormedAll]; simp) sample_described1 sample_hasTy (fresh_dflt a1)

end Verif.Vts
