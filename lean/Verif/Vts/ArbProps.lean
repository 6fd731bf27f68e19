import Verif.Vts.Tested
import Verif.Vts.Props
import Verif.Serialize.Props

/-!
# C120: version tolerant reading of arbitrary bytes
-/

namespace Verif.Vts

open Verif.Serialize

/-- Reading with tests of the indices: an exception, or a legal value and what is left of the stream. -/
theorem readC_safe (g : Cfg) (fuel : Nat) (t : Ty) (o : Val) (s : List UInt8) (hcap : g.env.cap < 2 ^ 64) (hd : Described g.S t) (ht : Checked g.env t)
    (hF : ∀ t ∈ g.S.fields, Described g.S t ∧ Checked g.env t) (ho : Legal g.env t o) (hfuel : s.length < fuel) :
    (∃ e, readC g fuel t o s = .throw e) ∨ ∃ v rest, readC g fuel t o s = .ok (v, rest) ∧ Legal g.env t v ∧ rest <:+ s := by
  unfold readC
  obtain ⟨h1, h2⟩ := readOldPrototypes_safe g hcap s
  rcases hr : readOldPrototypes g s with ⟨old, s'⟩ | e | _
  · obtain ⟨hO, hs⟩ := h2 old s' hr
    simp only [Res.ok_bind]
    have hl : s'.length ≤ s.length := hs.length_le
    have hsafe := readTy_safe (I := CI g old) (N := s.length) g.env (hookC g old (skipC g old fuel))
      (hookC_safe hO (skipC g old fuel) (fun _ ty hty => skipC_safe hO hF fuel (s.length - 2) (by omega) ty hty)) t o (described_structs t hd) ht ho
      (fun _ => none) s' (fun i n m h => by simp at h) hl
    rcases hx : readTy g.env (hookC g old (skipC g old fuel)) t o (fun _ => none) s' with ⟨v, c, r⟩ | e | _
    · rw [hx] at hsafe
      exact .inr ⟨v, r, rfl, hsafe.1, hsafe.2.2.trans hs⟩
    · exact .inl ⟨e, rfl⟩
    · rw [hx] at hsafe
      exact hsafe.elim
  · exact .inl ⟨e, rfl⟩
  · exact absurd hr h1

/-- C120, with the tests the code only asserts: reading any bytes throws or gives a legal value (numbers in range,
enumerators that exist, strings and collections within the limit) and the rest of the bytes; or the same reader with
tests of the structure indices throws a corruption exception there, and only there the code is undefined. -/
theorem c120_arbitrary_bytes_partial (g : Cfg) (fuel : Nat) (t : Ty) (o : Val) (s : List UInt8) (hcap : g.env.cap < 2 ^ 64) (hd : Described g.S t)
    (ht : Checked g.env t) (hF : ∀ t ∈ g.S.fields, Described g.S t ∧ Checked g.env t) (ho : Legal g.env t o) (hfuel : s.length < fuel) :
    (∃ e, readV g fuel t o s = .throw e) ∨ (∃ v rest, readV g fuel t o s = .ok (v, rest) ∧ Legal g.env t v ∧ rest <:+ s) ∨
      (readV g fuel t o s = .ub ∧ readC g fuel t o s = .throw .corruption) := by
  rcases readV_readC g fuel t o s with h | h
  · rw [h]
    rcases readC_safe g fuel t o s hcap hd ht hF ho hfuel with h | h
    · exact .inl h
    · exact .inr (.inl h)
  · exact .inr (.inr h)

/-- The reader with tests never does anything else than the code does where the code is defined. -/
theorem c120_tests_cost_nothing (g : Cfg) (fuel : Nat) (t : Ty) (o : Val) (s : List UInt8) (h : readV g fuel t o s ≠ .ub) :
    readC g fuel t o s = readV g fuel t o s := by
  rcases readV_readC g fuel t o s with e | e
  · exact e.symm
  · exact absurd e.1 h

/-- The tables of the stream are always read safely: names of types, structures and fields of any contents. -/
theorem c120_tables (g : Cfg) (s : List UInt8) (hcap : g.env.cap < 2 ^ 64) :
    (∃ e, readOldPrototypes g s = .throw e) ∨
      ∃ old rest, readOldPrototypes g s = .ok (old, rest) ∧ rest <:+ s ∧ ∀ p ∈ old, ∀ f ∈ p, ∀ k, f.2 = some k → k < g.S.fields.length := by
  obtain ⟨h1, h2⟩ := readOldPrototypes_safe g hcap s
  rcases hr : readOldPrototypes g s with ⟨old, s'⟩ | e | _
  · obtain ⟨hO, hs⟩ := h2 old s' hr
    exact .inr ⟨old, s', rfl, hs, hO⟩
  · exact .inl ⟨e, rfl⟩
  · exact absurd hr h1

/-- C120 is violated: a structure whose index is not in the tables of the stream is undefined behaviour. -/
theorem c120_index_violated (g : Cfg) (fuel : Nat) (si : SInfo) (ts : List Ty) (vs : List Val) (s rest : List UInt8) (old : List Proto) (i : Nat)
    (hs : readOldPrototypes g s = .ok (old, leBytes 2 i ++ rest)) (hi : old.length ≤ i) (hi' : i < 2 ^ 16) :
    readV g fuel (.struct (some si) ts) (.list vs) s = .ub := by
  unfold readV readBody
  rw [hs]
  simp only [Res.ok_bind]
  obtain ⟨c', hc', e⟩ := (readStructIndex_exact (I := fun x : Cache => x = fun _ => none) i hi' (fun _ => none) rfl).1 rest
  subst hc'
  have h1 : old[i]? = none := List.getElem?_eq_none hi
  simp only [readTy, hookV, Rd.bind_def, e, findProtoMapR, findProtoMap, h1]

/-- A stream with empty tables and the index 0. -/
example : readOldPrototypes g2 (List.replicate 16 0 ++ [0, 0]) = .ok ([], leBytes 2 0 ++ []) := by
  rfl

example : readV g2 100 a2 o2 (List.replicate 18 0) = .ub :=
  c120_index_violated g2 100 ⟨1, [[98], [121], [116], [119]]⟩ [b2, .num 4 1, .str 1, .vec b2] _ _ [] [] 0 (by rfl) (by simp) (by norm_num)

theorem sample_tables : ∀ t ∈ g2.S.fields, Described g2.S t ∧ Checked g2.env t := by
  intro t ht
  simp only [g2, s2, List.mem_cons, List.not_mem_nil, or_false] at ht
  rcases ht with rfl | rfl | rfl | rfl | rfl | rfl <;>
    simp [Described, DescribedAll, Checked, CheckedAll, b2, g2, s2, DescribesFields, isStruct]

/-- The hypotheses of the theorems are met by the second version of the sample, for every stream. -/
example (s : List UInt8) : (∃ e, readV g2 (s.length + 1) a2 o2 s = .throw e) ∨
    (∃ v rest, readV g2 (s.length + 1) a2 o2 s = .ok (v, rest) ∧ Legal g2.env a2 v ∧ rest <:+ s) ∨
    (readV g2 (s.length + 1) a2 o2 s = .ub ∧ readC g2 (s.length + 1) a2 o2 s = .throw .corruption) :=
  c120_arbitrary_bytes_partial g2 _ a2 o2 s (by norm_num [g2]) sample_described2
    (by simp [Checked, CheckedAll, a2, b2, g2]) sample_tables (by simp [Legal, Legals, a2, b2, o2, g2]) (Nat.lt_succ_self _)

/-! ### The depth of the stack -/

theorem readStructIndex_zero (c : Cache) (n : Nat) : readStructIndex c (List.replicate (2 * (n + 1)) 0) = .ok (0, c, List.replicate (2 * n) 0) := by
  obtain ⟨c', hc', e⟩ := (readStructIndex_exact (I := fun x : Cache => x = c) 0 (by norm_num) c rfl).1 (List.replicate (2 * n) 0)
  subst hc'
  have : List.replicate (2 * (n + 1)) (0 : UInt8) = leBytes 2 0 ++ List.replicate (2 * n) 0 := by
    rw [show 2 * (n + 1) = 2 + 2 * n by omega, ← List.replicate_append_replicate]; rfl
  rw [this]; exact e

/-- A structure that has a field of its own type, skipped: `n` structures in the stream. -/
theorem skip_nested (g : Cfg) (old : List Proto) (f : Name) (h0 : old[0]? = some [(f, none)]) (c : Cache) :
    ∀ n d, skipField g old d none c (List.replicate (2 * n) 0) = if d ≤ n then .ub else .throw .endOfFile := by
  intro n
  induction n with
  | zero =>
    intro d
    cases d with
    | zero => rfl
    | succ d => rw [if_neg (by omega)]; rfl
  | succ n ih =>
    intro d
    cases d with
    | zero => rfl
    | succ d =>
      have h := ih d
      simp only [skipField, Rd.bind_def, readStructIndex_zero, h0, skipAll, h]
      by_cases e : d ≤ n
      · rw [if_pos e, if_pos (by omega)]
      · rw [if_neg e, if_neg (by omega)]

/-- C120 is violated: the number of nested calls that skip structures is bounded by nothing but the length of the stream.  A structure that has a field of its own type cannot be defined in the
program, but a stream can declare it: for every depth `d` of the stack there is a stream of `2 d + 2` bytes behind the tables, all of its indices in the tables, that needs more. -/
theorem c120_depth_violated (g : Cfg) (si : SInfo) (ts : List Ty) (vs : List Val) (tables : List UInt8) (old : List Proto) (f : Name) (q : Proto)
    (hd : g.allowDelete = true) (hq : g.S.protos[si.idx]? = some q) (hf : ∀ x ∈ q, x.1 ≠ g.ren si.idx f)
    (hs : ∀ rest, readOldPrototypes g (tables ++ rest) = .ok (old, rest)) (h0 : old[0]? = some [(f, none)]) (d : Nat) :
    readV g d (.struct (some si) ts) (.list vs) (tables ++ List.replicate (2 * (d + 1)) 0) = .ub
    ∧ readV g (d + 1) (.struct (some si) ts) (.list vs) (tables ++ List.replicate (2 * (d + 1)) 0) = .throw .endOfFile := by
  have hm : mapPrototypes (g.S.fields.map g.nm) (g.ren si.idx) [(f, none)] q = .ok [none] := by
    have : q.findIdx? (fun x => x.1 == g.ren si.idx f) = none := by
      rw [List.findIdx?_eq_none_iff]
      intro x hx
      simpa using hf x hx
    simp [mapPrototypes, mapFields, this]
  have key : ∀ e, readV g e (.struct (some si) ts) (.list vs) (tables ++ List.replicate (2 * (d + 1)) 0) = if e ≤ d then .ub else .throw .endOfFile := by
    intro e
    unfold readV readBody
    rw [hs]
    simp only [Res.ok_bind, readTy, hookV, Rd.bind_def, readStructIndex_zero, findProtoMapR, findProtoMap, h0, hq, hm, List.isEmpty_cons, Bool.false_eq_true, if_false,
      List.zip_cons_cons, List.zip_nil_right, readMapped, hd, if_true, skip_nested g old f h0]
    by_cases h : e ≤ d <;> simp [h]
  exact ⟨by rw [key, if_pos (Nat.le_refl _)], by rw [key, if_neg (by omega)]⟩

/-- Tables with one structure that has one field "z", a structure. -/
def nestedTables : List UInt8 := leBytes 8 0 ++ leBytes 8 1 ++ leBytes 8 1 ++ leBytes 8 1 ++ [122] ++ List.replicate 8 255

theorem nestedTables_read (rest : List UInt8) : readOldPrototypes g2 (nestedTables ++ rest) = .ok ([[([122], none)]], rest) := by
  simp only [readOldPrototypes]
  have : read ⟨none, g2.env.cap⟩ metaTy (dflt metaTy) (nestedTables ++ rest) = .ok (.list [.list [], .list [.list [.list [.list [.list [.num 122], .num (2 ^ 64 - 1)]]]]], rest) := by
    obtain ⟨bs, h1, h2⟩ := Verif.Serialize.c31_new_object ⟨none, g2.env.cap⟩ metaTy (.list [.list [], .list [.list [.list [.list [.list [.num 122], .num (2 ^ 64 - 1)]]]]])
      (by simp [metaTy, HasTy, HasTys, g2])
    have : bs = nestedTables := by
      have e : write ⟨none, g2.env.cap⟩ metaTy (.list [.list [], .list [.list [.list [.list [.list [.num 122], .num (2 ^ 64 - 1)]]]]]) = .ok nestedTables := by rfl
      rw [h1] at e; cases e; rfl
    rw [← this]; exact h2 rest
  rw [this]
  rfl

example (d : Nat) : readV g2 d a2 o2 (nestedTables ++ List.replicate (2 * (d + 1)) 0) = .ub :=
  (c120_depth_violated g2 ⟨1, [[98], [121], [116], [119]]⟩ [b2, .num 4 1, .str 1, .vec b2] _ nestedTables [[([122], none)]] [122] _ rfl rfl (by decide) nestedTables_read rfl d).1

end Verif.Vts
