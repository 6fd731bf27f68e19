import Verif.Vts.Mismatch
import Verif.Vts.Props
import Verif.Serialize.Props

/-!
# Version tolerant serialization: the properties of failed reads
-/

namespace Verif.Vts

open Verif.Serialize

/-! ### C37 -/

/-- C37 at any place of the stream: when a structure is read for the first time by a `Reader` (`c i.idx = none`) and
one of its fields has another type than the field of that name in the reading program, an `IoException` is thrown,
whatever the bytes of its fields are. -/
theorem c37_first_read (nm₁ : Ty → Name) (g : Cfg) (S₁ : Schema) (old : List Proto) (i j : SInfo) (ts us : List Ty)
    (hF : Fits g.env.cap nm₁ S₁) (hK : Known nm₁ g S₁) (tables : List UInt8)
    (hT : writeNewPrototypes g.env.cap nm₁ S₁ = .ok tables)
    (hO : readOldPrototypes g tables = .ok (old, []))
    (hd : Described S₁ (.struct (some i) ts)) (hd' : Described g.S (.struct (some j) us)) (hn : j.names.Nodup)
    (hm : Mismatch nm₁ g i j ts us) (fuel : Nat) (o : List Val) (c : Cache) (hc : c i.idx = none) (s : List UInt8) :
    readBody g fuel old (.struct (some j) us) (.list o) c (leBytes 2 i.idx ++ s) = .throw .io := by
  obtain ⟨ms, old', h1, h2, _, h3, _⟩ := readOldPrototypes_ok hF hK
  rw [hT] at h1
  cases h1
  have h3 := h3 []
  rw [List.append_nil, hO] at h3
  cases h3
  have hi : i.idx < 2 ^ 16 := by
    simp only [Described] at hd
    exact hd.1
  have hx := findProtoMap_mismatch h2 i j ts us hK hd hd' hn hm c hc
  obtain ⟨c', hc', e⟩ := (readStructIndex_exact (I := fun x : Cache => x = c) i.idx hi c rfl).1 s
  subst hc'
  simp only [readBody, readTy, hookV, Rd.bind_def, e, findProtoMapR, hx]

/-- C37 for `ReadV(in, val)` and `VersionTolerantSerializable`, which use a new `Reader` every time: reading a stream
written by a version in which a field has another type throws an `IoException`, no matter how often it is tried, and
`VersionTolerantSerializable` leaves the object as it was.  The full statement also covers a `Reader` that is used
again after the exception, see `c37_second_read_violated`, and types with equal names, see
`c37_equal_names_violated`. -/
theorem c37_mismatch_reported_partial (nm₁ : Ty → Name) (g : Cfg) (S₁ : Schema) (i j : SInfo) (ts us : List Ty)
    (v : Val) (hF : Fits g.env.cap nm₁ S₁) (hK : Known nm₁ g S₁) (hv : HasTy g.env (.struct (some i) ts) v)
    (hd : Described S₁ (.struct (some i) ts)) (hd' : Described g.S (.struct (some j) us)) (hn : j.names.Nodup)
    (hm : Mismatch nm₁ g i j ts us) :
    ∃ bs, writeV g.env nm₁ S₁ (.struct (some i) ts) v = .ok bs ∧ ∀ fuel rest o,
      readV g fuel (.struct (some j) us) (.list o) (bs ++ rest) = .throw .io ∧
      ∀ m_val, readAtomic g fuel (.struct (some j) us) (.list o) m_val (bs ++ rest) = (.throw .io, m_val) := by
  obtain ⟨ms, old, h1, h2, _, h3, _⟩ := readOldPrototypes_ok hF hK
  obtain ⟨bs, hb⟩ := writeTy_ok g.env (.struct (some i) ts) v hv
  have hpre : ∃ b', bs = leBytes 2 i.idx ++ b' := by
    cases v with
    | list vs =>
      simp only [writeTy] at hb
      obtain ⟨b', _, hw⟩ := Res.bind_eq_ok.mp hb
      simp only [Res.ok.injEq, preV] at hw
      exact ⟨b', hw.symm⟩
    | _ => simp [HasTy] at hv
  obtain ⟨b', rfl⟩ := hpre
  refine ⟨ms ++ (leBytes 2 i.idx ++ b'), by simp [writeV, h1, hb], ?_⟩
  intro fuel rest o
  have hO := h3 []
  rw [List.append_nil] at hO
  have e : readV g fuel (.struct (some j) us) (.list o) (ms ++ (leBytes 2 i.idx ++ b') ++ rest) = .throw .io := by
    have := c37_first_read nm₁ g S₁ old i j ts us hF hK ms h1 hO hd hd' hn hm fuel o (fun _ => none) rfl (b' ++ rest)
    simp only [readV, List.append_assoc, h3, Res.ok_bind, this]
  exact ⟨e, fun m => by simp only [readAtomic, e]⟩

/-- C37: a structure of the stream that was read as one structure of the program (number `n'`, the entry of the
cache) is not read as another one: an `IoException` is thrown. -/
theorem c37_inconsistent_structure (g : Cfg) (fuel : Nat) (old : List Proto) (i n' : Nat) (m : List (Option Nat))
    (j : SInfo) (us : List Ty) (o : List Val) (c : Cache) (hi : i < 2 ^ 16) (hc : c i = some (n', m)) (hj : j.idx ≠ n')
    (s : List UInt8) :
    readBody g fuel old (.struct (some j) us) (.list o) c (leBytes 2 i ++ s) = .throw .io := by
  obtain ⟨c', hc', e⟩ := (readStructIndex_exact (I := fun x : Cache => x = c) i hi c rfl).1 s
  subst hc'
  simp only [readBody, readTy, hookV, Rd.bind_def, e, findProtoMapR, findProtoMap, hc, if_pos hj]

/-! The examples: `struct M { int32_t a; int32_t b; }` has become `struct M { int64_t a; }`. -/

/-- First version. -/
def m1 : Ty := .struct (some ⟨0, [[97], [98]]⟩) [.num 4, .num 4]

/-- Second version. -/
def m2 : Ty := .struct (some ⟨0, [[97]]⟩) [.num 8]

/-- Tables of the first version. -/
def ms1 : Schema := ⟨[.num 4], [[([97], some 0), ([98], some 0)]]⟩

/-- Tables of the second version; `int32_t` is known because it is used elsewhere. -/
def ms2 : Schema := ⟨[.num 8, .num 4], [[([97], some 0)]]⟩

/-- The reading program. -/
def gm : Cfg := ⟨⟨none, 1000⟩, ms2, sampleNm, fun _ n => n, id, true⟩

theorem mismatch_fits : Fits gm.env.cap sampleNm ms1 := by
  constructor
  · simp [ms1, gm]
  · simp [ms1, sampleNm, gm]
  · simp [ms1, gm]
  · intro p hp
    simp only [ms1, List.mem_cons, List.not_mem_nil, or_false] at hp
    subst hp
    refine ⟨by simp [gm], by simp, fun f hf => ?_⟩
    simp only [List.mem_cons, List.not_mem_nil, or_false] at hf
    rcases hf with rfl | rfl <;> simp [ms1, gm]

theorem mismatch_known : Known sampleNm gm ms1 := by
  intro p hp f hf k hk t ht
  simp only [ms1, List.mem_cons, List.not_mem_nil, or_false] at hp
  subst hp
  simp only [List.mem_cons, List.not_mem_nil, or_false] at hf
  rcases hf with rfl | rfl <;> cases hk <;> cases ht <;> simp [gm, ms2, sampleNm]

theorem mismatch_sample : Mismatch sampleNm gm ⟨0, [[97], [98]]⟩ ⟨0, [[97]]⟩ [.num 4, .num 4] [.num 8] :=
  ⟨0, 0, [97], .num 4, .num 8, rfl, rfl, rfl, rfl, Or.inr ⟨rfl, by decide⟩⟩

example : ∃ bs, writeV gm.env sampleNm ms1 m1 (.list [.num 1, .num 2]) = .ok bs ∧ ∀ fuel rest o,
    readV gm fuel m2 (.list o) (bs ++ rest) = .throw .io ∧
    ∀ m_val, readAtomic gm fuel m2 (.list o) m_val (bs ++ rest) = (.throw .io, m_val) :=
  c37_mismatch_reported_partial sampleNm gm ms1 ⟨0, [[97], [98]]⟩ ⟨0, [[97]]⟩ [.num 4, .num 4] [.num 8]
    (.list [.num 1, .num 2]) mismatch_fits mismatch_known (by simp [HasTy, HasTys])
    (by simp [ms1, Described, DescribedAll, DescribesFields, isStruct])
    (by simp [gm, ms2, Described, DescribedAll, DescribesFields, isStruct]) (by decide) mismatch_sample

/-- C37 is violated when the `Reader` is used again: the failed attempt has left an empty map in its cache, so for
every mismatch the next attempt reads the fields sequentially, without looking at their names and types. -/
theorem c37_second_read_sequential_violated (nm₁ : Ty → Name) (g : Cfg) (S₁ : Schema) (old : List Proto) (i j : SInfo)
    (ts us : List Ty) (hF : Fits g.env.cap nm₁ S₁) (hK : Known nm₁ g S₁) (tables : List UInt8)
    (hT : writeNewPrototypes g.env.cap nm₁ S₁ = .ok tables)
    (hO : readOldPrototypes g tables = .ok (old, []))
    (hd : Described S₁ (.struct (some i) ts)) (hd' : Described g.S (.struct (some j) us)) (hn : j.names.Nodup)
    (hm : Mismatch nm₁ g i j ts us) (fuel : Nat) (o : List Val) (c : Cache) (hc : c i.idx = none) (s : List UInt8) :
    let c' := (findProtoMap g old i.idx j.idx c).2
    readBody g fuel old (.struct (some j) us) (.list o) c (leBytes 2 i.idx ++ s) = .throw .io ∧
    readBody g fuel old (.struct (some j) us) (.list o) c' (leBytes 2 i.idx ++ s) =
      readBody g fuel old (.struct none us) (.list o) c' s := by
  intro c'
  refine ⟨c37_first_read nm₁ g S₁ old i j ts us hF hK tables hT hO hd hd' hn hm fuel o c hc s, ?_⟩
  obtain ⟨ms, old', h1, h2, _, h3, _⟩ := readOldPrototypes_ok hF hK
  rw [hT] at h1
  cases h1
  have h3 := h3 []
  rw [List.append_nil, hO] at h3
  cases h3
  have hi : i.idx < 2 ^ 16 := by
    simp only [Described] at hd
    exact hd.1
  have hx := findProtoMap_mismatch h2 i j ts us hK hd hd' hn hm c hc
  have hc' : c' = c.set i.idx (j.idx, []) := by
    show (findProtoMap g old i.idx j.idx c).2 = _
    rw [hx]
  obtain ⟨c'', hc'', e⟩ := (readStructIndex_exact (I := fun x : Cache => x = c') i.idx hi c' rfl).1 s
  subst hc''
  have hf : findProtoMap g old i.idx j.idx c' = (.ok [], c') := by
    simp only [findProtoMap, hc', Cache.set, if_true, ne_eq, not_true_eq_false, if_false]
  simp only [readBody, readTy, hookV, Rd.bind_def, e, findProtoMapR, hf, List.isEmpty_nil, if_true]

/-- The sample: the first attempt to read {1, 2} throws, the second one with the same `Reader` stores 2 * 2^32 + 1 in
`a`. -/
theorem c37_second_read_violated : ∃ old c',
    readOldPrototypes gm (match writeNewPrototypes 1000 sampleNm ms1 with | .ok b => b | _ => []) = .ok (old, []) ∧
    c' = (findProtoMap gm old 0 0 (fun _ => none)).2 ∧
    readBody gm 100 old m2 (.list [.num 0]) (fun _ => none) [0, 0, 1, 0, 0, 0, 2, 0, 0, 0] = .throw .io ∧
    readBody gm 100 old m2 (.list [.num 0]) c' [0, 0, 1, 0, 0, 0, 2, 0, 0, 0] =
      .ok (.list [.num (2 * 2 ^ 32 + 1)], c', []) :=
  ⟨_, _, rfl, rfl, rfl, rfl⟩

/-- The bytes of "sequence<int8_t>", the name of `std::vector<int8_t>`, of `std::vector<bool>` and of `std::string`
(`TypeDescriptor.h:79-128`: `bool` and `char` are integral types of 8 bits). -/
def seqInt8 : Name := [115, 101, 113, 117, 101, 110, 99, 101, 60, 105, 110, 116, 56, 95, 116, 62]

/-- The names of these types. -/
def confusedNm : Ty → Name
  | .vec .bool => seqInt8
  | .vec (.num 1 _) => seqInt8
  | .str 1 => seqInt8
  | _ => [63]

/-- Tables of a program with `struct { std::vector<bool> a; }`. -/
def cs1 : Schema := ⟨[.vec .bool], [[([97], some 0)]]⟩

/-- Tables of a program with `struct { std::vector<int8_t> a; }`. -/
def cs2 : Schema := ⟨[.vec (.num 1)], [[([97], some 0)]]⟩

/-- C37 is violated by types with equal names: `std::vector<bool>` has become `std::vector<int8_t>`.  No exception is
thrown; three bytes are expected where one was written, so the vector gets the packed bits and two bytes of what
follows. -/
theorem c37_equal_names_violated :
    let t : Ty := .struct (some ⟨0, [[97]]⟩) [.vec .bool]
    let u : Ty := .struct (some ⟨0, [[97]]⟩) [.vec (.num 1)]
    let g : Cfg := ⟨⟨none, 1000⟩, cs2, confusedNm, fun _ n => n, id, true⟩
    let v : Val := .list [.list [.bool true, .bool false, .bool true]]
    HasTy g.env t v ∧ Described cs1 t ∧ Described g.S u ∧
    ∃ bs, writeV g.env confusedNm cs1 t v = .ok bs ∧
      readV g 1000 u (dflt u) (bs ++ [8, 9, 10]) = .ok (.list [.list [.num 5, .num 8, .num 9]], [10]) := by
  refine ⟨by simp [HasTy, HasTys], by simp [cs1, Described, DescribedAll, DescribesFields, isStruct],
    by simp [cs2, Described, DescribedAll, DescribesFields, isStruct], _, rfl, rfl⟩

/-! ### C81 -/

/-- C81 for types that can be moved: whatever the bytes are, if `Read` throws the object is unchanged. -/
theorem c81_movable_unchanged (g : Cfg) (fuel : Nat) (t : Ty) (d m_val : Val) (s : List UInt8) :
    (∃ s' v, readAtomic g fuel t d m_val s = (.ok s', v) ∧ readV g fuel t d s = .ok (v, s')) ∨
    (∃ e, readAtomic g fuel t d m_val s = (.throw e, m_val)) ∨ readV g fuel t d s = .ub := by
  unfold readAtomic
  cases h : readV g fuel t d s with
  | ok x => exact Or.inl ⟨x.2, x.1, rfl, rfl⟩
  | throw e => exact Or.inr (Or.inl ⟨e, rfl⟩)
  | ub => exact Or.inr (Or.inr rfl)

/-- C81 for types that cannot be moved, part: the old value is restored after every exception derived from
`IoException` if the type has no
optional, pointer, set, map, deque or ring outside of variants. -/
theorem c81_restored_partial (g : Cfg) (fuel : Nat) (t : Ty) (m_val mid : Val) (s : List UInt8) (e : Exn)
    (ht : Replaces t = true) (hv : HasTy ⟨none, g.env.cap⟩ t m_val) (hmid : HasTy ⟨none, g.env.cap⟩ t mid)
    (he : e ∈ [Exn.io, .endOfFile, .corruption, .typeMismatch, .fieldNotFound, .structNotFound])
    (hr : readV g fuel t m_val s = .throw e) :
    readRestored g fuel t m_val mid s = (.throw e, m_val) := by
  obtain ⟨bs, h1, h2⟩ := readTy_exact ⟨none, g.env.cap⟩ (fun _ => []) plainHook (plainHook_ok (fun _ : Unit => True)) t
    m_val mid hv (fresh_of_replaces _ t mid ht hmid)
  obtain ⟨c, _, h3⟩ := (h2 () trivial).1 []
  rw [List.append_nil] at h3
  have he' : isIo e = true := by
    simp only [List.mem_cons, List.not_mem_nil, or_false] at he
    rcases he with rfl | rfl | rfl | rfl | rfl | rfl <;> rfl
  simp only [readRestored, hr, he', if_true, write, h1, Serialize.read, h3]

/-- A set of bytes and a number, `struct N { std::set<uint8_t> s; std::atomic<uint32_t> a; std::vector<uint8_t> v; }`. -/
def n1 : Ty := .struct (some ⟨0, [[115], [97], [118]]⟩) [.coll (.ordered Verif.Serialize.ltNum) (.num 1), .num 4, .vec (.num 1)]

/-- Its tables. -/
def ns1 : Schema := ⟨[.coll (.ordered Verif.Serialize.ltNum) (.num 1), .num 4, .vec (.num 1)],
  [[([115], some 0), ([97], some 1), ([118], some 2)]]⟩

/-- The program. -/
def gn : Cfg := ⟨⟨none, 1000⟩, ns1, fun
  | .coll _ _ => [1]
  | .num 4 _ => [2]
  | _ => [3], fun _ n => n, id, true⟩

/-- The bytes of the tables. -/
def nTables : List UInt8 := match writeNewPrototypes 1000 gn.nm ns1 with
  | .ok b => b
  | _ => []

/-- The readers of the fields of `N`. -/
def nFields (old : List Proto) : List (Val → Rd Cache Val) :=
  readTys gn.env (hookV gn old (skipField gn old 100)) [.coll (.ordered Verif.Serialize.ltNum) (.num 1), .num 4, .vec (.num 1)]

/-- The prototypes in the stream. -/
def nOld : List Proto := [[([115], some 0), ([97], some 1), ([118], some 2)]]

set_option maxRecDepth 20000 in
/-- C81 is violated by a type that cannot be moved and has a set: the object holds {1} and 5, the stream has {2}, 6 and
then ends inside of `v`; after the exception the object holds {1, 2} and 5, because the snapshot is read into the set without
clearing it. -/
theorem c81_set_violated :
    let s := nTables ++ [0, 0, 1, 0, 0, 0, 0, 0, 0, 0, 2, 6, 0, 0, 0, 9]
    let m_val : List Val := [.list [.num 1], .num 5, .list []]
    let mid := fieldsAtThrow (nFields nOld) m_val (fun _ => none) [1, 0, 0, 0, 0, 0, 0, 0, 2, 6, 0, 0, 0, 9]
    HasTy gn.env n1 (.list m_val) ∧ mid = [.list [.num 1, .num 2], .num 6, .list []] ∧
    readOldPrototypes gn s = .ok (nOld, [0, 0, 1, 0, 0, 0, 0, 0, 0, 0, 2, 6, 0, 0, 0, 9]) ∧
    readRestored gn 100 n1 (.list m_val) (.list mid) s =
      (.throw .endOfFile, .list [.list [.num 1, .num 2], .num 5, .list []]) := by
  refine ⟨?_, rfl, rfl, rfl⟩
  simp [n1, HasTy, HasTys, Coll.Valid, gn]

set_option maxRecDepth 20000 in
/-- C81 is violated by exceptions that are not derived from `IoException`: the length of the vector in the stream is
2^63, `resize` throws `std::length_error`, and the number already read stays in the object. -/
theorem c81_other_exception_violated :
    let s := nTables ++ [0, 0, 0, 0, 0, 0, 0, 0, 0, 0, 6, 0, 0, 0, 0, 0, 0, 0, 0, 0, 0, 128]
    let m_val : List Val := [.list [.num 1], .num 5, .list []]
    let mid := fieldsAtThrow (nFields nOld) m_val (fun _ => none)
      [0, 0, 0, 0, 0, 0, 0, 0, 6, 0, 0, 0, 0, 0, 0, 0, 0, 0, 0, 128]
    readRestored gn 100 n1 (.list m_val) (.list mid) s =
      (.throw .general, .list [.list [.num 1], .num 6, .list []]) := rfl

example : Replaces (.struct (some ⟨0, [[97], [118]]⟩) [.num 4, .vec (.num 1)]) = true := by decide

end Verif.Vts
