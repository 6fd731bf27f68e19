import Verif.Serialize.Safety

/-!
# Serialization: the properties
-/

namespace Verif.Serialize

/-- Numeric order, used in the examples. -/
def ltNum : Val → Val → Bool
  | .num a, .num b => decide (a < b)
  | _, _ => false

/-- An environment without string limit, used in the examples. -/
def env0 : Env := ⟨none, 1000⟩

/-- An environment with a string limit of 3 bytes. -/
def env3 : Env := ⟨some 3, 1000⟩

/-- A structure with most kinds of fields. -/
def sampleTy : Ty := .struct none
  [.num 4, .bool, .str 1, .vec .bool, .map (.ordered ltNum) (.num 1) (.opt (.num 2)), .var [.num 1, .str 1],
   .vec (.struct none [.num 2, .coll .deque (.num 1)])]

/-- A value of it. -/
def sampleVal : Val := .list
  [.num 70000, .bool true, .list [.num 104, .num 105], .list (([true, false, true, true, false, false, false, true, true] : List Bool).map .bool),
   .list [.list [.num 1, .none], .list [.num 7, .some (.num 515)]], .alt 1 (.list [.num 33]),
   .list [.list [.num 258, .list [.num 9, .num 8]]]]

example : HasTy env0 sampleTy sampleVal := by
  simp [sampleTy, sampleVal, HasTy, HasTys, HasTyAt, env0, Coll.Valid, fstVal, ltNum]

theorem read_of_exact {env : Env} {t : Ty} {old v : Val} {bs : List UInt8}
    (h : Exact (fun _ : Unit => True) (readTy env plainHook t old) bs v) :
    (∀ rest, read env t old (bs ++ rest) = .ok (v, rest)) ∧
    (∀ p, p <+: bs → p ≠ bs → read env t old p = .throw .endOfFile) := by
  obtain ⟨h1, h2⟩ := h () trivial
  constructor
  · intro rest
    obtain ⟨c', _, e⟩ := h1 rest
    simp only [read, e]
  · intro p hp hne
    simp only [read, h2 p hp hne]

/-- C31: for every type and value, writing succeeds, and reading the bytes into an object whose in-place filled parts
are empty (`Fresh`) gives the value and consumes exactly those bytes, whatever follows. -/
theorem c31_round_trip (env : Env) (t : Ty) (v old : Val) (hv : HasTy env t v) (ho : Fresh t old) :
    ∃ bs, write env t v = .ok bs ∧ ∀ rest, read env t old (bs ++ rest) = .ok (v, rest) := by
  obtain ⟨bs, e, x⟩ := readTy_exact env (fun _ => []) plainHook (plainHook_ok (fun _ : Unit => True)) t v old hv ho
  exact ⟨bs, e, (read_of_exact x).1⟩

/-- C31 for a newly created object. -/
theorem c31_new_object (env : Env) (t : Ty) (v : Val) (hv : HasTy env t v) :
    ∃ bs, write env t v = .ok bs ∧ ∀ rest, read env t (dflt t) (bs ++ rest) = .ok (v, rest) :=
  c31_round_trip env t v (dflt t) hv (fresh_dflt t)

/-- C31, consequences: different values have different bytes, and no value's bytes are a beginning of the bytes of
another value of the type. -/
theorem c31_unambiguous (env : Env) (t : Ty) (v v' : Val) (hv : HasTy env t v) (hv' : HasTy env t v')
    (bs bs' : List UInt8) (h : write env t v = .ok bs) (h' : write env t v' = .ok bs') (hp : bs <+: bs') :
    v = v' ∧ bs = bs' := by
  obtain ⟨b1, e1, r1⟩ := c31_new_object env t v hv
  obtain ⟨b2, e2, r2⟩ := c31_new_object env t v' hv'
  rw [h] at e1; cases e1
  rw [h'] at e2; cases e2
  obtain ⟨rest, rfl⟩ := hp
  have a := r1 rest
  have b := r2 []
  rw [List.append_nil, a] at b
  cases b
  exact ⟨rfl, by simp⟩

/-- C32: reading a proper prefix of the bytes of a value throws `EndOfFileException`. -/
theorem c32_truncated (env : Env) (t : Ty) (v old : Val) (hv : HasTy env t v) (ho : Fresh t old)
    (bs p : List UInt8) (hb : write env t v = .ok bs) (hp : p <+: bs) (hne : p ≠ bs) :
    read env t old p = .throw .endOfFile := by
  obtain ⟨b1, e, x⟩ := readTy_exact env (fun _ => []) plainHook (plainHook_ok (fun _ : Unit => True)) t v old hv ho
  have : b1 = bs := by
    have : Res.ok b1 = Res.ok bs := by rw [← e, ← hb]; rfl
    cases this; rfl
  subst this
  exact (read_of_exact x).2 p hp hne

-- The sample structure takes 76 bytes.
example : ∃ bs, write env0 sampleTy sampleVal = .ok bs ∧ bs.length = 76 := ⟨_, rfl, rfl⟩

/-- C33 (part): for types without optional, pointer, set, map, deque and ring (outside of variants) the value read
does not depend on what the object held before. -/
theorem c33_replaces_partial (env : Env) (t : Ty) (v old : Val) (ht : Replaces t = true) (hv : HasTy env t v)
    (ho : HasTy env t old) :
    ∃ bs, write env t v = .ok bs ∧ ∀ rest, read env t old (bs ++ rest) = .ok (v, rest) :=
  c31_round_trip env t v old hv (fresh_of_replaces env t old ht ho)

example : Replaces (.struct none [.num 4, .vec (.str 1), .var [.opt (.num 1), .bool]]) = true := by decide

/-- The full statement of C33. -/
def Replacing (env : Env) (t : Ty) : Prop :=
  ∀ v old, HasTy env t v → HasTy env t old →
    ∃ bs, write env t v = .ok bs ∧ ∀ rest, read env t old (bs ++ rest) = .ok (v, rest)

/-- C33 is violated by optionals and pointers: reading "no value" leaves the old value in place. -/
theorem c33_optional_violated (env : Env) (t : Ty) (ptr : Bool) (x : Val) (hx : HasTy env t x) :
    ¬ Replacing env (.opt t ptr) := by
  intro h
  obtain ⟨bs, e, r⟩ := h .none (.some x) (by simp [HasTy]) (by simpa [HasTy] using hx)
  have e' : bs = [0] := by
    have h2 : write env (.opt t ptr) .none = .ok [0] := by simp [write, writeTy, leBytes]
    rw [h2] at e
    cases e; rfl
  subst e'
  have a := r []
  have b : read env (.opt t ptr) (.some x) ([0] ++ []) = .ok (.some x, []) := by
    simp [read, readTy, Rd.bind_def, readRaw, leVal, Rd.pure_def]
  rw [b] at a
  cases a

/-- C33 is violated by deques, sets and maps: the elements read are added to the old ones.  An empty container that
is read leaves every old element in place. -/
theorem c33_collection_violated (env : Env) (k : Coll) (t : Ty) (x : Val) (hx : HasTy env t x)
    (hk : k.Valid id [x]) : ¬ Replacing env (.coll k t) := by
  intro h
  have hv0 : k.Valid id [] := by cases k <;> simp [Coll.Valid]
  obtain ⟨bs, e, r⟩ := h (.list []) (.list [x]) (by simp [HasTy, hv0]) (by simp [HasTy, hk, hx])
  have e' : bs = leBytes 8 0 := by
    have h2 : write env (.coll k t) (.list []) = .ok (leBytes 8 0) := by simp [write, writeTy, writeEach]
    rw [h2] at e
    cases e; rfl
  subst e'
  have a := r []
  have b : read env (.coll k t) (.list [x]) (leBytes 8 0 ++ []) = .ok (.list [x], []) := by
    obtain ⟨c', _, e⟩ := (Exact.readSize (σ := Unit) (I := fun _ => True) 0 (by norm_num) () trivial).1 []
    simp only [read, readTy, Rd.bind_def, e, readColl, Rd.pure_def]
  rw [b] at a
  simp at a

example : ¬ Replacing env0 (.coll .deque (.num 1)) :=
  c33_collection_violated env0 .deque (.num 1) (.num 3) (by simp [HasTy]) (by simp [Coll.Valid])
example : ¬ Replacing env0 (.opt (.str 1)) :=
  c33_optional_violated env0 (.str 1) false (.list [.num 3]) (by simp [HasTy, env0])

/-- A map keeps the value of a key that is already present. -/
theorem c33_map_violated : ¬ Replacing env0 (.map (.ordered ltNum) (.num 1) (.num 1)) := by
  intro h
  obtain ⟨bs, e, r⟩ := h (.list [.list [.num 1, .num 5]]) (.list [.list [.num 1, .num 4]])
    (by simp [HasTy, Coll.Valid]) (by simp [HasTy, Coll.Valid])
  have e' : write env0 (.map (.ordered ltNum) (.num 1) (.num 1)) (.list [.list [.num 1, .num 5]]) =
    .ok [1, 0, 0, 0, 0, 0, 0, 0, 1, 5] := rfl
  rw [e'] at e
  cases e
  have a := r []
  have b : read env0 (.map (.ordered ltNum) (.num 1) (.num 1)) (.list [.list [.num 1, .num 4]])
    ([1, 0, 0, 0, 0, 0, 0, 0, 1, 5] ++ []) = .ok (.list [.list [.num 1, .num 4]], []) := rfl
  rw [b] at a
  simp at a

/-- C78: with a length limit, a string that is read never takes more bytes than the limit, whatever the stream
contains (on a machine where the bytes of an allocatable string can be counted). -/
theorem c78_limit_on_read (env : Env) (L c : Nat) (hL : env.limit = some L) (hc : env.cap * c < 2 ^ 64)
    (old : List Val) (s s' : List UInt8) (v : Val) (hold : Legal env (.str c) (.list old))
    (h : read env (.str c) (.list old) s = .ok (v, s')) : ∃ vs, v = .list vs ∧ vs.length * c ≤ L := by
  have hs := readTy_safe env plainHook (plainHook_safe (σ := Unit) (I := fun _ => True) (N := s.length) env) (.str c) (.list old) (structs_true _) (by simpa [Checked] using hc) hold () s trivial (Nat.le_refl _)
  unfold read at h
  cases hr : readTy env plainHook (.str c) (.list old) () s with
  | ok r =>
    obtain ⟨a, u, s2⟩ := r
    rw [hr] at hs h
    cases h
    have := hs.1
    cases v with
    | list vs => simp only [Legal] at this; exact ⟨vs, rfl, this.1 L hL⟩
    | _ => simp [Legal] at this
  | throw e => rw [hr] at h; cases h
  | ub => rw [hr] at h; cases h

/-- C78: a string longer than the limit is refused with an `IoException` and nothing is written. -/
theorem c78_limit_on_write (env : Env) (L c : Nat) (hL : env.limit = some L) (vs : List Val)
    (h64 : vs.length * c < 2 ^ 64) (h : L < vs.length * c) : write env (.str c) (.list vs) = .throw .io := by
  simp only [write, writeTy]
  rw [Nat.mod_eq_of_lt h64, hL]
  simp [h]

/-- C78 (part): on reading, a length field above the limit is refused with an `IoException` before anything is
allocated, if the byte length does not wrap around. -/
theorem c78_refused_partial (env : Env) (L c len : Nat) (hL : env.limit = some L) (hlen : len < 2 ^ 64)
    (h64 : len * c < 2 ^ 64) (h : L < len * c) (old : Val) (rest : List UInt8) :
    read env (.str c) old (leBytes 8 len ++ rest) = .throw .io := by
  obtain ⟨c', _, e⟩ := (Exact.readSize (σ := Unit) (I := fun _ => True) len hlen () trivial).1 rest
  simp only [read, readTy, Rd.bind_def, e]
  rw [Nat.mod_eq_of_lt h64, hL]
  simp [h, Rd.fail]

/-- C78 is violated for wide characters: the byte length wraps around, so that a corrupted length field gets past the
limit of three bytes and the allocation of 2^62 characters is attempted (and fails with another exception). -/
theorem c78_wraparound_violated :
    ∃ bs, 3 < leVal (bs.take 8) * 4 ∧ read env3 (.str 4) (.list []) bs = .throw .general :=
  by
  refine ⟨leBytes 8 (2 ^ 62) ++ [], ?_, ?_⟩
  · rw [List.append_nil, List.take_of_length_le (by simp), leVal_leBytes 8 _ (by norm_num)]
    norm_num
  · obtain ⟨c', _, e⟩ := (Exact.readSize (σ := Unit) (I := fun _ => True) (2 ^ 62) (by norm_num) () trivial).1 []
    simp only [read, readTy, Rd.bind_def, e]
    norm_num [env3, resize, Rd.lift, Rd.bind_def]

/-- C79 (part: types without variants): reading arbitrary bytes into a legal object never is undefined behaviour;
it throws, or it returns a legal object (enumerators in range, sorted sets without duplicates, rings within their
limit, strings within the length limit, arrays of their dimension) and consumes a prefix of the bytes. -/
theorem c79_arbitrary_bytes_partial (env : Env) (t : Ty) (old : Val) (s : List UInt8) (ht : Checked env t)
    (ho : Legal env t old) :
    (∃ e, read env t old s = .throw e) ∨ (∃ v s', read env t old s = .ok (v, s') ∧ Legal env t v ∧ s' <:+ s) := by
  have hs := readTy_safe env plainHook (plainHook_safe (σ := Unit) (I := fun _ => True) (N := s.length) env) t old (structs_true t) ht ho ()
    s trivial (Nat.le_refl _)
  unfold read
  cases hr : readTy env plainHook t old () s with
  | ok r =>
    obtain ⟨a, u, s2⟩ := r
    rw [hr] at hs
    exact Or.inr ⟨a, s2, rfl, hs.1, hs.2.2⟩
  | throw e => exact Or.inl ⟨e, rfl⟩
  | ub => rw [hr] at hs; exact hs.elim

/-- The hypotheses are met by a structure with all kinds of fields but variants. -/
example : Checked env3 (.struct none [.num 4, .enm 1 3, .str 2, .vec .bool, .arr 2 (.opt (.bool)),
    .map (.ordered ltNum) (.num 1) (.opt (.num 2)), .coll (.ring 5) (.num 2), .time 1000 1]) := by
  simp only [Checked, CheckedAll, Coll.Good, env3]
  refine ⟨trivial, by omega, by norm_num, ⟨by simp, trivial⟩, ⟨by simp, trivial⟩, ⟨?_, trivial, trivial⟩, ⟨by omega, trivial⟩, trivial, trivial⟩
  intro a b c
  cases a <;> cases b <;> cases c <;> simp [ltNum]
  omega

/-- C79 is violated by variants: the index read from the stream is not checked. -/
theorem c79_variant_violated (env : Env) (ts : List Ty) (old : Val) (i : Nat) (hi : i < 2 ^ 64) (h : ts.length ≤ i)
    (rest : List UInt8) : read env (.var ts) old (leBytes 8 i ++ rest) = .ub := by
  obtain ⟨c', _, e⟩ := (Exact.readSize (σ := Unit) (I := fun _ => True) i hi () trivial).1 rest
  have hn : (readTys env (plainHook (σ := Unit)) ts)[i]? = none := by
    rw [List.getElem?_eq_none]
    rw [readTys_length]
    exact h
  simp only [read, readTy, Rd.bind_def, e, hn]
  rfl

/-- C80: time points are read back exactly when their tick is a multiple of a nanosecond (and the value in
nanoseconds fits 64 bits). -/
theorem c80_time_point_partial (env : Env) (p : Nat) (i : Int) (old : Val) (hp : 0 < p) (h1 : -2 ^ 63 ≤ i * p)
    (h2 : i * p < 2 ^ 63) (rest : List UInt8) :
    ∃ bs, bs.length = 8 ∧ write env (.time p 1) (.int i) = .ok bs ∧
      read env (.time p 1) old (bs ++ rest) = .ok (.int i, rest) := by
  obtain ⟨bs, e, r⟩ := c31_round_trip env (.time p 1) (.int i) old
    (by simp only [HasTy]; exact ⟨hp, by omega, h1, h2, by simp⟩) (by simp [Fresh])
  refine ⟨bs, ?_, e, r rest⟩
  simp only [write, writeTy] at e
  obtain ⟨ns, _, e2⟩ := Res.bind_eq_ok.mp e
  cases e2
  simp

/-- C80 is violated for finer ticks: a time point of 1500 picoseconds is read back as 1000 picoseconds. -/
theorem c80_time_point_violated :
    ∃ bs, write env0 (.time 1 1000) (.int 1500) = .ok bs ∧
      read env0 (.time 1 1000) (.int 0) bs = .ok (.int 1000, []) := ⟨_, rfl, rfl⟩

example : write env0 (.time 1000 1) (.int (-7)) = .ok [0xa8, 0xe4, 0xff, 0xff, 0xff, 0xff, 0xff, 0xff] := rfl

-- Non-trivial cases: the sample structure is written and read back, with three bytes following.
example : (do let bs ← write env0 sampleTy sampleVal; read env0 sampleTy (dflt sampleTy) (bs ++ [1, 2, 3])) =
    .ok (sampleVal, [1, 2, 3]) := rfl
example : (do let bs ← write env0 sampleTy sampleVal; read env0 sampleTy (dflt sampleTy) (bs.take 50)) =
    .throw .endOfFile := rfl
example : write env0 (.vec .bool) (.list (([true, false, true, true, false, false, false, true, true] : List Bool).map .bool)) =
    .ok [9, 0, 0, 0, 0, 0, 0, 0, 141, 1] := rfl
example : write env3 (.str 1) (.list [.num 1, .num 2, .num 3, .num 4]) = .throw .io := rfl

end Verif.Serialize
