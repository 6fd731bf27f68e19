import Verif.FixedMem.ArenaSpec
import Mathlib.Tactic.Common
import Mathlib.Algebra.Order.Group.Nat

/-!
# C162: the blocks of a space are arrays of their own
-/

namespace Verif.FixedMem

/-- The places of blocks with these contents, the first at `p`. -/
def places (p : Nat) : List (List UInt8) → List Nat
  | [] => []
  | c :: cs => p :: places (p + c.length) cs

theorem places_append (a : List (List UInt8)) (c : List UInt8) : ∀ p, places p (a ++ [c]) = places p a ++ [p + used a] := by
  induction a with
  | nil => intro p; simp [places, used]
  | cons d a ih => intro p; simp [places, ih, used, Nat.add_assoc]

theorem places_set (a : List (List UInt8)) : ∀ (p k : Nat) (c c' : List UInt8), a[k]? = some c → c'.length = c.length →
    places p (a.set k c') = places p a := by
  induction a with
  | nil => intro p k c c' h _; simp at h
  | cons d a ih =>
    intro p k c c' h hl
    cases k with
    | zero => simp at h; subst h; simp [places, hl]
    | succ k => simp [places, ih _ k c c' (by simpa using h) hl]

theorem used_set (a : List (List UInt8)) : ∀ (k : Nat) (c c' : List UInt8), a[k]? = some c → c'.length = c.length →
    used (a.set k c') = used a := by
  induction a with
  | nil => intro k c c' h _; simp at h
  | cons d a ih =>
    intro k c c' h hl
    cases k with
    | zero => simp at h; subst h; simp [used, hl]
    | succ k =>
      have := ih k c c' (by simpa using h) hl
      simp only [used, List.set_cons_succ, List.map_cons, List.sum_cons] at this ⊢
      rw [this]

theorem used_flatten (a : List (List UInt8)) : a.flatten.length = used a := by
  simp [used, List.length_flatten]

/-- Where a block is in the bytes of all. -/
theorem place_byte (a : List (List UInt8)) : ∀ (p k : Nat) (c : List UInt8), a[k]? = some c →
    ∃ q, (places p a)[k]? = some (p + q) ∧ q + c.length ≤ used a ∧
      (∀ i, i < c.length → a.flatten[q + i]? = c[i]?) ∧
      ∀ i v, i < c.length → (a.set k (c.set i v)).flatten = a.flatten.set (q + i) v := by
  induction a with
  | nil => intro p k c h; simp at h
  | cons d a ih =>
    intro p k c h
    cases k with
    | zero =>
      simp at h
      subst h
      refine ⟨0, by simp [places], by simp [used], ?_, ?_⟩
      · intro i hi
        simp [List.getElem?_append, hi]
      · intro i v hi
        simp [hi]
    | succ k =>
      obtain ⟨q, h1, h2, h3, h4⟩ := ih (p + d.length) k c (by simpa using h)
      refine ⟨d.length + q, ?_, ?_, ?_, ?_⟩
      · simp [places, h1, Nat.add_assoc]
      · simp only [used, List.map_cons, List.sum_cons] at h2 ⊢; omega
      · intro i hi
        have h5 : ¬ d.length + q + i < d.length := by omega
        have h6 : d.length + q + i - d.length = q + i := by omega
        simp only [List.flatten_cons, List.getElem?_append, h5, if_false, h6, h3 i hi]
      · intro i v hi
        have h5 : ¬ d.length + q + i < d.length := by omega
        have h6 : d.length + q + i - d.length = q + i := by omega
        simp only [List.set_cons_succ, List.flatten_cons, h4 i v hi, List.set_append, h5, if_false, h6]

/-- The space holds the blocks one after the other, then zeros. -/
structure ARel (addr size : Nat) (s : AState) (a : List (List UInt8)) : Prop where
  addr_eq : s.space.addr = addr
  fits : used a ≤ size
  bytes_eq : s.space.bytes = a.flatten ++ List.replicate (size - used a) 0
  pos_eq : s.space.pos = used a
  blocks_eq : s.blocks = places 0 a

theorem arel_length {addr size : Nat} {s : AState} {a : List (List UInt8)} (h : ARel addr size s a) :
    s.space.bytes.length = size := by
  have := h.fits
  rw [h.bytes_eq, List.length_append, used_flatten, List.length_replicate]
  omega

theorem arel_step (dbg : Bool) {addr size : Nat} (hsize : size < 2 ^ 64) {s : AState} {a a' : List (List UInt8)}
    {c : ACmd} {o : Obs} (h : ARel addr size s a) (hs : specStep size a c = some (a', o)) :
    ∃ s', astep dbg s c = .ok (s', o) ∧ ARel addr size s' a' := by
  have hl := arel_length h
  have hfit := h.fits
  cases c with
  | alloc n sz =>
    simp only [specStep] at hs
    split at hs
    · rename_i hroom
      simp only [Option.some.injEq, Prod.mk.injEq] at hs
      obtain ⟨rfl, rfl⟩ := hs
      have hmod : n * sz % 2 ^ 64 = n * sz := Nat.mod_eq_of_lt (by omega)
      have h1 : ¬ (dbg = true ∧ ¬ n * sz ≤ s.space.bytes.length - s.space.length) := by
        rintro ⟨_, h2⟩; apply h2; rw [hl, Space.length, h.pos_eq]; omega
      have h2 : s.space.pos + n * sz ≤ s.space.bytes.length := by rw [hl, h.pos_eq]; omega
      refine ⟨⟨⟨s.space.addr, s.space.bytes, s.space.pos + n * sz⟩, s.blocks ++ [s.space.pos]⟩, ?_, ?_⟩
      · simp only [astep, Space.allocateObjects, hmod, Space.allocate, if_neg h1, if_pos h2, Out.bind]
      · have hu : used (a ++ [List.replicate (n * sz) 0]) = used a + n * sz := by simp [used]
        refine ⟨h.addr_eq, by rw [hu]; exact hroom, ?_, by rw [hu]; simp [h.pos_eq], ?_⟩
        · rw [hu, h.bytes_eq, List.flatten_append]
          simp only [List.flatten_cons, List.flatten_nil, List.append_nil, List.append_assoc, List.replicate_append_replicate]
          congr 2
          omega
        · simp [h.blocks_eq, h.pos_eq, places_append]
    · cases hs
  | store k i v =>
    simp only [specStep] at hs
    cases hk : a[k]? with
    | none => rw [hk] at hs; cases hs
    | some c =>
      rw [hk] at hs
      simp only at hs
      split at hs
      · rename_i hi
        simp only [Option.some.injEq, Prod.mk.injEq] at hs
        obtain ⟨rfl, rfl⟩ := hs
        obtain ⟨q, h1, h2, _, h4⟩ := place_byte a 0 k c hk
        have hlen : (c.set i v).length = c.length := by simp
        have h5 : 0 + q + i < s.space.bytes.length := by rw [hl]; omega
        refine ⟨⟨⟨s.space.addr, s.space.bytes.set (0 + q + i) v, s.space.pos⟩, s.blocks⟩, ?_, ?_⟩
        · rw [← h.blocks_eq] at h1
          simp only [astep, h1, Space.store, if_pos h5, Out.bind]
        · have hu := used_set a k c (c.set i v) hk hlen
          refine ⟨h.addr_eq, by rw [hu]; exact hfit, ?_, by rw [hu]; exact h.pos_eq, ?_⟩
          · rw [hu, h4 i v hi]
            simp only [h.bytes_eq, Nat.zero_add]
            rw [List.set_append, if_pos (by rw [used_flatten]; omega)]
          · rw [places_set a 0 k c _ hk hlen]; exact h.blocks_eq
      · cases hs
  | load k i =>
    simp only [specStep] at hs
    cases hk : a[k]? with
    | none => rw [hk] at hs; cases hs
    | some c =>
      rw [hk] at hs
      simp only [Option.map_eq_some_iff, Prod.mk.injEq] at hs
      obtain ⟨v, hv, rfl, rfl⟩ := hs
      have hi : i < c.length := (List.getElem?_eq_some_iff.mp hv).1
      obtain ⟨q, h1, h2, h3, _⟩ := place_byte a 0 k c hk
      have h5 : 0 + q + i < s.space.bytes.length := by rw [hl]; omega
      have h6 : s.space.bytes[0 + q + i]? = some v := by
        rw [h.bytes_eq, Nat.zero_add, List.getElem?_append_left (by rw [used_flatten]; omega), h3 i hi, hv]
      refine ⟨s, ?_, h⟩
      rw [← h.blocks_eq] at h1
      have h7 := (List.getElem?_eq_some_iff.mp h6).2
      simp only [astep, h1, Space.load, dif_pos h5, Out.bind, h7]
  | length =>
    simp only [specStep, Option.some.injEq, Prod.mk.injEq] at hs
    obtain ⟨rfl, rfl⟩ := hs
    exact ⟨s, by simp [astep, Space.length, h.pos_eq], h⟩
  | full =>
    simp only [specStep, Option.some.injEq, Prod.mk.injEq] at hs
    obtain ⟨rfl, rfl⟩ := hs
    refine ⟨s, ?_, h⟩
    simp only [astep, Space.isFull, Space.length, h.pos_eq, hl]
    congr
  | reset =>
    simp only [specStep, Option.some.injEq, Prod.mk.injEq] at hs
    obtain ⟨rfl, rfl⟩ := hs
    refine ⟨_, rfl, h.addr_eq, by simp [used], ?_, by simp [Space.reset, used], by simp [places]⟩
    simp [Space.reset, hl, used]

theorem arel_run (dbg : Bool) {addr size : Nat} (hsize : size < 2 ^ 64) : ∀ (cs : List ACmd) (s : AState)
    (a a' : List (List UInt8)) (os : List Obs), ARel addr size s a → specRun size a cs = some (a', os) →
    ∃ s', arun dbg s cs = .ok (s', os) ∧ ARel addr size s' a' := by
  intro cs
  induction cs with
  | nil =>
    intro s a a' os h hs
    simp only [specRun, Option.some.injEq, Prod.mk.injEq] at hs
    obtain ⟨rfl, rfl⟩ := hs
    exact ⟨s, rfl, h⟩
  | cons c cs ih =>
    intro s a a' os h hs
    simp only [specRun, Option.bind_eq_some_iff, Option.map_eq_some_iff, Prod.mk.injEq, Prod.exists] at hs
    obtain ⟨a1, o, h1, a2, os2, h2, rfl, rfl⟩ := hs
    obtain ⟨s1, h3, h4⟩ := arel_step dbg hsize h h1
    obtain ⟨s2, h5, h6⟩ := ih s1 a1 a2 os2 h4 h2
    exact ⟨s2, by simp only [arun, h3, Out.bind, h5], h6⟩

theorem arel_create (addr size : Nat) : ARel addr size ⟨Space.create addr size, []⟩ [] :=
  ⟨rfl, Nat.zero_le _, by simp [Space.create, used], rfl, rfl⟩

/-- **C162**, the part that holds.  A program that asks for no more than there is, and uses only its blocks since the
last `Reset`, sees blocks that are arrays of their own, zero when they are new.  Missing: programs that ask for more,
blocks of different alignments and the end of the space, see the violations. -/
theorem c162_blocks_partial (dbg : Bool) (addr size : Nat) (hsize : size < 2 ^ 64) (cs : List ACmd)
    (a : List (List UInt8)) (os : List Obs) (h : specRun size [] cs = some (a, os)) :
    ∃ s, arun dbg ⟨Space.create addr size, []⟩ cs = .ok (s, os) := by
  obtain ⟨s, h1, _⟩ := arel_run dbg hsize cs _ _ _ _ (arel_create addr size) h
  exact ⟨s, h1⟩

example : ∃ a, specRun 8 [] [.alloc 1 4, .alloc 2 2, .store 0 3 7, .store 1 0 9, .load 0 3, .load 1 0, .load 1 1, .full,
    .reset, .alloc 8 1, .load 0 3, .length] = some (a, [.none, .none, .none, .none, .byte 7, .byte 9, .byte 0, .flag true,
      .none, .none, .byte 0, .number 8]) := ⟨_, rfl⟩

/-- **C162**, alignment, the part that holds.  If the memory and the lengths of all objects are multiples of `al`, then
so are the addresses of all blocks; with objects of one type they are. -/
theorem c162_aligned_partial (dbg : Bool) (addr size al : Nat) (hsize : size < 2 ^ 64) (ha : al ∣ addr) (cs : List ACmd)
    (a : List (List UInt8)) (os : List Obs) (h : specRun size [] cs = some (a, os))
    (hal : ∀ n sz, ACmd.alloc n sz ∈ cs → al ∣ sz) :
    ∃ s, arun dbg ⟨Space.create addr size, []⟩ cs = .ok (s, os) ∧ ∀ p ∈ s.blocks, al ∣ addr + p := by
  obtain ⟨s, h1, h2⟩ := arel_run dbg hsize cs _ _ _ _ (arel_create addr size) h
  refine ⟨s, h1, ?_⟩
  have hstep : ∀ (c : ACmd) (b b' : List (List UInt8)) (o : Obs), specStep size b c = some (b', o) →
      (∀ n sz, c = ACmd.alloc n sz → al ∣ sz) → (∀ x ∈ b, al ∣ x.length) → ∀ x ∈ b', al ∣ x.length := by
    intro c b b' o hs hc hb
    cases c with
    | alloc n sz =>
      simp only [specStep] at hs
      split at hs
      · simp only [Option.some.injEq, Prod.mk.injEq] at hs
        obtain ⟨rfl, _⟩ := hs
        intro x hx
        rcases List.mem_append.mp hx with hx | hx
        · exact hb x hx
        · simp only [List.mem_singleton] at hx
          subst hx
          rw [List.length_replicate]
          exact Nat.dvd_mul_left_of_dvd (hc n sz rfl) n
      · cases hs
    | store k i v =>
      simp only [specStep] at hs
      cases hk : b[k]? with
      | none => rw [hk] at hs; cases hs
      | some d =>
        rw [hk] at hs
        simp only at hs
        split at hs
        · simp only [Option.some.injEq, Prod.mk.injEq] at hs
          obtain ⟨rfl, _⟩ := hs
          intro x hx
          rcases List.mem_or_eq_of_mem_set hx with hx | hx
          · exact hb x hx
          · subst hx
            rw [List.length_set]
            exact hb d (List.mem_of_getElem? hk)
        · cases hs
    | load k i =>
      simp only [specStep] at hs
      cases hk : b[k]? with
      | none => rw [hk] at hs; cases hs
      | some d =>
        rw [hk] at hs
        simp only [Option.map_eq_some_iff, Prod.mk.injEq] at hs
        obtain ⟨_, _, rfl, _⟩ := hs
        exact hb
    | length => simp only [specStep, Option.some.injEq, Prod.mk.injEq] at hs; obtain ⟨rfl, _⟩ := hs; exact hb
    | full => simp only [specStep, Option.some.injEq, Prod.mk.injEq] at hs; obtain ⟨rfl, _⟩ := hs; exact hb
    | reset =>
      simp only [specStep, Option.some.injEq, Prod.mk.injEq] at hs
      obtain ⟨rfl, _⟩ := hs
      intro x hx; cases hx
  have hrun : ∀ (cs : List ACmd) (b b' : List (List UInt8)) (os : List Obs), specRun size b cs = some (b', os) →
      (∀ n sz, ACmd.alloc n sz ∈ cs → al ∣ sz) → (∀ x ∈ b, al ∣ x.length) → ∀ x ∈ b', al ∣ x.length := by
    intro cs
    induction cs with
    | nil =>
      intro b b' os hs _ hb
      simp only [specRun, Option.some.injEq, Prod.mk.injEq] at hs
      obtain ⟨rfl, _⟩ := hs
      exact hb
    | cons c cs ih =>
      intro b b' os hs hc hb
      simp only [specRun, Option.bind_eq_some_iff, Option.map_eq_some_iff, Prod.mk.injEq, Prod.exists] at hs
      obtain ⟨a1, o, h1, a2, os2, h2, rfl, _⟩ := hs
      exact ih a1 a2 os2 h2 (fun n sz hm => hc n sz (List.mem_cons_of_mem _ hm))
        (hstep c b a1 o h1 (fun n sz he => hc n sz (by rw [he]; exact List.mem_cons_self)) hb)
  have hlen := hrun cs [] a os h hal (by intro x hx; cases hx)
  rw [h2.blocks_eq]
  have hp : ∀ (b : List (List UInt8)) (q : Nat), al ∣ addr + q → (∀ x ∈ b, al ∣ x.length) → ∀ p ∈ places q b, al ∣ addr + p := by
    intro b
    induction b with
    | nil => intro q _ _ p hp; cases hp
    | cons x b ih =>
      intro q hq hb p hp
      rcases List.mem_cons.mp hp with hp | hp
      · subst hp; exact hq
      · refine ih (q + x.length) ?_ (fun y hy => hb y (List.mem_cons_of_mem _ hy)) p hp
        rw [← Nat.add_assoc]
        exact Nat.dvd_add hq (hb x List.mem_cons_self)
  exact hp a 0 (by simpa using ha) hlen

/-- Objects of different lengths: a byte and then a number; the number is at an address that is not aligned. -/
theorem c162_misaligned_violated (dbg : Bool) (addr al size : Nat) (hal : 2 ≤ al) (ha : al ∣ addr) (hs : al < size)
    (hsize : size < 2 ^ 64) :
    ∃ s p, arun dbg ⟨Space.create addr size, []⟩ [.alloc 1 1, .alloc 1 al] = .ok (s, [.none, .none]) ∧
      s.blocks[1]? = some p ∧ ¬ al ∣ addr + p := by
  have h : specRun size [] [.alloc 1 1, .alloc 1 al] =
      some ([[0], List.replicate al 0], [.none, .none]) := by
    have h1 : used [] + 1 * 1 ≤ size := by simp [used]; omega
    have h2 : used [[(0 : UInt8)]] + 1 * al ≤ size := by simp [used]; omega
    simp only [specRun, specStep, if_pos h1, Option.bind_some, List.nil_append, Nat.mul_one, List.replicate_one,
      if_pos h2, Option.map_some]
    simp
  obtain ⟨s, h1, h2⟩ := arel_run dbg hsize _ _ _ _ _ (arel_create addr size) h
  refine ⟨s, 1, h1, by rw [h2.blocks_eq]; rfl, ?_⟩
  intro hd
  have := (Nat.dvd_add_right ha).mp hd
  have := Nat.le_of_dvd (by omega) this
  omega

example : (2 : Nat) ≤ 8 ∧ 8 ∣ 64 ∧ 8 < 100 := by decide

/-- More memory than there is: the pointer leaves the memory (the program ends only if assertions are compiled in), where
`std::bad_alloc` is expected of an allocator. -/
theorem c162_exhausted_violated (s : Space) (n : Nat) (hp : s.pos ≤ s.bytes.length) (h : s.bytes.length < s.pos + n) :
    s.allocate false n = .ub ∧ s.allocate true n = .abort := by
  have h1 : ¬ n ≤ s.bytes.length - s.length := by rw [Space.length]; omega
  have h2 : ¬ s.pos + n ≤ s.bytes.length := by omega
  simp [Space.allocate, h1, h2]

/-- The number of bytes is calculated in `size_t`: more objects than any memory has get a block of eight bytes, also with
assertions. -/
theorem c162_overflow_violated (dbg : Bool) (addr : Nat) :
    (Space.create addr 8).allocateObjects dbg (2 ^ 61 + 1) 8 = .ok (0, ⟨addr, List.replicate 8 0, 8⟩) := by
  cases dbg <;> rfl

/-- The memory comes from `new[]` and is given to `delete`: the end of every space, and a second `Reserve`, is undefined. -/
theorem c162_delete_violated (heap : List Block) (fresh : Nat) (more : List Nat) (hf : ∀ b ∈ heap, b.addr ≠ fresh) :
    lifetime heap fresh more = .ub ∧ delete true (⟨fresh, true⟩ :: heap) (some fresh) = .ok heap := by
  have h1 : clear (⟨fresh, true⟩ :: heap) (some fresh) = .ub := by
    simp only [clear, delete]
    rw [if_neg]
    intro hc
    rcases List.mem_cons.mp hc with hc | hc
    · simp at hc
    · exact hf _ hc rfl
  constructor
  · cases more with
    | nil => exact h1
    | cons f fs =>
      simp only [lifetime, lifetime.go, reserve, clear, delete, Out.bind] at h1 ⊢
      rw [h1]
  · simp [delete]

example : ∀ b ∈ [Block.mk 16 true, Block.mk 48 false], b.addr ≠ 80 := by decide

/-- After `Reset` a block is handed out again that a program may still have: a byte stored in the new one is seen in the
old one. -/
theorem c162_reset_violated (dbg : Bool) (addr n size : Nat) (v : UInt8) (hn : 0 < n) (hs : n ≤ size)
    (hsize : size < 2 ^ 64) :
    ∃ p q s1 s2 s3, (Space.create addr size).allocateObjects dbg n 1 = .ok (p, s1) ∧
      s1.reset.allocateObjects dbg n 1 = .ok (q, s2) ∧ s2.store q v = .ok s3 ∧ s3.load p = .ok v := by
  have hm : n * 1 % 2 ^ 64 = n := by rw [Nat.mul_one]; exact Nat.mod_eq_of_lt (by omega)
  have h1 : ∀ b : List UInt8, b.length = size → Space.allocateObjects dbg ⟨addr, b, 0⟩ n 1 = .ok (0, ⟨addr, b, n⟩) := by
    intro b hb
    have h2 : ¬ (dbg = true ∧ ¬ n ≤ b.length - 0) := by rintro ⟨_, h⟩; apply h; omega
    have h3 : 0 + n ≤ b.length := by omega
    simp only [Space.allocateObjects, hm, Space.allocate, Space.length, if_neg h2, if_pos h3]
    rw [Nat.zero_add]
  refine ⟨0, 0, _, ⟨addr, List.replicate size 0, n⟩, ⟨addr, (List.replicate size 0).set 0 v, n⟩, h1 _ (by simp), ?_, ?_, ?_⟩
  · rw [Space.reset, List.length_replicate]; exact h1 _ (by simp)
  · simp only [Space.store, List.length_replicate]; rw [if_pos (by omega)]
  · simp only [Space.load, List.length_set, List.length_replicate]; rw [dif_pos (by omega)]; simp

end Verif.FixedMem
