import Verif.FixedStr.Model
import Verif.Crc64.Props

/-! # C118: fixed strings are the texts they are made of; C119: hashes of texts -/

namespace Verif.FixedStr

open Verif

/-! ### Specification -/

/-- The fixed string is the text `t`, with a zero behind it. -/
def Spec.Is (a : Fixed) (t : List Int) : Prop := a.n = t.length ∧ a.state = t ++ [0]

/-! ### Proofs -/

theorem copyLoop_eq (f : Int → Int) (src : List Int) (off : Nat) : ∀ (k i : Nat) (dst : List Int), i + k ≤ src.length → off + i + k ≤ dst.length →
    copyLoop f src off i k dst = .ok (dst.take (off + i) ++ ((src.drop i).take k).map f ++ dst.drop (off + i + k))
  | 0, i, dst, _, _ => by simp [copyLoop]
  | k + 1, i, dst, h1, h2 => by
    have hi : i < src.length := by omega
    have hd : off + i < dst.length := by omega
    simp only [copyLoop, get, put, List.getElem?_eq_getElem hi, Res.ok_bind, if_pos hd]
    rw [copyLoop_eq f src off k (i + 1) _ (by omega) (by simp; omega)]
    congr 1
    rw [List.drop_eq_getElem_cons hi, List.take_succ_cons, List.map_cons]
    apply List.ext_getElem?
    intro j
    simp only [List.getElem?_append, List.getElem?_take, List.getElem?_set, List.getElem?_drop, List.length_append, List.length_take, List.length_set, List.length_map, List.length_cons, List.length_drop,
      List.getElem?_map, List.getElem?_cons]
    grind

theorem ofArray_is (arr : List Int) (t : List Int) (c : Int) (h : arr = t ++ [c]) : ∃ a, ofArray arr = .ok a ∧ Spec.Is a t := by
  subst h
  refine ⟨⟨t.length, t ++ [0]⟩, ?_, rfl, rfl⟩
  have : (t ++ [c]).length - 1 = t.length := by simp
  simp only [ofArray, this]
  rw [copyLoop_eq _ _ _ _ _ _ (by simp) (by simp [zeros])]
  simp [zeros, List.replicate_succ']

/-- C118: a literal makes the fixed string of its text. -/
theorem c118_literal (t : List Int) : ∃ a, ofArray (t ++ [0]) = .ok a ∧ Spec.Is a t := ofArray_is _ t 0 rfl

/-- C118, a limit: of an array that is no literal the last character is dropped, whatever it is. -/
theorem c118_array_violated (t : List Int) (c : Int) : ∃ a, ofArray (t ++ [c]) = .ok a ∧ Spec.Is a t := ofArray_is _ t c rfl

/-- C118: text, size, and the C string of a fixed string: the text itself unless it has a zero in it. -/
theorem c118_text (a : Fixed) (t : List Int) (h : Spec.Is a t) :
    text a = .ok t ∧ a.n = t.length ∧ cStr a.state = .ok (t.takeWhile (· ≠ 0)) ∧ (0 ∉ t → cStr a.state = .ok t) := by
  have key : ∀ t : List Int, cStr (t ++ [0]) = .ok (t.takeWhile (· ≠ 0)) := by
    intro t
    induction t with
    | nil => simp [cStr]
    | cons c t ih =>
      by_cases hc : c = 0
      · simp [cStr, hc]
      · simp [cStr, hc, ih]
  refine ⟨by simp [text, h.1, h.2], h.1, by rw [h.2, key], fun h0 => ?_⟩
  rw [h.2, key]
  congr 1
  clear h
  induction t with
  | nil => rfl
  | cons c t ih =>
    have hc : c ≠ 0 := fun e => h0 (by simp [e])
    rw [List.takeWhile_cons, if_pos (by simpa using hc), ih (fun e => h0 (by simp [e]))]

/-- C118: elements by index: the characters of the text, the zero behind them, and undefined behaviour further; writing an element of the text changes that element of the text and nothing else. -/
theorem c118_index (a : Fixed) (t : List Int) (h : Spec.Is a t) (i : Nat) :
    (∀ x, get a.state i = .ok x ↔ (t ++ [0])[i]? = some x) ∧ (get a.state i = .ub ↔ t.length < i)
    ∧ (∀ x, i < t.length → ∃ s, put a.state i x = .ok s ∧ Spec.Is ⟨a.n, s⟩ (t.set i x)) ∧ (∀ x, put a.state i x = .ub ↔ t.length < i) := by
  obtain ⟨h1, h2⟩ := h
  have hl : a.state.length = t.length + 1 := by rw [h2]; simp
  refine ⟨fun x => ?_, ?_, fun x hi => ?_, fun x => ?_⟩
  · rw [← h2]; simp only [get]; split
    · rename_i y hy; rw [hy]; simp
    · rename_i hy; rw [hy]; simp
  · simp only [get]; split
    · rename_i y hy
      have := (List.getElem?_eq_some_iff.1 hy).1
      simp; omega
    · rename_i hy
      have := List.getElem?_eq_none_iff.1 hy
      simp; omega
  · refine ⟨_, if_pos (by omega), ?_, ?_⟩
    · simpa using h1
    · simp only [h2]; exact List.set_append_left _ _ hi
  · simp only [put]; split
    · simp; omega
    · simp; omega

/-- C118: the sum is the text of both. -/
theorem c118_plus (a b : Fixed) (s t : List Int) (ha : Spec.Is a s) (hb : Spec.Is b t) : ∃ c, plus a b = .ok c ∧ Spec.Is c (s ++ t) := by
  obtain ⟨ha1, ha2⟩ := ha
  obtain ⟨hb1, hb2⟩ := hb
  refine ⟨⟨(s ++ t).length, (s ++ t) ++ [0]⟩, ?_, rfl, rfl⟩
  simp only [plus, ha1, ha2, hb1, hb2]
  rw [copyLoop_eq _ _ _ _ _ _ (by simp) (by simp [zeros]; omega)]
  simp only [Res.ok_bind]
  rw [copyLoop_eq _ _ _ _ _ _ (by simp) (by simp [zeros]; omega)]
  simp only [Res.ok_bind]
  have : s.length + t.length + 1 - s.length - t.length = 1 := by omega
  simp [zeros, List.drop_append, this]

theorem eqLoop_eq (a b : List Int) : ∀ (k i : Nat), i + k ≤ a.length → i + k ≤ b.length →
    eqLoop a b i k = .ok (decide ((a.drop i).take k = (b.drop i).take k)) ∧ neLoop a b i k = .ok (!decide ((a.drop i).take k = (b.drop i).take k))
  | 0, i, _, _ => by simp [eqLoop, neLoop]
  | k + 1, i, h1, h2 => by
    have ha : i < a.length := by omega
    have hb : i < b.length := by omega
    have ⟨e1, e2⟩ := eqLoop_eq a b k (i + 1) (by omega) (by omega)
    simp only [eqLoop, neLoop, get, List.getElem?_eq_getElem ha, List.getElem?_eq_getElem hb, Res.ok_bind, e1, e2]
    rw [List.drop_eq_getElem_cons ha, List.drop_eq_getElem_cons hb, List.take_succ_cons, List.take_succ_cons]
    by_cases hx : a[i] = b[i] <;> simp [hx]

/-- C118: fixed strings are equal exactly if their texts are, and `!=` is the opposite. -/
theorem c118_equal (a b : Fixed) (s t : List Int) (ha : Spec.Is a s) (hb : Spec.Is b t) : equal a b = .ok (decide (s = t)) ∧ notEqual a b = .ok (decide (s ≠ t)) := by
  obtain ⟨ha1, ha2⟩ := ha
  obtain ⟨hb1, hb2⟩ := hb
  simp only [equal, notEqual, ha1, hb1]
  by_cases hl : s.length = t.length
  · rw [if_pos hl, if_pos hl]
    have ⟨e1, e2⟩ := eqLoop_eq a.state b.state s.length 0 (by simp [ha2]) (by simp [hb2, hl])
    rw [e1, e2, ha2, hb2]
    simp only [List.drop_zero]
    rw [List.take_append_of_le_length (Nat.le_refl _), List.take_append_of_le_length (by omega), List.take_length, hl, List.take_length]
    simp
  · rw [if_neg hl, if_neg hl]
    have : s ≠ t := fun e => hl (by rw [e])
    simp [this]

/-- C118: ASCII texts are converted to the same text in every character type. -/
theorem c118_ascii (bits : Nat) (uns : Bool) (t : List Int) (hb : 7 ≤ bits) (h : ∀ c ∈ t, 0 ≤ c ∧ c < 128) : ∃ a, fromAscii bits uns (t ++ [0]) = .ok a ∧ Spec.Is a t := by
  refine ⟨⟨t.length, t ++ [0]⟩, ?_, rfl, rfl⟩
  have : (t ++ [(0 : Int)]).length - 1 = t.length := by simp
  simp only [fromAscii, this]
  rw [copyLoop_eq _ _ _ _ _ _ (by simp) (by simp [zeros])]
  have hm : ∀ t : List Int, (∀ c ∈ t, 0 ≤ c ∧ c < 128) → t.map (fun x => if uns = true then x % 2 ^ bits else x) = t := by
    intro t ht
    induction t with
    | nil => rfl
    | cons c t ih =>
      have hc := ht c (by simp)
      have h7 : (128 : Int) ≤ 2 ^ bits := by
        have : (2 : Nat) ^ 7 ≤ 2 ^ bits := Nat.pow_le_pow_right (by decide) hb
        exact_mod_cast this
      rw [List.map_cons, ih (fun x hx => ht x (by simp [hx]))]
      congr 1
      split
      · exact Int.emod_eq_of_lt hc.1 (by omega)
      · rfl
  simp only [List.drop_zero, List.take_append_of_le_length (Nat.le_refl _), List.take_length, hm t h]
  simp [zeros, List.replicate_succ']

/-! ### Hashes -/

open Verif.Crc64 (bitwise bitwiseByte steps crcBytes)

theorem int64Hash_eq (seed : BitVec 64) (s : List Int) : int64Hash seed s = ((bitwise seed (s.map UInt8.ofInt)).toNat : Int) := by
  have h := Crc64.c41_bitwise seed (s.map UInt8.ofInt)
  rw [int64Hash, IntArray.fromArrayU, IntArray.fromArrayBits_eq 8 _ (by rw [h.1]), h.2]

/-- C119: a text has the same hash as a string, a string view, a fixed string and a literal. -/
theorem c119_same (seed : BitVec 64) (t : List Int) (a : Fixed) (h : Spec.Is a t) :
    hashFixed seed a = .ok (hashString seed t) ∧ hashArray seed (t ++ [0]) = hashString seed t := by
  constructor
  · simp [hashFixed, (c118_text a t h).1, hashString]
  · simp [hashArray, hashString]

theorem ofInt_inj {a b : Int} (ha : -128 ≤ a ∧ a < 128) (hb : -128 ≤ b ∧ b < 128) (h : UInt8.ofInt a = UInt8.ofInt b) : a = b := by
  have h1 := IntArray.uint8_toNat_ofInt a
  have h2 := IntArray.uint8_toNat_ofInt b
  rw [h] at h1
  omega

theorem map_ofInt_inj : ∀ (s t : List Int), (∀ c ∈ s, -128 ≤ c ∧ c < 128) → (∀ c ∈ t, -128 ≤ c ∧ c < 128) → s.map UInt8.ofInt = t.map UInt8.ofInt → s = t
  | [], [], _, _, _ => rfl
  | [], _ :: _, _, _, h => by simp at h
  | _ :: _, [], _, _, h => by simp at h
  | a :: s, b :: t, hs, ht, h => by
    simp only [List.map_cons, List.cons.injEq] at h
    rw [ofInt_inj (hs a (by simp)) (ht b (by simp)) h.1, map_ofInt_inj s t (fun c hc => hs c (by simp [hc])) (fun c hc => ht c (by simp [hc])) h.2]

/-- Zeros at the beginning do not change the hash with the seed 0. -/
theorem bitwise_zeros (n : Nat) (m : List UInt8) : bitwise 0 (List.replicate n 0 ++ m) = bitwise 0 m := by
  induction n with
  | zero => rfl
  | succ n ih =>
    rw [List.replicate_succ, List.cons_append]
    have : bitwiseByte 0 0 = 0#64 := by decide +kernel
    show (List.replicate n 0 ++ m).foldl bitwiseByte (bitwiseByte 0 0) = _
    rw [this]
    exact ih

theorem short_inj (s t : List UInt8) (hs : s.length ≤ 8) (ht : t.length ≤ 8) (s0 : ∀ x, s.head? = some x → x ≠ 0) (t0 : ∀ x, t.head? = some x → x ≠ 0)
    (h : bitwise 0 s = bitwise 0 t) : s = t := by
  -- both with zeros at the beginning, of 8 bytes
  have hp : ∀ m : List UInt8, m.length ≤ 8 → bitwise 0 m = steps 64 (0 ^^^ Crc64.pack (List.replicate (8 - m.length) 0 ++ m)) := fun m hm => by
    have := Crc64.bitwise_pack (List.replicate (8 - m.length) 0 ++ m) 0 (by simp; omega)
    rw [bitwise_zeros] at this
    rw [this]
    congr 1
    simp; omega
  rw [hp s hs, hp t ht] at h
  have h1 := Crc64.steps_inj h
  have h2 : Crc64.pack (List.replicate (8 - s.length) 0 ++ s) = Crc64.pack (List.replicate (8 - t.length) 0 ++ t) := by simpa using h1
  have h3 := Crc64.pack_inj _ _ (by simp; omega) (by simp; omega) h2
  -- the first byte that is not zero is at the same place
  have key : ∀ (m n : Nat) (s t : List UInt8), (∀ x, s.head? = some x → x ≠ 0) → (∀ x, t.head? = some x → x ≠ 0) → m + s.length = n + t.length →
      List.replicate m 0 ++ s = List.replicate n 0 ++ t → s = t := by
    intro m
    induction m with
    | zero =>
      intro n s t hs ht hl e
      rcases n with _ | n
      · simpa using e
      · simp [List.replicate_succ] at e
        exact absurd rfl (hs 0 (by rw [e]; rfl))
    | succ m ih =>
      intro n s t hs ht hl e
      rcases n with _ | n
      · simp [List.replicate_succ] at e
        exact absurd rfl (ht 0 (by rw [← e]; rfl))
      · simp only [List.replicate_succ, List.cons_append, List.cons.injEq, true_and] at e
        exact ih n s t hs ht (by omega) e
  exact key _ _ s t s0 t0 (by omega) h3

/-- C119, for texts of at most eight characters that do not begin with a zero: with the default seed different texts have different hashes, so a `switch` over the hash goes to the case of the text.
Missing: longer texts (`c119_collision_violated`) and texts that begin with a zero (`c119_zero_violated`). -/
theorem c119_switch_partial (s t : List Int) (hs : s.length ≤ 8) (ht : t.length ≤ 8) (cs : ∀ c ∈ s, -128 ≤ c ∧ c < 128) (ct : ∀ c ∈ t, -128 ≤ c ∧ c < 128)
    (s0 : s.head? ≠ some 0) (t0 : t.head? ≠ some 0) : int64Hash 0 s = int64Hash 0 t ↔ s = t := by
  refine ⟨fun h => ?_, fun h => by rw [h]⟩
  rw [int64Hash_eq, int64Hash_eq] at h
  have h1 : bitwise 0 (s.map UInt8.ofInt) = bitwise 0 (t.map UInt8.ofInt) := BitVec.eq_of_toNat_eq (by exact_mod_cast h)
  have hz : ∀ u : List Int, (∀ c ∈ u, -128 ≤ c ∧ c < 128) → u.head? ≠ some 0 → ∀ x, (u.map UInt8.ofInt).head? = some x → x ≠ 0 := by
    intro u cu u0 x hx e
    rcases u with _ | ⟨c, u⟩
    · simp at hx
    · simp only [List.map_cons, List.head?_cons, Option.some.injEq] at hx
      have : c = 0 := ofInt_inj (cu c (by simp)) (by omega) (by rw [hx, e]; rfl)
      exact u0 (by simp [this])
  exact map_ofInt_inj s t cs ct (short_inj _ _ (by simpa using hs) (by simpa using ht) (hz s cs s0) (hz t ct t0) h1)

/-- C119: with every seed, different texts of the same length of at most eight characters have different hashes. -/
theorem c119_same_length (seed : BitVec 64) (s t : List Int) (hs : s.length ≤ 8) (hl : s.length = t.length) (cs : ∀ c ∈ s, -128 ≤ c ∧ c < 128) (ct : ∀ c ∈ t, -128 ≤ c ∧ c < 128)
    (h : int64Hash seed s = int64Hash seed t) : s = t := by
  rw [int64Hash_eq, int64Hash_eq] at h
  have h1 : bitwise seed (s.map UInt8.ofInt) = bitwise seed (t.map UInt8.ofInt) := BitVec.eq_of_toNat_eq (by exact_mod_cast h)
  rw [Crc64.bitwise_pack _ _ (by simpa using hs), Crc64.bitwise_pack _ _ (by simpa [← hl] using hs)] at h1
  simp only [List.length_map, hl] at h1
  have h2 := Crc64.steps_inj h1
  have h3 := congrArg (seed ^^^ ·) h2
  simp only [← BitVec.xor_assoc, BitVec.xor_self, BitVec.zero_xor] at h3
  exact map_ofInt_inj s t cs ct (Crc64.pack_inj _ _ (by simp [hl]) (by simpa using hs) h3)

/-- Nine bytes that do not change the hash when they are added (modulo 2) to others. -/
def mask : List UInt8 := [1, 121, 137, 53, 48, 200, 112, 216, 122]

theorem mask_zero : bitwise 0 mask = 0#64 := by decide +kernel

theorem bitwise_xor : ∀ (a b : List UInt8) (c d : BitVec 64), a.length = b.length → bitwise (c ^^^ d) (List.zipWith (· ^^^ ·) a b) = bitwise c a ^^^ bitwise d b
  | [], [], c, d, _ => rfl
  | [], _ :: _, _, _, h => by simp at h
  | _ :: _, [], _, _, h => by simp at h
  | x :: a, y :: b, c, d, h => by
    have hb : bitwiseByte (c ^^^ d) (x ^^^ y) = bitwiseByte c x ^^^ bitwiseByte d y := by
      simp only [bitwiseByte]
      rw [← Crc64.steps_xor]
      congr 1
      have : (x ^^^ y).toBitVec.setWidth 64 = x.toBitVec.setWidth 64 ^^^ y.toBitVec.setWidth 64 := by
        rw [UInt8.toBitVec_xor, BitVec.setWidth_xor]
      rw [this]
      ac_rfl
    show bitwise (bitwiseByte (c ^^^ d) (x ^^^ y)) (List.zipWith (· ^^^ ·) a b) = _
    rw [hb, bitwise_xor a b _ _ (by simpa using h)]
    rfl

/-- C119 is violated by longer texts: for every text of nine characters and more, and every seed, there is another text of the same length with the same hash. -/
theorem c119_collision_violated (seed : BitVec 64) (s : List Int) (h : 9 ≤ s.length) (cs : ∀ c ∈ s, -128 ≤ c ∧ c < 128) :
    ∃ t, t ≠ s ∧ t.length = s.length ∧ (∀ c ∈ t, -128 ≤ c ∧ c < 128) ∧ int64Hash seed t = int64Hash seed s := by
  -- bytes of the other text, and characters with these bytes
  let ch (b : UInt8) : Int := if b.toNat < 128 then b.toNat else (b.toNat : Int) - 256
  have hch : ∀ b, UInt8.ofInt (ch b) = b ∧ -128 ≤ ch b ∧ ch b < 128 := by
    intro b
    have hb := b.toNat_lt
    have h2 := IntArray.uint8_toNat_ofInt (ch b)
    simp only [ch] at h2 ⊢
    refine ⟨?_, by split <;> omega⟩
    apply UInt8.toNat_inj.1
    split at h2 <;> split <;> omega
  let m := s.map UInt8.ofInt
  let m' := List.zipWith (· ^^^ ·) (m.take 9) mask ++ m.drop 9
  have hm9 : (m.take 9).length = mask.length := by simp [m, mask]; omega
  have hround : ∀ l : List UInt8, (l.map ch).map UInt8.ofInt = l := by
    intro l
    rw [List.map_map]
    conv_rhs => rw [← List.map_id l]
    apply List.map_congr_left
    intro b _
    exact (hch b).1
  have hmm : bitwise seed m' = bitwise seed m := by
    have e1 : m = m.take 9 ++ m.drop 9 := (List.take_append_drop 9 m).symm
    conv_rhs => rw [e1]
    rw [Crc64.bitwise_append, Crc64.bitwise_append]
    congr 1
    have := bitwise_xor (m.take 9) mask seed 0 hm9
    rw [mask_zero] at this
    simpa using this
  have hne : m' ≠ m := by
    intro e
    rcases s with _ | ⟨c, s⟩
    · simp at h
    · have := congrArg List.head? e
      simp only [m', m, List.map_cons, List.take_succ_cons, mask, List.zipWith_cons_cons, List.cons_append, List.head?_cons, Option.some.injEq] at this
      have h1 := congrArg (UInt8.ofInt c ^^^ ·) this
      simp only [← UInt8.xor_assoc, UInt8.xor_self, UInt8.zero_xor] at h1
      exact absurd h1 (by decide)
  refine ⟨m'.map ch, fun e => hne ?_, ?_, ?_, ?_⟩
  · have := congrArg (List.map UInt8.ofInt) e
    rw [hround] at this
    exact this
  · simp only [List.length_map, m', List.length_append, List.length_zipWith, List.length_drop, hm9, mask, m, List.length_cons, List.length_nil]
    omega
  · intro c hc
    obtain ⟨b, _, rfl⟩ := List.mem_map.1 hc
    exact (hch b).2
  · rw [int64Hash_eq, int64Hash_eq, hround, hmm]

/-- C119 is violated by texts that begin with a zero: with the default seed it is as if it was not there. -/
theorem c119_zero_violated (s : List Int) : int64Hash 0 (0 :: s) = int64Hash 0 s := by
  rw [int64Hash_eq, int64Hash_eq]
  have := bitwise_zeros 1 (s.map UInt8.ofInt)
  rw [List.map_cons, show UInt8.ofInt 0 = 0 from rfl]
  exact congrArg (fun v : BitVec 64 => (v.toNat : Int)) this

/-- C119 is violated by arrays that are no literals: the hash of a text in a larger array is that of the text with the zeros behind it. -/
theorem c119_array_violated (seed : BitVec 64) (t : List Int) (k : Nat) : hashArray seed (t ++ List.replicate (k + 1) 0) = hashString seed (t ++ List.replicate k 0) := by
  simp [hashArray, hashString, List.take_append, List.take_of_length_le]

/-! ### Samples -/

example : ∃ a b c, ofArray [97, 98, 0] = .ok a ∧ ofArray [99, 0] = .ok b ∧ plus a b = .ok c ∧ text c = .ok [97, 98, 99] ∧ equal a b = .ok false := ⟨_, _, _, rfl, rfl, rfl, rfl, rfl⟩
example : ∃ a, ofArray [97, 98, 99] = .ok a ∧ text a = .ok [97, 98] := ⟨_, rfl, rfl⟩
example : int64Hash 0 ("123456789".toList.map fun c => (c.toNat : Int)) = 0xe9c6d914c4b8d9ca := by decide +kernel
example : ∀ c ∈ ([105, 110, 116] : List Int), -128 ≤ c ∧ c < 128 := by decide
example : hashArray 0 ([97, 98, 0, 0] : List Int) ≠ hashString 0 [97, 98] := by decide +kernel

end Verif.FixedStr
