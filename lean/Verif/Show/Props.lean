import Verif.Show.Spec

/-!
# Durations and hash values as text (C154)
-/

namespace Verif.Show

theorem digitChar_toNat {d : Nat} (h : d < 16) : (digitChar d).toNat = if d < 10 then 48 + d else 87 + d := by
  have : ∀ d : Fin 16, (digitChar d).toNat = if d.val < 10 then 48 + d.val else 87 + d.val := by decide
  exact this ⟨d, h⟩

theorem valueOf_digitChar {d : Nat} (h : d < 16) : valueOf (digitChar d) = d := by
  rw [valueOf, digitChar_toNat h]; split <;> split <;> omega

theorem digits_small {b n : Nat} (h : n < b) : digits b n = [n] := by rw [digits, dif_pos (.inr h)]

theorem digits_big {b n : Nat} (hb : 2 ≤ b) (h : b ≤ n) : digits b n = digits b (n / b) ++ [n % b] := by
  rw [digits, dif_neg (by omega)]

theorem digits_facts {b : Nat} (hb : 2 ≤ b) (n : Nat) :
    digits b n ≠ [] ∧ (∀ d ∈ digits b n, d < b) ∧ ((digits b n).head? = some 0 → digits b n = [0]) ∧
    (digits b n).foldl (fun a d => a * b + d) 0 = n := by
  induction n using Nat.strongRecOn with
  | ind n ih =>
    by_cases h : n < b
    · rw [digits_small h]; simp [h]
    · have hn : b ≤ n := by omega
      obtain ⟨h1, h2, h3, h4⟩ := ih (n / b) (Nat.div_lt_self (by omega) (by omega))
      rw [digits_big hb hn]
      refine ⟨by simp, ?_, ?_, ?_⟩
      · intro d hd
        rw [List.mem_append] at hd
        rcases hd with hd | hd
        · exact h2 d hd
        · rw [List.mem_singleton] at hd; rw [hd]; exact Nat.mod_lt _ (by omega)
      · intro hh
        rw [List.head?_append, Option.or_of_isSome (by simpa using h1)] at hh
        rw [h3 hh] at h4
        have : 0 < n / b := Nat.div_pos hn (by omega)
        simp at h4; omega
      · rw [List.foldl_append, h4]
        simp only [List.foldl_cons, List.foldl_nil]
        rw [Nat.mul_comm]; exact Nat.div_add_mod n b

theorem value_digits {b : Nat} (hb : b ≤ 16) (ds : List Nat) (h : ∀ d ∈ ds, d < b) (a : Nat) :
    (ds.map digitChar).foldl (fun a c => a * b + valueOf c) a = ds.foldl (fun a d => a * b + d) a := by
  induction ds generalizing a with
  | nil => rfl
  | cons d ds ih =>
    have hd := h d List.mem_cons_self
    simp only [List.map_cons, List.foldl_cons]
    rw [valueOf_digitChar (by omega), ih (fun d hd => h d (List.mem_cons_of_mem _ hd))]

theorem numeral_digits (n : Int) : Numeral ((if n < 0 then ['-'] else []) ++ (digits 10 n.natAbs).map digitChar) n := by
  obtain ⟨h1, h2, h3, h4⟩ := digits_facts (b := 10) (by omega) n.natAbs
  refine ⟨(digits 10 n.natAbs).map digitChar, by split <;> rfl, by simpa using h1, ?_, ?_, ?_⟩
  · intro c hc
    obtain ⟨d, hd, rfl⟩ := List.mem_map.1 hc
    exact ⟨d, h2 d hd, digitChar_toNat (by have := h2 d hd; omega)⟩
  · intro hh
    cases hds : digits 10 n.natAbs with
    | nil => exact absurd hds h1
    | cons d ds =>
      rw [hds] at hh
      simp only [List.map_cons, List.head?_cons, Option.some.injEq] at hh
      have hd : d < 10 := h2 d (by rw [hds]; exact List.mem_cons_self)
      have : d = 0 := by
        have h5 := valueOf_digitChar (d := d) (by omega)
        rw [hh] at h5; exact h5.symm
      rw [← hds, h3 (by rw [hds, this]; rfl)]; decide
  · rw [valueOfText, value_digits (by omega) _ h2, h4]

/-- What a plain stream writes. -/
theorem put_plain (s : Stream) (t : List Char) (h : Plain s) : s.put t = s.add t := by
  obtain ⟨_, h2⟩ := h
  simp [Stream.put, Stream.add, h2]

theorem plain_add {s : Stream} (h : Plain s) (t : List Char) : Plain (s.add t) := h

theorem add_add (s : Stream) (t t' : List Char) : (s.add t).add t' = s.add (t ++ t') := by simp [Stream.add]

theorem num_plain (s : Stream) (n : Int) (h : Plain s) : ∃ t, Numeral t n ∧ s.num n = s.add t := by
  refine ⟨_, numeral_digits n, ?_⟩
  rw [Stream.num, if_neg (by rw [h.1]; simp)]; exact put_plain s _ h

/-- The units: names, and every unit is a multiple of the next one and more than ten times it. -/
inductive Chain : List (Int × List Char) → Prop where
  | last (n : List Char) : IsUnit n 1 → Chain [(1, n)]
  | cons (u : Int) (n : List Char) (u' : Int) (n' : List Char) (rest : List (Int × List Char)) (k : Int) : IsUnit n u → 0 < u' →
      10 < k → u = k * u' → Chain ((u', n') :: rest) → Chain ((u, n) :: (u', n') :: rest)

theorem chain_units : Chain units := by
  refine .cons _ _ _ _ _ 60 .hour (by decide) (by decide) (by decide) ?_
  refine .cons _ _ _ _ _ 60 .minute (by decide) (by decide) (by decide) ?_
  refine .cons _ _ _ _ _ 1000 .second (by decide) (by decide) (by decide) ?_
  refine .cons _ _ _ _ _ 1000 .milli (by decide) (by decide) (by decide) ?_
  refine .cons _ _ _ _ _ 1000 .micro (by decide) (by decide) (by decide) ?_
  exact .last _ .nano

theorem chain_head {u : Int} {n : List Char} {rest : List (Int × List Char)} (h : Chain ((u, n) :: rest)) : IsUnit n u ∧ 0 < u := by
  cases h with
  | last => exact ⟨by assumption, by decide⟩
  | cons _ _ u' n' rest k h1 h2 h3 h4 _ => exact ⟨h1, by rw [h4]; exact Int.mul_pos (by omega) h2⟩

/-- Cutting towards zero: what is left has the sign of the number and is less than the unit. -/
theorem cut (d u : Int) (hu : 0 < u) : d = d.tdiv u * u + d.tmod u ∧ (0 ≤ d → 0 ≤ d.tmod u ∧ d.tmod u < u ∧ 0 ≤ d.tdiv u) ∧
    (d ≤ 0 → d.tmod u ≤ 0 ∧ -u < d.tmod u ∧ d.tdiv u ≤ 0) := by
  refine ⟨by have := Int.mul_tdiv_add_tmod d u; rw [Int.mul_comm] at this; exact this.symm, ?_, ?_⟩
  · intro h
    exact ⟨Int.tmod_nonneg u h, Int.tmod_lt_of_pos d hu, Int.tdiv_nonneg h (by omega)⟩
  · intro h
    have e1 : d.tmod u = -((-d).tmod u) := by rw [Int.neg_tmod]; omega
    have e2 : d.tdiv u = -((-d).tdiv u) := by rw [Int.neg_tdiv]; omega
    have h1 := Int.tmod_nonneg u (a := -d) (by omega)
    have h2 := Int.tmod_lt_of_pos (-d) hu
    have h3 := Int.tdiv_nonneg (a := -d) (b := u) (by omega) (by omega)
    omega

/-- What the text of a duration says about it. -/
def Close (d p u : Int) : Prop :=
  (0 < d → p ≤ d ∧ d - p < u ∧ 10 * (d - p) < d) ∧ (d < 0 → d ≤ p ∧ p - d < u ∧ 10 * (p - d) < -d)

theorem duration_text (us : List (Int × List Char)) (hc : Chain us) (d : Int) (hd : d ≠ 0) (s : Stream) (hs : Plain s) :
    ∃ t p u, printDuration d us s = s.add t ∧ Says t p u ∧ Close d p u := by
  induction hc with
  | last n hn =>
    obtain ⟨t, h1, h2⟩ := num_plain s (d.tdiv 1) hs
    refine ⟨t ++ n, d.tdiv 1 * 1, 1, ?_, .one t n _ _ h1 hn, ?_⟩
    · rw [printDuration, if_neg hd, h2, put_plain _ _ (plain_add hs _), add_add]
    · rw [Int.tdiv_one]; constructor <;> intro h <;> omega
  | cons u n u' n' rest k hn hu' hk hu hc ih =>
    rw [printDuration]
    by_cases h0 : d.tdiv u = 0
    · rw [if_pos h0]; exact ih
    · rw [if_neg h0]
      have hun := (chain_head hc).1
      have hup : 0 < u := by rw [hu]; exact Int.mul_pos (by omega) hu'
      obtain ⟨e1, p1, q1⟩ := cut d u hup
      obtain ⟨t, h1, h2⟩ := num_plain s (d.tdiv u) hs
      by_cases h10 : d.tdiv u < 10
      · rw [if_pos h10]
        have hnext : (d.tdiv u * u).tdiv u' = d.tdiv u * k := by
          rw [hu, ← Int.mul_assoc]; exact Int.mul_tdiv_cancel _ (by omega)
        obtain ⟨t', h3, h4⟩ := num_plain (s.add (t ++ n ++ [':'])) (d.tdiv u' - (d.tdiv u * u).tdiv u') (plain_add hs _)
        obtain ⟨e2, p2, q2⟩ := cut d u' hu'
        have hp : d.tdiv u * u + (d.tdiv u' - (d.tdiv u * u).tdiv u') * u' = d.tdiv u' * u' := by
          rw [hnext, Int.sub_mul, Int.mul_assoc, ← hu]; omega
        have hlt : 10 * u' < u := by
          rw [hu]; exact Int.mul_lt_mul_of_pos_right hk hu'
        refine ⟨t ++ n ++ ':' :: (t' ++ n'), d.tdiv u' * u', u', ?_, ?_, ?_⟩
        · rw [h2, put_plain _ _ (plain_add hs _), add_add, put_plain _ _ (plain_add hs _), add_add, h4, add_add,
            put_plain _ _ (plain_add hs _), add_add]
          simp [List.append_assoc]
        · rw [← hp]
          refine .two t n t' n' _ u _ u' h1 hn h3 hun ?_
          -- the second number is less than one of the first unit
          have e : (d.tdiv u' - (d.tdiv u * u).tdiv u') * u' = d.tdiv u' * u' - d.tdiv u * u := by omega
          have hab : ((d.tdiv u' - (d.tdiv u * u).tdiv u').natAbs : Int) * u' =
              ((d.tdiv u' * u' - d.tdiv u * u).natAbs : Int) := by
            rw [← e, Int.natAbs_mul, Int.natCast_mul, Int.natAbs_of_nonneg (a := u') (by omega)]
          rw [hab]
          rcases Int.lt_trichotomy d 0 with h | h | h
          · have := q1 (by omega); have := q2 (by omega); omega
          · omega
          · have := p1 (by omega); have := p2 (by omega); omega
        · have hbig : (0 < d → u ≤ d) ∧ (d < 0 → u ≤ -d) := by
            refine ⟨fun h => ?_, fun h => ?_⟩
            · have h5 := (p1 (by omega)).2.2
              have : 1 * u ≤ d.tdiv u * u := Int.mul_le_mul_of_nonneg_right (by omega) (by omega)
              have := (p1 (by omega)).1; omega
            · have h5 := (q1 (by omega)).2.2
              have : d.tdiv u * u ≤ (-1) * u := Int.mul_le_mul_of_nonneg_right (by omega) (by omega)
              have := (q1 (by omega)).1; omega
          constructor <;> intro h
          · have := p2 (by omega); have := hbig.1 h; omega
          · have := q2 (by omega); have := hbig.2 h; omega
      · rw [if_neg h10]
        refine ⟨t ++ n, d.tdiv u * u, u, ?_, .one t n _ _ h1 hn, ?_⟩
        · rw [h2, put_plain _ _ (plain_add hs _), add_add]
        · have : 10 * u ≤ d.tdiv u * u := Int.mul_le_mul_of_nonneg_right (by omega) (by omega)
          constructor <;> intro h
          · have := p1 (by omega); omega
          · have := q1 (by omega); omega

/-- The text of a duration that is not zero is one number with a unit, or two numbers with units, the second one less than one
of the first unit; it is the duration without what is less than the last unit, and that is less than a tenth of the duration. -/
theorem c154_duration (d : Int) (hd : d ≠ 0) (s : Stream) (hs : Plain s) :
    ∃ t p u, showDuration d s = s.add t ∧ Says t p u ∧
      (0 < d → p ≤ d ∧ d - p < u ∧ 10 * (d - p) < d) ∧ (d < 0 → d ≤ p ∧ p - d < u ∧ 10 * (p - d) < -d) :=
  duration_text units chain_units d hd s hs

theorem c154_zero (s : Stream) (hs : Plain s) : showDuration 0 s = s.add "ZERO TIME".toList := by
  show s.put _ = _
  rw [put_plain s _ hs]; rfl

/-- Two hexadecimal digits, the higher one first. -/
def pair (b : Nat) : List Char := [digitChar (b / 16), digitChar (b % 16)]

theorem hex_pair {b : Nat} (h : b < 256) :
    List.replicate (2 - ((digits 16 b).map digitChar).length) '0' ++ (digits 16 b).map digitChar = pair b := by
  have : ∀ b : Fin 256, List.replicate (2 - ((if b.val < 16 then [b.val] else [b.val / 16, b.val % 16]).map digitChar).length) '0' ++
      (if b.val < 16 then [b.val] else [b.val / 16, b.val % 16]).map digitChar = pair b.val := by decide +kernel
  have e : digits 16 b = if b < 16 then [b] else [b / 16, b % 16] := by
    split
    · exact digits_small ‹_›
    · rw [digits_big (by omega) (by omega), digits_small (b := 16) (n := b / 16) (by omega)]; rfl
  rw [e]; exact this ⟨b, h⟩

theorem hash_loop (h : List Nat) (hb : ∀ b ∈ h, b < 256) (s : Stream) (hw : s.width = 0) :
    hashLoop s h = Stream.mk (s.text ++ h.flatMap pair) (if h = [] then s.hex else false) (if h = [] then s.fill else '0') 0 := by
  induction h generalizing s with
  | nil => cases s; simp [hashLoop] at hw ⊢; exact hw
  | cons b h ih =>
    have h1 : b < 256 := hb b List.mem_cons_self
    have e : ((b : Int) % 2 ^ 64).toNat = b := by omega
    rw [hashLoop, ih (fun b hb' => hb b (List.mem_cons_of_mem _ hb')) _ (by simp [Stream.num, Stream.put])]
    simp only [Stream.num, if_true, Stream.put, e, hex_pair h1, List.flatMap_cons, List.append_assoc]
    by_cases hn : h = [] <;> simp [hn]

/-- The text of a hash value is `0x` and two hexadecimal digits for each byte, which say the byte. Missing: that the stream is left as it was (`c154_stream_left_violated`). -/
theorem c154_hash_partial (h : List Nat) (hb : ∀ b ∈ h, b < 256) (s : Stream) (hw : s.width = 0) :
    ∃ ps : List (List Char), (showHash h s).text = s.text ++ "0x".toList ++ ps.flatten ∧ ps.length = h.length ∧
      (∀ p ∈ ps, p.length = 2 ∧ ∀ c ∈ p, IsDigit 16 c) ∧ ps.map (valueOfText 16) = h := by
  refine ⟨h.map pair, ?_, by simp, ?_, ?_⟩
  · rw [showHash, hash_loop h hb _ rfl]
    simp [Stream.put, hw, List.flatMap]
  · intro p hp
    obtain ⟨b, hb', rfl⟩ := List.mem_map.1 hp
    have := hb b hb'
    refine ⟨rfl, fun c hc => ?_⟩
    simp only [pair, List.mem_cons, List.not_mem_nil, or_false] at hc
    rcases hc with rfl | rfl
    · exact ⟨b / 16, by omega, digitChar_toNat (by omega)⟩
    · exact ⟨b % 16, by omega, digitChar_toNat (by omega)⟩
  · rw [List.map_map]
    refine (List.map_congr_left (g := id) ?_).trans (List.map_id h)
    intro b hb'
    have := hb b hb'
    simp only [Function.comp, pair, valueOfText, List.foldl_cons, List.foldl_nil, id]
    rw [valueOf_digitChar (by omega), valueOf_digitChar (by omega)]
    omega

theorem pairs_inj (h h' : List Nat) (hb : ∀ b ∈ h, b < 256) (hb' : ∀ b ∈ h', b < 256) (e : h.flatMap pair = h'.flatMap pair) :
    h = h' := by
  induction h generalizing h' with
  | nil =>
    cases h' with
    | nil => rfl
    | cons b h' => simp [pair] at e
  | cons b h ih =>
    cases h' with
    | nil => simp [pair] at e
    | cons b' h' =>
      simp only [List.flatMap_cons, pair, List.cons_append, List.nil_append, List.cons.injEq] at e
      obtain ⟨e1, e2, e3⟩ := e
      have h1 := hb b List.mem_cons_self
      have h2 := hb' b' List.mem_cons_self
      have v1 := congrArg valueOf e1
      have v2 := congrArg valueOf e2
      rw [valueOf_digitChar (by omega), valueOf_digitChar (by omega)] at v1 v2
      rw [ih h' (fun b hb'' => hb b (List.mem_cons_of_mem _ hb'')) (fun b hb'' => hb' b (List.mem_cons_of_mem _ hb'')) e3]
      congr 1
      omega

/-- Different hash values have different texts. -/
theorem c154_hash_injective (h h' : List Nat) (hb : ∀ b ∈ h, b < 256) (hb' : ∀ b ∈ h', b < 256) (s : Stream)
    (e : (showHash h s).text = (showHash h' s).text) : h = h' := by
  rw [showHash, showHash, hash_loop h hb _ rfl, hash_loop h' hb' _ rfl] at e
  exact pairs_inj h h' hb hb' (List.append_cancel_left e)

/-- The stream is not left as it was: after a hash value of at least one byte it is decimal and fills with zeros, so a number
that is written with a width gets zeros in front. -/
theorem c154_stream_left_violated (h : List Nat) (hb : ∀ b ∈ h, b < 256) (hn : h ≠ []) (s : Stream) :
    (showHash h s).fill = '0' ∧ (showHash h s).hex = false ∧ (showHash h s).width = 0 := by
  rw [showHash, hash_loop h hb _ rfl]
  simp [hn]

/-! ## Examples -/

def new : Stream := ⟨[], false, ' ', 0⟩

example : (showDuration 5400000000000 new).text = "1h:30min".toList := by decide +kernel
example : (showDuration 61000000000 new).text = "1min:1s".toList := by decide +kernel
example : (showDuration 12345678 new).text = "12ms".toList := by decide +kernel
example : (showDuration (-2500) new).text = "-2us:-500ns".toList := by decide +kernel
example : (showDuration (-90000000000000) new).text = "-25h:0min".toList := by decide +kernel
example : (showDuration 0 new).text = "ZERO TIME".toList := by decide +kernel
example : (showHash [1, 171, 0] new).text = "0x01ab00".toList := by decide +kernel
example : (({ showHash [1] new with width := 4 }).num 42).text = "0x010042".toList := by decide +kernel
example : Plain new := ⟨rfl, rfl⟩

end Verif.Show
