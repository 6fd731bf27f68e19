import Verif.HashStream.Spec

/-! # Lemmas about byte streams -/

namespace Verif.HashStream

theorem Src.read_append (s : Src) (n : Nat) : (s.read n).1 ++ (s.read n).2.data = s.data := by
  unfold Src.read
  split <;> simp

/-- The payload of a block. -/
def payload (c : Cfg) (b : Bytes) : Bytes := b.take (b.length - c.size)

theorem consistent_iff (c : Cfg) (b : Bytes) :
    Consistent c.hash b ↔ ¬ b.length < c.size ∧ c.hash (payload c b) = b.drop (b.length - c.size) := by
  constructor
  · rintro ⟨p, rfl⟩
    have h := c.hash_length p
    refine ⟨by simp [h], ?_⟩
    simp [payload, h]
  · rintro ⟨_, h2⟩
    refine ⟨payload c b, ?_⟩
    rw [h2, payload, List.take_append_drop]

/-- A source from which the bytes `p` will be read and then corruption will be found if `bad`. -/
def Closed (c : Cfg) (Den : Src → Bytes → Bool → Prop) : Prop :=
  ∀ s p bad, Den s p bad →
    ((s.read c.blockSize).1 = [] ∧ p = [] ∧ bad = false ∧ Den (s.read c.blockSize).2 [] false) ∨
    ((s.read c.blockSize).1 ≠ [] ∧ ¬ Consistent c.hash (s.read c.blockSize).1 ∧ p = [] ∧ bad = true) ∨
    ((s.read c.blockSize).1 ≠ [] ∧ Consistent c.hash (s.read c.blockSize).1 ∧
      ∃ p', p = payload c (s.read c.blockSize).1 ++ p' ∧ Den (s.read c.blockSize).2 p' bad ∧
        (payload c (s.read c.blockSize).1 = [] → p' = [] ∧ bad = false))

/-- What the object will deliver. -/
def Holds (Den : Src → Bytes → Bool → Prop) (s : In) (p : Bytes) (bad : Bool) : Prop :=
  ∃ i, s.it = some i ∧ i ≤ s.block.length ∧ ∃ q, p = s.block.drop i ++ q ∧ Den s.src q bad

theorem peekBuf_spec {c : Cfg} {Den} (hc : Closed c Den) {s : In} {p : Bytes} {bad : Bool}
    (h : Holds Den s p bad) :
    (p = [] ∧ bad = true ∧ ∃ s', peekBuf c s = (s', .throw .corruption) ∧ s'.it = none) ∨
    (p = [] ∧ bad = false ∧ ∃ s', peekBuf c s = (s', .ok ()) ∧ Holds Den s' [] false ∧ s'.it = some s'.block.length) ∨
    (p ≠ [] ∧ ∃ s' i, peekBuf c s = (s', .ok ()) ∧ Holds Den s' p bad ∧ s'.it = some i ∧ i < s'.block.length) := by
  obtain ⟨i, hi, hle, q, rfl, hq⟩ := h
  by_cases he : i = s.block.length
  · have hd : s.block.drop i = [] := by simp [he]
    rw [hd, List.nil_append]
    have hp : peekBuf c s = (if (s.src.read c.blockSize).1.length = 0 then
        (⟨(s.src.read c.blockSize).2, [], some 0⟩, .ok ())
      else if (s.src.read c.blockSize).1.length < c.size then
        (⟨(s.src.read c.blockSize).2, (s.src.read c.blockSize).1, none⟩, .throw .corruption)
      else if c.hash (payload c (s.src.read c.blockSize).1) ≠
          (s.src.read c.blockSize).1.drop ((s.src.read c.blockSize).1.length - c.size) then
        (⟨(s.src.read c.blockSize).2, (s.src.read c.blockSize).1, none⟩, .throw .corruption)
      else (⟨(s.src.read c.blockSize).2, payload c (s.src.read c.blockSize).1, some 0⟩, .ok ())) := by
      unfold peekBuf
      rw [hi]
      simp only [he, if_true]
      rfl
    rw [hp]
    rcases hc _ _ _ hq with ⟨h1, rfl, rfl, h2⟩ | ⟨h1, h2, rfl, rfl⟩ | ⟨h1, h2, p', rfl, h3, h4⟩
    · right; left
      refine ⟨rfl, rfl, _, if_pos (by simp [h1]), ⟨0, rfl, by simp, [], by simp, h2⟩, rfl⟩
    · left
      rw [if_neg (by simpa using h1)]
      refine ⟨rfl, rfl, ?_⟩
      rw [consistent_iff] at h2
      by_cases h3 : (s.src.read c.blockSize).1.length < c.size
      · exact ⟨_, if_pos h3, rfl⟩
      · rw [if_neg h3, if_pos (by intro h; exact h2 ⟨h3, h⟩)]
        exact ⟨_, rfl, rfl⟩
    · rw [consistent_iff] at h2
      rw [if_neg (by simpa using h1), if_neg h2.1, if_neg (by simpa using h2.2)]
      by_cases h5 : payload c (s.src.read c.blockSize).1 = []
      · obtain ⟨rfl, rfl⟩ := h4 h5
        right; left
        refine ⟨by simp [h5], rfl, _, rfl, ⟨0, rfl, by simp, [], by simp [h5], h3⟩, by simp [h5]⟩
      · right; right
        refine ⟨by simp [h5], _, 0, rfl, ⟨0, rfl, by simp, p', by simp, h3⟩, rfl, ?_⟩
        exact List.length_pos_iff.2 h5
  · have hp : peekBuf c s = (s, .ok ()) := by
      unfold peekBuf
      rw [hi]
      simp only [he, if_false]
    have hlt : i < s.block.length := by omega
    right; right
    refine ⟨?_, s, i, hp, ⟨i, hi, hle, q, rfl, hq⟩, hi, hlt⟩
    intro h
    have := congrArg List.length h
    simp at this
    omega

theorem atEnd_spec {c : Cfg} {Den} (hc : Closed c Den) {s : In} {p : Bytes} {bad : Bool}
    (h : Holds Den s p bad) :
    (p = [] ∧ bad = true ∧ ∃ s', atEnd c s = (s', .throw .corruption) ∧ s'.it = none) ∨
    (p = [] ∧ bad = false ∧ ∃ s', atEnd c s = (s', .ok true) ∧ Holds Den s' [] false) ∨
    (p ≠ [] ∧ ∃ s' i, atEnd c s = (s', .ok false) ∧ Holds Den s' p bad ∧ s'.it = some i ∧ i < s'.block.length) := by
  rcases peekBuf_spec hc h with ⟨h1, h2, s', h3, h4⟩ | ⟨h1, h2, s', h3, h4, h5⟩ | ⟨h1, s', i, h3, h4, h5, h6⟩
  · left; refine ⟨h1, h2, s', ?_, h4⟩
    unfold atEnd; rw [h3]
  · right; left; refine ⟨h1, h2, s', ?_, h4⟩
    unfold atEnd; rw [h3]; simp [h5]
  · right; right; refine ⟨h1, s', i, ?_, h4, h5, h6⟩
    unfold atEnd; rw [h3]; simp only [h5]
    have : (i == s'.block.length) = false := by simp <;> omega
    rw [this]

theorem flushBuf_spec {Den} {s : In} {p : Bytes} {bad : Bool} (h : Holds Den s p bad) (n : Nat) :
    ∃ s' k, flushBuf s n = (s', .ok (p.take k)) ∧ Holds Den s' (p.drop k) bad ∧ k ≤ n ∧ k ≤ p.length ∧
      (∀ i, s.it = some i → i < s.block.length → 0 < n → 0 < k) := by
  obtain ⟨i, hi, hle, q, rfl, hq⟩ := h
  by_cases he : i = s.block.length
  · refine ⟨s, 0, ?_, ⟨i, hi, hle, q, by simp, hq⟩, by omega, by omega, ?_⟩
    · unfold flushBuf; rw [hi]; simp [he]
    · intro j hj hlt; rw [hi] at hj; cases hj; omega
  · refine ⟨{ s with it := some (i + min (s.block.length - i) n) }, min (s.block.length - i) n, ?_,
      ⟨_, rfl, by simp <;> omega, q, ?_, hq⟩, by omega, by simp <;> omega, ?_⟩
    · unfold flushBuf
      rw [hi]
      simp only [ne_eq, he, not_false_eq_true, if_true]
      rw [List.take_append_of_le_length (by simp <;> omega)]
    · show List.drop _ _ = List.drop _ s.block ++ q
      rw [List.drop_append_of_le_length (by simp <;> omega), List.drop_drop]
    · intro j hj hlt hn; rw [hi] at hj; cases hj; omega

/-- The loop: after `buffer` is copied, `p` is still to come and `n` more bytes are wanted. -/
theorem readLoop_spec {c : Cfg} {Den} (hc : Closed c Den) (count : Nat) : ∀ (fuel : Nat) (s : In) (buffer p : Bytes)
    (bad : Bool), Holds Den s p bad → buffer.length ≤ count →
    count - buffer.length + 2 ≤ fuel ∨ (count - buffer.length + 1 ≤ fuel ∧ ∃ i, s.it = some i ∧ i < s.block.length) →
    (count - buffer.length ≤ p.length →
      ∃ s', readLoop c count fuel s buffer = (s', .ok (some (buffer ++ p.take (count - buffer.length)))) ∧
        Holds Den s' (p.drop (count - buffer.length)) bad) ∧
    (p.length < count - buffer.length → bad = false →
      ∃ s', readLoop c count fuel s buffer = (s', .ok (some (buffer ++ p))) ∧ Holds Den s' [] false) ∧
    (p.length < count - buffer.length → bad = true →
      ∃ s', readLoop c count fuel s buffer = (s', .throw .corruption) ∧ s'.it = none)
  | 0, _, _, _, _, _, _, hf => by rcases hf with h | ⟨h, _⟩ <;> omega
  | fuel + 1, s, buffer, p, bad, h, hb, hf => by
    obtain ⟨s1, k, hk, h1, hkn, hkp, hpos⟩ := flushBuf_spec h (count - buffer.length)
    have hl : (p.take k).length = k := by simp <;> omega
    by_cases hdone : (buffer ++ p.take k).length = count
    · have hk' : k = count - buffer.length := by simp only [List.length_append, hl] at hdone; omega
      subst hk'
      refine ⟨fun _ => ⟨s1, ?_, h1⟩, fun h2 => by omega, fun h2 => by omega⟩
      simp only [readLoop, hk, hdone, if_true]
    · have hlt : k < count - buffer.length := by
        simp only [List.length_append, hl] at hdone; omega
      have hstep : readLoop c count (fuel + 1) s buffer = (match atEnd c s1 with
        | (s, .ok true) => (s, .ok (some (buffer ++ p.take k)))
        | (s, .ok false) => readLoop c count fuel s (buffer ++ p.take k)
        | (s, .throw e) => (s, .throw e)
        | (s, .ub) => (s, .ub)) := by
        simp only [readLoop, hk, hdone, if_false] <;>
          rcases atEnd c s1 with ⟨s, (_ | _) | _ | _⟩ <;> rfl
      rcases atEnd_spec hc h1 with ⟨h3, h4, s2, h5, h6⟩ | ⟨h3, h4, s2, h5, h6⟩ | ⟨h3, s2, i, h5, h6, h7, h8⟩
      · have hkl : p.length = k := by simp at h3; omega
        refine ⟨fun h2 => by omega, fun _ h2 => by simp [h4] at h2, fun _ _ => ⟨s2, ?_, h6⟩⟩
        rw [hstep, h5]
      · have hkl : p.length = k := by simp at h3; omega
        refine ⟨fun h2 => by omega, fun _ _ => ⟨s2, ?_, h6⟩, fun _ h2 => by simp [h4] at h2⟩
        rw [hstep, h5, ← hkl, List.take_length]
      · rw [hstep, h5]
        have hbl : (buffer ++ p.take k).length = buffer.length + k := by simp only [List.length_append, hl]
        have ih := readLoop_spec hc count fuel s2 (buffer ++ p.take k) (p.drop k) bad h6 (by omega) (by
          right
          refine ⟨?_, i, h7, h8⟩
          rw [hbl]
          rcases hf with hf | ⟨hf, i', hi', hlt'⟩
          · omega
          · have := hpos i' hi' hlt' (by omega)
            omega)
        rw [hbl] at ih
        have hdl : (p.drop k).length = p.length - k := by simp
        rw [hdl] at ih
        have e1 : count - (buffer.length + k) = count - buffer.length - k := by omega
        rw [e1] at ih
        refine ⟨fun h2 => ?_, fun h2 h3 => ?_, fun h2 h3 => ?_⟩
        · obtain ⟨s3, h8, h9⟩ := ih.1 (by omega)
          refine ⟨s3, ?_, ?_⟩
          · dsimp only
            rw [h8, List.append_assoc]
            congr 4
            rw [← List.take_add]; congr 1; omega
          · rwa [List.drop_drop, show k + (count - buffer.length - k) = count - buffer.length by omega] at h9
        · obtain ⟨s3, h8, h9⟩ := ih.2.1 (by omega) h3
          refine ⟨s3, ?_, h9⟩
          dsimp only
          rw [h8, List.append_assoc, List.take_append_drop]
        · obtain ⟨s3, h8, h9⟩ := ih.2.2 (by omega) h3
          exact ⟨s3, h8, h9⟩

theorem run_ideal {c : Cfg} {Den} (hc : Closed c Den) : ∀ (ops : List Op) (s : In) (p : Bytes) (bad : Bool),
    Holds Den s p bad → untilException (run c s ops) = ideal bad p ops
  | [], _, _, _, _ => rfl
  | .read n :: ops, s, p, bad, h => by
    have hr := readLoop_spec hc n (n + 2) s [] p bad h (by simp) (by simp)
    simp only [List.length_nil, Nat.sub_zero, List.nil_append] at hr
    rw [ideal, run]
    by_cases h1 : n ≤ p.length
    · obtain ⟨s', h2, h3⟩ := hr.1 h1
      have hcall : call c s (.read n) = (s', .data (p.take n)) := by
        simp only [call, read, h2]
      rw [if_pos h1, hcall, untilException, run_ideal hc ops s' _ _ h3]
      simp
    · rw [if_neg h1]
      cases bad with
      | true =>
        obtain ⟨s', h2, _⟩ := hr.2.2 (by omega) rfl
        have hcall : call c s (.read n) = (s', .exception .corruption) := by
          simp only [call, read, h2]
        rw [hcall, untilException]; simp
      | false =>
        obtain ⟨s', h2, h3⟩ := hr.2.1 (by omega) rfl
        have hcall : call c s (.read n) = (s', .data p) := by
          simp only [call, read, h2]
        rw [hcall, untilException, run_ideal hc ops s' _ _ h3]
        · simp
        · simp
  | .atEnd :: ops, s, p, bad, h => by
    rw [ideal, run]
    rcases atEnd_spec hc h with ⟨h1, h2, s', h3, h4⟩ | ⟨h1, h2, s', h3, h4⟩ | ⟨h1, s', i, h3, h4, _⟩
    · have hcall : call c s .atEnd = (s', .exception .corruption) := by simp only [call, h3]
      rw [hcall, untilException]; simp [h1, h2]
    · have hcall : call c s .atEnd = (s', .flag true) := by simp only [call, h3]
      rw [hcall, untilException, run_ideal hc ops s' _ _ h4]
      · simp [h1, h2]
      · simp
    · have hcall : call c s .atEnd = (s', .flag false) := by simp only [call, h3]
      rw [hcall, untilException, run_ideal hc ops s' _ _ h4]
      · simp [h1]
      · simp

theorem holds_init {Den : Src → Bytes → Bool → Prop} {src : Src} {p : Bytes} {bad : Bool} (h : Den src p bad) :
    Holds Den (In.init src) p bad := ⟨0, rfl, by simp [In.init], p, by simp [In.init], h⟩

/-- After an exception the iterator is invalid: every call is undefined behaviour. -/
theorem run_invalid (c : Cfg) : ∀ (ops : List Op) (s : In), s.it = none → run c s ops = ops.map fun _ => .ub
  | [], _, _ => rfl
  | .read n :: ops, s, h => by
    have hcall : call c s (.read n) = (s, .ub) := by
      simp only [call, read, readLoop, flushBuf, h]
    rw [run, hcall, run_invalid c ops s h]; rfl
  | .atEnd :: ops, s, h => by
    have hcall : call c s .atEnd = (s, .ub) := by
      simp only [call, atEnd, peekBuf, h]
    rw [run, hcall, run_invalid c ops s h]; rfl

/-! ## Decoding a byte sequence with full reads -/

/-- What is in a hashed byte sequence: the payloads of the blocks before the first inconsistent one, and whether there
is an inconsistent one. -/
def decode (c : Cfg) : Nat → Bytes → Bytes × Bool
  | 0, _ => ([], false)
  | fuel + 1, s =>
    if s = [] then ([], false)
    else
      if ¬ (s.take c.blockSize).length < c.size ∧
          c.hash (payload c (s.take c.blockSize)) = (s.take c.blockSize).drop ((s.take c.blockSize).length - c.size) then
        (payload c (s.take c.blockSize) ++ (decode c fuel (s.drop c.blockSize)).1,
          (decode c fuel (s.drop c.blockSize)).2)
      else ([], true)

def FullDen (c : Cfg) (s : Src) (p : Bytes) (bad : Bool) : Prop :=
  (∀ l ∈ s.lims, c.blockSize ≤ l) ∧ ∃ fuel, s.data.length ≤ fuel ∧ decode c fuel s.data = (p, bad)

theorem decode_nil (c : Cfg) : ∀ fuel, decode c fuel [] = ([], false)
  | 0 => rfl
  | _ + 1 => by simp [decode]

theorem fullDen_closed {c : Cfg} (hc : c.Good) : Closed c (FullDen c) := by
  rintro ⟨data, lims⟩ p bad ⟨hl, fuel, hf, hd⟩
  simp only at hl hf hd
  unfold Cfg.Good at hc
  obtain ⟨lims', hl', hr⟩ : ∃ lims', (∀ l ∈ lims', c.blockSize ≤ l) ∧
      (Src.mk data lims).read c.blockSize = (data.take c.blockSize, ⟨data.drop c.blockSize, lims'⟩) := by
    cases lims with
    | nil => exact ⟨[], by simp, rfl⟩
    | cons a as =>
      refine ⟨as, fun l h => hl l (List.mem_cons_of_mem _ h), ?_⟩
      unfold Src.read
      simp only [Nat.min_eq_right (hl a (by simp))]
  rw [hr]
  by_cases he : data = []
  · left
    subst he
    rw [decode_nil] at hd
    simp only [Prod.mk.injEq] at hd
    exact ⟨by simp, hd.1.symm, hd.2.symm, hl', 0, by simp, by simp [decode]⟩
  · right
    have hpos : 0 < data.length := List.length_pos_iff.2 he
    have hne : data.take c.blockSize ≠ [] := by
      intro h
      rcases List.take_eq_nil_iff.1 h with h | h
      · omega
      · exact he h
    obtain ⟨fuel, rfl⟩ : ∃ f, fuel = f + 1 := ⟨fuel - 1, by omega⟩
    rw [decode, if_neg he] at hd
    by_cases hcon : ¬ (data.take c.blockSize).length < c.size ∧
      c.hash (payload c (data.take c.blockSize)) =
        (data.take c.blockSize).drop ((data.take c.blockSize).length - c.size)
    · right
      rw [if_pos hcon] at hd
      have hd' := Prod.mk.inj hd
      refine ⟨hne, (consistent_iff _ _).2 hcon, _, hd'.1.symm, ⟨hl', fuel, ?_, ?_⟩, ?_⟩
      · simp; omega
      · exact Prod.ext rfl hd'.2
      · intro hp
        have hlen : data.length ≤ c.blockSize := by
          have := congrArg List.length hp
          simp only [payload, List.length_take, List.length_nil] at this
          omega
        have hdr : data.drop c.blockSize = [] := List.drop_eq_nil_of_le hlen
        rw [hdr, decode_nil] at hd' ⊢
        exact ⟨rfl, hd'.2.symm⟩
    · left
      rw [if_neg hcon] at hd
      have hd' := Prod.mk.inj hd
      exact ⟨hne, fun h => hcon ((consistent_iff _ _).1 h), hd'.1.symm, hd'.2.symm⟩

/-! ## Buffering without a hash, with short reads -/

def BufDen (s : Src) (p : Bytes) (bad : Bool) : Prop :=
  bad = false ∧ s.data = p ∧ ∀ l ∈ s.lims, 0 < l

theorem bufDen_closed {n : Nat} (hn : 0 < n) : Closed (fakeHash n) BufDen := by
  rintro ⟨data, lims⟩ p bad ⟨rfl, hd, hl⟩
  simp only at hd hl
  subst hd
  have hcon : ∀ b, Consistent (fakeHash n).hash b := fun b => ⟨b, by simp [fakeHash]⟩
  have hpay : ∀ b, payload (fakeHash n) b = b := fun b => by simp [payload, fakeHash]
  have happ := Src.read_append ⟨data, lims⟩ n
  have hB : (fakeHash n).blockSize = n := rfl
  rw [hB]
  have hl' : ∀ l ∈ ((Src.mk data lims).read n).2.lims, 0 < l := by
    unfold Src.read
    cases lims with
    | nil => simp
    | cons a as => intro l h; exact hl l (List.mem_cons_of_mem _ h)
  by_cases he : ((Src.mk data lims).read n).1 = []
  · left
    rw [he] at happ
    have hdn : data = [] := by
      unfold Src.read at he
      cases lims with
      | nil => simp at he; rcases he with h | h; omega; exact h
      | cons a as =>
        have := hl a (by simp)
        simp at he
        rcases he with h | h
        · omega
        · exact h
    subst hdn
    exact ⟨he, rfl, rfl, rfl, happ, hl'⟩
  · right; right
    refine ⟨he, hcon _, ((Src.mk data lims).read n).2.data, ?_, ⟨rfl, rfl, hl'⟩, ?_⟩
    · rw [hpay]; exact happ.symm
    · rw [hpay]; intro h; exact absurd h he

/-! ## The ideal stream -/

theorem received_ideal_prefix (bad : Bool) : ∀ (ops : List Op) (p : Bytes), received (ideal bad p ops) <+: p
  | [], _ => by simp [ideal, received]
  | .read n :: ops, p => by
    rw [ideal]
    by_cases h1 : n ≤ p.length
    · rw [if_pos h1, received]
      have := received_ideal_prefix bad ops (p.drop n)
      obtain ⟨t, ht⟩ := this
      exact ⟨t, by rw [List.append_assoc, ht, List.take_append_drop]⟩
    · rw [if_neg h1]
      cases bad with
      | true => simp [received]
      | false =>
        simp only [Bool.false_eq_true, if_false, received]
        have := received_ideal_prefix false ops []
        have h2 : received (ideal false [] ops) = [] := by simpa using this
        rw [h2, List.append_nil]
        all_goals exact List.prefix_refl _
  | .atEnd :: ops, p => by
    rw [ideal]
    by_cases h1 : p ≠ []
    · rw [if_pos h1, received]
      exact received_ideal_prefix bad ops p
      all_goals simp
    · rw [if_neg h1]
      cases bad with
      | true => simp [received]
      | false =>
        simp only [Bool.false_eq_true, if_false]
        rw [received]
        exact received_ideal_prefix false ops p
        all_goals simp

end Verif.HashStream
