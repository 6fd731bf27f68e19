import Verif.Serialize.Spec
import Mathlib.Tactic.Ring
import Mathlib.Tactic.Linarith
import Mathlib.Algebra.Order.Ring.Abs
import Mathlib.Data.Int.Order.Basic

namespace Verif.Serialize

/-! ### Integers in memory -/

@[simp] theorem leBytes_length (n v : Nat) : (leBytes n v).length = n := by
  induction n generalizing v with
  | zero => rfl
  | succ n ih => simp [leBytes, ih]

theorem leVal_leBytes (n v : Nat) (h : v < 256 ^ n) : leVal (leBytes n v) = v := by
  induction n generalizing v with
  | zero => simp at h; subst h; rfl
  | succ n ih =>
    have h2 : v / 256 < 256 ^ n := by
      rw [Nat.div_lt_iff_lt_mul (by omega)]; rw [Nat.pow_succ] at h; exact h
    simp only [leBytes, leVal, ih _ h2]
    have : (UInt8.ofNat v).toNat = v % 256 := by simp [UInt8.toNat_ofNat']
    omega

theorem leVal_lt (bs : List UInt8) : leVal bs < 256 ^ bs.length := by
  induction bs with
  | nil => simp [leVal]
  | cons b bs ih =>
    have := b.toNat_lt
    simp only [leVal, List.length_cons, Nat.pow_succ]
    omega

theorem leBytes_leVal (bs : List UInt8) : leBytes bs.length (leVal bs) = bs := by
  induction bs with
  | nil => rfl
  | cons b bs ih =>
    have hb := b.toNat_lt
    simp only [List.length_cons, leBytes, leVal]
    have h1 : (b.toNat + 256 * leVal bs) / 256 = leVal bs := by omega
    rw [h1, ih]
    congr 1
    apply UInt8.toNat_inj.mp
    rw [UInt8.toNat_ofNat']
    omega

/-! ### The laws of a reader -/

/-- `rd` reads exactly `bs`, giving `a`: followed by anything, it returns `a` and leaves what follows; cut off
anywhere, it throws `EndOfFileException`.  `I` is an invariant of the state of the context. -/
def Exact {σ α : Type} (I : σ → Prop) (rd : Rd σ α) (bs : List UInt8) (a : α) : Prop :=
  ∀ c, I c →
    (∀ rest, ∃ c', I c' ∧ rd c (bs ++ rest) = .ok (a, c', rest)) ∧
    (∀ p, p <+: bs → p ≠ bs → rd c p = .throw .endOfFile)

theorem Rd.bind_def {σ α β : Type} (f : Rd σ α) (g : α → Rd σ β) (c : σ) (s : List UInt8) :
    (f >>= g) c s = match f c s with
      | .ok (a, c', s') => g a c' s'
      | .throw e => .throw e
      | .ub => .ub := rfl

theorem Rd.pure_def {σ α : Type} (a : α) (c : σ) (s : List UInt8) : (pure a : Rd σ α) c s = .ok (a, c, s) := rfl

theorem Exact.pure {σ α : Type} {I : σ → Prop} (a : α) : Exact I (Pure.pure a : Rd σ α) [] a := by
  intro c hc
  refine ⟨fun rest => ⟨c, hc, rfl⟩, fun p hp hne => ?_⟩
  exact absurd (List.prefix_nil.mp hp) hne

theorem Exact.bind {σ α β : Type} {I : σ → Prop} {f : Rd σ α} {g : α → Rd σ β} {bs₁ bs₂ : List UInt8} {a : α} {b : β}
    (hf : Exact I f bs₁ a) (hg : Exact I (g a) bs₂ b) : Exact I (f >>= g) (bs₁ ++ bs₂) b := by
  intro c hc
  obtain ⟨hf1, hf2⟩ := hf c hc
  constructor
  · intro rest
    obtain ⟨c1, hc1, e1⟩ := hf1 (bs₂ ++ rest)
    obtain ⟨c2, hc2, e2⟩ := (hg c1 hc1).1 rest
    refine ⟨c2, hc2, ?_⟩
    rw [Rd.bind_def, List.append_assoc, e1]
    exact e2
  · intro p hp hne
    rw [Rd.bind_def]
    by_cases hlt : p.length < bs₁.length
    · have h1 : p <+: bs₁ := List.prefix_of_prefix_length_le hp (List.prefix_append _ _) (by omega)
      have h2 : p ≠ bs₁ := by intro h; rw [h] at hlt; omega
      rw [hf2 p h1 h2]
    · have h1 : bs₁ <+: p := List.prefix_of_prefix_length_le (List.prefix_append _ _) hp (by omega)
      obtain ⟨p2, rfl⟩ := h1
      have h2 : p2 <+: bs₂ := (List.prefix_append_right_inj bs₁).mp hp
      have h3 : p2 ≠ bs₂ := by intro h; rw [h] at hne; exact hne rfl
      obtain ⟨c1, hc1, e1⟩ := hf1 p2
      rw [e1]
      exact (hg c1 hc1).2 p2 h2 h3

theorem Exact.bind_nil {σ α β : Type} {I : σ → Prop} {f : Rd σ α} {g : α → Rd σ β} {bs : List UInt8} {a : α} {b : β}
    (hf : Exact I f bs a) (hg : Exact I (g a) [] b) : Exact I (f >>= g) bs b := by
  have := Exact.bind hf hg
  rwa [List.append_nil] at this

theorem Exact.nil_bind {σ α β : Type} {I : σ → Prop} {f : Rd σ α} {g : α → Rd σ β} {bs : List UInt8} {a : α} {b : β}
    (hf : Exact I f [] a) (hg : Exact I (g a) bs b) : Exact I (f >>= g) bs b := by
  have := Exact.bind hf hg
  rwa [List.nil_append] at this

theorem Exact.readRaw {σ : Type} {I : σ → Prop} (bs : List UInt8) (n : Nat) (h : bs.length = n) :
    Exact I (readRaw n : Rd σ _) bs bs := by
  intro c hc
  constructor
  · intro rest
    refine ⟨c, hc, ?_⟩
    unfold Serialize.readRaw
    rw [if_neg (by simp; omega)]
    simp [← h]
  · intro p hp hne
    unfold Serialize.readRaw
    have : p.length < n := by
      have h1 := hp.length_le
      rcases Nat.lt_or_ge p.length n with h2 | h2
      · exact h2
      · exact absurd (List.IsPrefix.eq_of_length hp (by omega)) hne
    rw [if_pos this]

theorem Exact.lift {σ α : Type} {I : σ → Prop} {r : Res α} {a : α} (h : r = .ok a) :
    Exact I (Rd.lift r : Rd σ α) [] a := by
  subst h
  exact Exact.pure a

theorem Exact.readSize {σ : Type} {I : σ → Prop} (n : Nat) (h : n < 2 ^ 64) :
    Exact I (readSize : Rd σ Nat) (leBytes 8 n) n := by
  unfold Serialize.readSize
  refine Exact.bind_nil (Exact.readRaw _ 8 (by simp)) ?_
  rw [leVal_leBytes 8 n (by norm_num at h ⊢; exact h)]
  exact Exact.pure n

/-! ### Vectors -/

theorem splitNums_numBytes (n : Nat) (vs : List Val) (bs : List UInt8) (extra : List UInt8)
    (hv : ∀ v ∈ vs, ∃ x, v = .num x ∧ x < 256 ^ n) (h : numBytes n vs = .ok bs) :
    bs.length = vs.length * n ∧ splitNums n vs.length (bs ++ extra) = vs := by
  induction vs generalizing bs with
  | nil => simp [numBytes] at h; subst h; simp [splitNums]
  | cons v vs ih =>
    obtain ⟨x, rfl, hx⟩ := hv v (by simp)
    simp only [numBytes] at h
    obtain ⟨b2, h2, h3⟩ := Res.bind_eq_ok.mp h
    simp only [Res.ok.injEq] at h3
    subst h3
    obtain ⟨l2, e2⟩ := ih b2 (fun v hv' => hv v (by simp [hv'])) h2
    constructor
    · simp [l2, Nat.add_mul, Nat.add_comm]
    · simp only [List.length_cons, splitNums]
      rw [List.append_assoc, List.take_append_of_le_length (by simp), List.drop_append_of_le_length (by simp)]
      rw [List.take_of_length_le (by simp), List.drop_of_length_le (by simp), leVal_leBytes n x hx]
      simp [e2]

theorem numBytes_ok (n : Nat) (vs : List Val) (hv : ∀ v ∈ vs, ∃ x, v = .num x ∧ x < 256 ^ n) :
    ∃ bs, numBytes n vs = .ok bs := by
  induction vs with
  | nil => exact ⟨[], rfl⟩
  | cons v vs ih =>
    obtain ⟨x, rfl, hx⟩ := hv v (by simp)
    obtain ⟨bs, h⟩ := ih (fun v hv' => hv v (by simp [hv']))
    exact ⟨leBytes n x ++ bs, by simp [numBytes, h]⟩

/-! ### Packed bits -/

/-- The mask of bit number `j`. -/
def bitMask (j : Nat) : UInt8 := (1 : UInt8) <<< UInt8.ofNat j

theorem uint8_and_or (a b c : UInt8) : a &&& (b ||| c) = (a &&& b) ||| (a &&& c) := by
  apply UInt8.eq_of_toBitVec_eq
  ext i hi
  simp [Bool.and_or_distrib_left]

theorem bitMask_ne_zero : ∀ j, j < 8 → bitMask j ≠ 0 := by decide
theorem bitMask_shift : ∀ j, j < 7 → bitMask j <<< 1 = bitMask (j + 1) := by decide
theorem bitMask_shift7 : bitMask 7 <<< 1 = 0 := by decide
theorem bitMask_and : ∀ j, j < 8 → ∀ k, k < 8 → j ≠ k → bitMask j &&& bitMask k = 0 := by decide
theorem bitMask_eq_one : ∀ j, j < 8 → (bitMask j = 1 ↔ j = 0) := by decide

theorem writeBits_start {σ : Type} {I : σ → Prop} (bs : List Bool)
    (h : ∀ j aggr, j < 8 → (bs ≠ [] ∨ j ≠ 0) → (∀ k, j ≤ k → k < 8 → aggr &&& bitMask k = 0) →
      ∃ B out, writeBits bs aggr (bitMask j) = B :: out ∧ (∀ k, k < j → B &&& bitMask k = aggr &&& bitMask k) ∧
        Exact I (readBits bs.length B (bitMask j) : Rd σ _) out (bs.map Val.bool)) (x : UInt8) :
    Exact I (readBits bs.length x 0 : Rd σ _) (writeBits bs 0 1) (bs.map Val.bool) := by
  cases bs with
  | nil =>
    simp only [List.length_nil, readBits, writeBits, if_true, List.map_nil]
    exact Exact.pure []
  | cons b bs =>
    obtain ⟨B, out, e1, _, e2⟩ := h 0 0 (by omega) (by simp) (by simp)
    have e1' : writeBits (b :: bs) 0 1 = B :: out := e1
    rw [e1']
    have hm : bitMask 0 = 1 := by decide
    rw [hm] at e2
    show Exact I (readBits (bs.length + 1) x 0) ([B] ++ out) _
    have e2' : Exact I ((readBits bs.length B ((1 : UInt8) <<< 1) : Rd σ _) >>= fun rest =>
        (pure (.bool (B &&& 1 != 0) :: rest))) out ((b :: bs).map Val.bool) := by
      have : (readBits (bs.length + 1) B 1 : Rd σ _) = ((readBits bs.length B ((1 : UInt8) <<< 1) : Rd σ _) >>= fun rest =>
        (pure (.bool (B &&& 1 != 0) :: rest))) := by
        simp only [readBits]
        rw [if_neg (by decide)]
      rw [← this]
      exact e2
    simp only [readBits, if_true]
    refine Exact.bind (Exact.readRaw [B] 1 rfl) ?_
    have hB : UInt8.ofNat (leVal [B]) = B := by simp [leVal]
    rw [hB]
    exact e2'

theorem writeBits_exact {σ : Type} {I : σ → Prop} (bs : List Bool) :
    (∀ j aggr, j < 8 → (bs ≠ [] ∨ j ≠ 0) → (∀ k, j ≤ k → k < 8 → aggr &&& bitMask k = 0) →
      ∃ B out, writeBits bs aggr (bitMask j) = B :: out ∧ (∀ k, k < j → B &&& bitMask k = aggr &&& bitMask k) ∧
        Exact I (readBits bs.length B (bitMask j) : Rd σ _) out (bs.map Val.bool)) ∧
    (∀ x, Exact I (readBits bs.length x 0 : Rd σ _) (writeBits bs 0 1) (bs.map Val.bool)) := by
  induction bs with
  | nil =>
    have h1 : (∀ j aggr, j < 8 → (([] : List Bool) ≠ [] ∨ j ≠ 0) → (∀ k, j ≤ k → k < 8 → aggr &&& bitMask k = 0) →
      ∃ B out, writeBits [] aggr (bitMask j) = B :: out ∧ (∀ k, k < j → B &&& bitMask k = aggr &&& bitMask k) ∧
        Exact I (readBits ([] : List Bool).length B (bitMask j) : Rd σ _) out (([] : List Bool).map Val.bool)) := by
      intro j aggr hj hne hz
      have hj0 : j ≠ 0 := by simpa using hne
      refine ⟨aggr, [], ?_, fun _ _ => rfl, Exact.pure []⟩
      simp only [writeBits]
      rw [if_neg (by rw [bitMask_eq_one j hj]; exact hj0)]
    exact ⟨h1, writeBits_start _ h1⟩
  | cons b bs ih =>
    obtain ⟨ih1, ih2⟩ := ih
    have h1 : (∀ j aggr, j < 8 → ((b :: bs) ≠ [] ∨ j ≠ 0) → (∀ k, j ≤ k → k < 8 → aggr &&& bitMask k = 0) →
      ∃ B out, writeBits (b :: bs) aggr (bitMask j) = B :: out ∧ (∀ k, k < j → B &&& bitMask k = aggr &&& bitMask k) ∧
        Exact I (readBits (b :: bs).length B (bitMask j) : Rd σ _) out ((b :: bs).map Val.bool)) := by
      intro j aggr hj _ hz
      have haj : ((if b then aggr ||| bitMask j else aggr) &&& bitMask j != 0) = b := by
        have h0 := hz j (Nat.le_refl _) hj
        have hn := bitMask_ne_zero j hj
        cases b with
        | true =>
          simp only [if_true]
          have : (aggr ||| bitMask j) &&& bitMask j = bitMask j := by
            rw [UInt8.and_comm, uint8_and_or, UInt8.and_self, UInt8.and_comm, h0, UInt8.zero_or]
          rw [this]
          simpa using hn
        | false => simp [h0]
      have hother : ∀ k, k < 8 → k ≠ j →
          (if b then aggr ||| bitMask j else aggr) &&& bitMask k = aggr &&& bitMask k := by
        intro k hk hkj
        cases b with
        | true =>
          simp only [if_true]
          rw [UInt8.and_comm, uint8_and_or, UInt8.and_comm (bitMask k) (bitMask j),
            bitMask_and j hj k hk (fun h => hkj h.symm), UInt8.or_zero, UInt8.and_comm]
        | false => simp
      have hread : ∀ B : UInt8, (readBits (b :: bs).length B (bitMask j) : Rd σ _) =
          ((readBits bs.length B (bitMask j <<< 1) : Rd σ _) >>= fun rest =>
            (pure (.bool (B &&& bitMask j != 0) :: rest))) := by
        intro B
        simp only [List.length_cons, readBits]
        rw [if_neg (bitMask_ne_zero j hj)]
      by_cases h7 : j = 7
      · subst h7
        refine ⟨if b then aggr ||| bitMask 7 else aggr, writeBits bs 0 1, ?_, ?_, ?_⟩
        · simp only [writeBits]
          rw [bitMask_shift7, if_pos rfl]
        · intro k hk
          exact hother k (by omega) (by omega)
        · rw [hread, haj, bitMask_shift7]
          refine Exact.bind_nil (ih2 _) ?_
          exact Exact.pure _
      · have hs := bitMask_shift j (by omega)
        obtain ⟨B, out, e1, e2, e3⟩ := ih1 (j + 1) (if b then aggr ||| bitMask j else aggr) (by omega) (Or.inr (by omega)) (by
          intro k hk1 hk2
          rw [hother k hk2 (by omega)]
          exact hz k (by omega) hk2)
        refine ⟨B, out, ?_, ?_, ?_⟩
        · simp only [writeBits]
          rw [hs, if_neg (bitMask_ne_zero (j + 1) (by omega))]
          exact e1
        · intro k hk
          rw [e2 k (by omega), hother k (by omega) (by omega)]
        · rw [hread, e2 j (by omega), haj, hs]
          refine Exact.bind_nil e3 ?_
          exact Exact.pure _
    exact ⟨h1, writeBits_start _ h1⟩

/-! ### Containers -/

theorem insertOrdered_last (lt : Val → Val → Bool) (key : Val → Val) (x : Val) (l : List Val)
    (h : ∀ y ∈ l, lt (key y) (key x) = true) : insertOrdered lt key x l = l ++ [x] := by
  induction l with
  | nil => rfl
  | cons y ys ih =>
    simp only [insertOrdered, h y (by simp), if_true, List.cons_append]
    rw [ih (fun z hz => h z (by simp [hz]))]

theorem collInsert_valid (k : Coll) (key : Val → Val) (x : Val) (acc vs : List Val)
    (h : k.Valid key (acc ++ x :: vs)) : collInsert k key x acc = .ok (acc ++ [x]) := by
  cases k with
  | deque => rfl
  | ring cap =>
    simp only [Coll.Valid, List.length_append, List.length_cons] at h
    simp only [collInsert]
    rw [if_neg (show ¬ cap = 0 by omega), if_pos (show acc.length < cap by omega)]
  | ordered lt =>
    simp only [Coll.Valid, List.pairwise_append] at h
    simp only [collInsert]
    rw [insertOrdered_last lt key x acc (fun y hy => h.2.2 y hy x (by simp))]
  | hashed eq =>
    simp only [Coll.Valid, List.pairwise_append] at h
    simp only [collInsert]
    have : acc.any (fun y => eq (key y) (key x)) = false := by
      rw [List.any_eq_false]
      intro y hy
      simp [h.2.2 y hy x (by simp)]
    rw [this]
    rfl

theorem writeEach_coll {σ : Type} {I : σ → Prop} (k : Coll) (key : Val → Val) (wr : Val → Res (List UInt8))
    (rd : Rd σ Val) (vs acc : List Val) (hv : k.Valid key (acc ++ vs))
    (h : ∀ v ∈ vs, ∃ bs, wr v = .ok bs ∧ Exact I rd bs v) :
    ∃ bs, writeEach wr vs = .ok bs ∧ Exact I (readColl k key rd vs.length acc) bs (acc ++ vs) := by
  induction vs generalizing acc with
  | nil => exact ⟨[], rfl, by rw [List.append_nil]; exact Exact.pure acc⟩
  | cons v vs ih =>
    obtain ⟨b1, e1, x1⟩ := h v (by simp)
    have hi := collInsert_valid k key v acc vs hv
    have hv' : k.Valid key ((acc ++ [v]) ++ vs) := by simpa using hv
    obtain ⟨b2, e2, x2⟩ := ih (acc ++ [v]) hv' (fun w hw => h w (by simp [hw]))
    refine ⟨b1 ++ b2, by simp [writeEach, e1, e2], ?_⟩
    simp only [List.length_cons, readColl]
    refine Exact.bind x1 (Exact.nil_bind (Exact.lift hi) ?_)
    simpa using x2

theorem writeEach_each {σ : Type} {I : σ → Prop} (wr : Val → Res (List UInt8)) (rd : Val → Rd σ Val)
    (vs olds : List Val) (hl : olds.length = vs.length)
    (h : ∀ v ∈ vs, ∀ o ∈ olds, ∃ bs, wr v = .ok bs ∧ Exact I (rd o) bs v) :
    ∃ bs, writeEach wr vs = .ok bs ∧ Exact I (readEach rd olds) bs vs := by
  induction vs generalizing olds with
  | nil =>
    have : olds = [] := List.eq_nil_of_length_eq_zero hl
    subst this
    exact ⟨[], rfl, Exact.pure []⟩
  | cons v vs ih =>
    cases olds with
    | nil => simp at hl
    | cons o olds =>
      obtain ⟨b1, e1, x1⟩ := h v (by simp) o (by simp)
      obtain ⟨b2, e2, x2⟩ := ih olds (by simpa using hl) (fun w hw p hp => h w (by simp [hw]) p (by simp [hp]))
      refine ⟨b1 ++ b2, by simp [writeEach, e1, e2], ?_⟩
      simp only [readEach]
      exact Exact.bind x1 (Exact.bind_nil x2 (Exact.pure _))

theorem toBools_map (vs : List Val) (h : ∀ v ∈ vs, ∃ b, v = .bool b) :
    ∃ bs : List Bool, toBools vs = .ok bs ∧ vs = bs.map Val.bool := by
  induction vs with
  | nil => exact ⟨[], rfl, rfl⟩
  | cons v vs ih =>
    obtain ⟨b, rfl⟩ := h v (by simp)
    obtain ⟨bs, e1, e2⟩ := ih (fun w hw => h w (by simp [hw]))
    exact ⟨b :: bs, by simp [toBools, e1], by simp [← e2]⟩

theorem hasTy_num {env : Env} {n tag : Nat} {v : Val} (h : HasTy env (.num n tag) v) : ∃ x, v = .num x ∧ x < 256 ^ n := by
  cases v <;> simp_all [HasTy]

theorem hasTy_bool {env : Env} {v : Val} (h : HasTy env .bool v) : ∃ x, v = .bool x := by
  cases v <;> simp_all [HasTy]

/-- Vectors and arrays of every element type. -/
theorem writeVector_exact {σ : Type} {I : σ → Prop} (env : Env) (t : Ty) (wr : Val → Res (List UInt8))
    (rd : Val → Rd σ Val) (vs olds : List Val) (hl : olds.length = vs.length)
    (hne : ∀ n c, t ≠ .enm n c) (ht : ∀ v ∈ vs, HasTy env t v)
    (h : ∀ v ∈ vs, ∀ o ∈ olds, ∃ bs, wr v = .ok bs ∧ Exact I (rd o) bs v) :
    ∃ bs, writeVector (elemKind t) wr vs = .ok bs ∧ Exact I (readVector (elemKind t) rd olds) bs vs := by
  cases t with
  | num n =>
    have hv : ∀ v ∈ vs, ∃ x, v = Val.num x ∧ x < 256 ^ n := fun v hv => hasTy_num (ht v hv)
    obtain ⟨bs, e⟩ := numBytes_ok n vs hv
    obtain ⟨l, s⟩ := splitNums_numBytes n vs bs [] hv e
    refine ⟨bs, e, ?_⟩
    simp only [elemKind, readVector]
    refine Exact.bind_nil (Exact.readRaw bs _ (by rw [hl]; exact l)) ?_
    rw [List.append_nil] at s
    rw [hl, s]
    exact Exact.pure vs
  | bool =>
    obtain ⟨bs, e1, e2⟩ := toBools_map vs (fun v hv => hasTy_bool (ht v hv))
    refine ⟨writeBits bs 0 1, by simp [elemKind, writeVector, e1], ?_⟩
    simp only [elemKind, readVector]
    rw [hl, e2, List.length_map]
    exact (writeBits_exact bs).2 0
  | enm n c => exact absurd rfl (hne n c)
  | _ => exact writeEach_each wr rd vs olds hl h

/-! ### Structures -/

/-- The readers and writers of the fields fit together. -/
inductive Fields {σ : Type} (I : σ → Prop) :
    List (Val → Res (List UInt8)) → List (Val → Rd σ Val) → List Val → List Val → List UInt8 → Prop
  | nil : Fields I [] [] [] [] []
  | cons {w ws rd rds o os v vs bs bs'} : w v = .ok bs → Exact I (rd o) bs v → Fields I ws rds os vs bs' →
      Fields I (w :: ws) (rd :: rds) (o :: os) (v :: vs) (bs ++ bs')

theorem Fields.write {σ : Type} {I : σ → Prop} {ws rds os vs bs} (h : Fields (σ := σ) I ws rds os vs bs) :
    writeFields ws vs = .ok bs := by
  induction h with
  | nil => rfl
  | cons h1 _ _ ih => simp [writeFields, h1, ih]

theorem Fields.read {σ : Type} {I : σ → Prop} {ws rds os vs bs} (h : Fields (σ := σ) I ws rds os vs bs) :
    Exact I (readFields rds os) bs vs := by
  induction h with
  | nil => exact Exact.pure []
  | cons _ h2 _ ih =>
    simp only [readFields]
    exact Exact.bind h2 (Exact.bind_nil ih (Exact.pure _))

/-- A hook that reads what the writer wrote. -/
def HookOk {σ : Type} (I : σ → Prop) (pre : Option SInfo → List UInt8) (h : Hook σ) : Prop :=
  ∀ info ws rds os vs bs, Fields I ws rds os vs bs → Exact I (h info rds os) (pre info ++ bs) vs

theorem plainHook_ok {σ : Type} (I : σ → Prop) : HookOk I (fun _ => []) (plainHook : Hook σ) := by
  intro info ws rds os vs bs h
  exact h.read

/-! ### Time points -/

theorem fits64_iff (i : Int) : fits64 i = true ↔ -2 ^ 63 ≤ i ∧ i < 2 ^ 63 := by simp [fits64]

theorem toInt64_ofInt64 (i : Int) (h1 : -2 ^ 63 ≤ i) (h2 : i < 2 ^ 63) : toInt64 (ofInt64 i) = i := by
  unfold toInt64 ofInt64
  split <;> omega

theorem ofInt64_lt (i : Int) : ofInt64 i < 2 ^ 64 := by
  unfold ofInt64
  omega

theorem time_roundtrip (p q : Nat) (i : Int) (hp : 0 < p) (hq : 0 < q) (h1 : -2 ^ 63 ≤ i * p) (h2 : i * p < 2 ^ 63)
    (hd : (q : Int) ∣ i * p) :
    ∃ ns, durationCast p q i = .ok ns ∧ -2 ^ 63 ≤ ns ∧ ns < 2 ^ 63 ∧ durationCast q p ns = .ok i := by
  obtain ⟨m, hm⟩ := hd
  have hq' : (q : Int) ≠ 0 := by omega
  have hp' : (p : Int) ≠ 0 := by omega
  have hf : fits64 (i * p) = true := (fits64_iff _).mpr ⟨h1, h2⟩
  have hns : (i * p).tdiv q = m := by rw [hm]; exact Int.mul_tdiv_cancel_left m hq'
  have hmq : m * q = i * p := by rw [hm]; ring
  have hb : -2 ^ 63 ≤ m ∧ m < 2 ^ 63 := by
    have h3 : |m| ≤ |m * q| := by
      rw [abs_mul]
      have : (1 : Int) ≤ |(q : Int)| := by rw [abs_of_nonneg (by omega)]; omega
      nlinarith [abs_nonneg m]
    rw [hmq] at h3
    have h4 : m ≤ |m| := le_abs_self m
    have h5 : -m ≤ |m| := neg_le_abs m
    rcases abs_cases (i * p) with ⟨h, _⟩ | ⟨h, hneg⟩
    · omega
    · constructor
      · omega
      · -- m and i*p have the same sign
        by_contra hc
        have : 0 ≤ m * q := Int.mul_nonneg (by omega) (by omega)
        omega
  refine ⟨m, ?_, hb.1, hb.2, ?_⟩
  · simp only [durationCast, hf, if_true, hns]
  · simp only [durationCast, hmq, hf, if_true]
    rw [Int.mul_tdiv_cancel i hp']

end Verif.Serialize
