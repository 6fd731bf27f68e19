import Verif.Decimal.BalanceSpec
import Verif.Decimal.Props
import Mathlib.Data.List.Perm.Basic

/-! # C158: a balance kept in decimals is exact -/

namespace Verif.Decimal

variable {c : Cfg}

/-! ## Lemmas -/

theorem at_mono {d : Dec} {j k : Nat} (h : j ≤ k) {m : ℚ} (hk : |d.at k| ≤ m) : |d.at j| ≤ m := by
  refine le_trans ?_ hk
  simp only [Dec.at, abs_mul, abs_pow]
  exact mul_le_mul_of_nonneg_left (pow_le_pow_right₀ (by norm_num) h) (abs_nonneg _)

theorem scaled_mono {v : ℚ} {j k : Nat} (h : j ≤ k) {m : ℚ} (hk : |v * 10 ^ k| ≤ m) : |v * 10 ^ j| ≤ m := by
  refine le_trans ?_ hk
  simp only [abs_mul, abs_pow]
  exact mul_le_mul_of_nonneg_left (pow_le_pow_right₀ (by norm_num) h) (abs_nonneg _)

/-- A decimal is known by its value and the number of its digits, but for minus zero. -/
theorem dec_ext {x y : Dec} (hv : x.value = y.value) (he : x.exp = y.exp) (hx : x.Plain) (hy : y.Plain) : x = y := by
  obtain ⟨p, k, m⟩ := x
  obtain ⟨q, k', n⟩ := y
  simp only at he
  subst he
  have hpk : (0 : ℚ) < 10 ^ k := by positivity
  have key : ∀ (p q : Bool) (m n : Nat), Dec.value ⟨p, k, m⟩ = Dec.value ⟨q, k, n⟩ ↔ (if p then (m : ℤ) else -m) = (if q then (n : ℤ) else -n) := by
    intro p q m n
    simp only [Dec.value]
    rw [div_left_inj' (ne_of_gt hpk)]
    cases p <;> cases q <;> simp
  have zero : ∀ (p : Bool) (m : Nat), Dec.value ⟨p, k, m⟩ = 0 ↔ m = 0 := by
    intro p m
    simp only [Dec.value]
    rw [div_eq_zero_iff]
    cases p <;> simp
  simp only [Dec.Plain, zero] at hx hy
  rw [key] at hv
  cases p <;> cases q <;> simp at hv hx hy ⊢ <;> omega

/-- `+` of decimals that fit. -/
theorem add_exact (h : c.Good) {x y : Dec} (hx : x.WF c) (hy : y.WF c) {k : Nat} (hk : max x.exp y.exp ≤ k) (h1 : |x.at k| ≤ c.maxMan) (h2 : |y.at k| ≤ c.maxMan)
    (h3 : |(x.value + y.value) * 10 ^ k| ≤ c.maxMan) :
    ∃ d, x.add c y = .ok d ∧ d.WF c ∧ d.exp = max x.exp y.exp ∧ d.value = x.value + y.value ∧ d.Plain := by
  have h1 := at_mono hk h1
  have h2 := at_mono hk h2
  have h3 := scaled_mono hk h3
  obtain ⟨d, e1, e2, e3, e4⟩ := (c25_add_partial h hx hy rfl).2 ⟨h1, h2⟩
  have e5 := e4.2 h3
  refine ⟨d, e1, e2, e3, e5, ?_⟩
  clear e4
  generalize hj : max x.exp y.exp = j at h1 h2 h3 e3
  have ex : x.exp ≤ j := by omega
  have ey : y.exp ≤ j := by omega
  have hja : j ≤ c.maxExp := by have := WF.exp_le hx; have := WF.exp_le hy; omega
  have hal := align_eq h hx hy
  rw [hj] at hal
  simp only at hal
  rw [at_abs ex] at h1
  rw [at_abs ey] at h2
  simp only [Dec.add] at e1
  rw [hal, if_pos ⟨h1, h2⟩] at e1
  simp only [Res.ok_bind] at e1
  generalize hm : Dec.mantissa ⟨x.pos, j, x.man * 10 ^ (j - x.exp)⟩ + Dec.mantissa ⟨y.pos, j, y.man * 10 ^ (j - y.exp)⟩ = m at e1
  have hle : m.natAbs ≤ 2 * c.maxMan := by
    rw [← hm]
    simp only [Dec.mantissa]
    split <;> split <;> omega
  have h2' := h.two_man
  rw [sint_ok (by omega)] at e1
  simp only [Res.ok_bind] at e1
  rw [fromMantissa_eq h hle hja, Res.ok.injEq] at e1
  have hm0 : d.value = 0 → m = 0 := by
    intro h0
    have hsum : ((x.value + y.value) * 10 ^ j : ℚ) = m := by
      have e1 := at_eq ex
      have e2 := at_eq ey
      simp only [Dec.at] at e1 e2
      rw [add_mul, e1, e2, ← hm]
      simp only [Dec.mantissa]
      push_cast
      split <;> split <;> simp
    rw [← e5, h0, zero_mul] at hsum
    exact_mod_cast hsum.symm
  intro h0
  rw [← e1]
  simp [hm0 h0]

theorem neg_wf {d : Dec} (h : d.WF c) : d.neg.WF c := h

theorem neg_at (d : Dec) (k : Nat) : |d.neg.at k| = |d.at k| := by simp [Dec.at, neg_value]

/-- An entry as an addition. -/
def Entry.plus : Entry → Dec
  | .add d => d
  | .sub d => d.neg

theorem plus_value (e : Entry) : e.plus.value = e.amount := by cases e <;> simp [Entry.plus, Entry.amount, neg_value]
theorem plus_exp (e : Entry) : e.plus.exp = e.dec.exp := by cases e <;> rfl
theorem plus_wf {e : Entry} (h : e.dec.WF c) : e.plus.WF c := by cases e <;> exact h
theorem plus_at (e : Entry) (k : Nat) : e.plus.at k = e.amount * 10 ^ k := by rw [Dec.at, plus_value]

theorem post_eq (h : c.Good) {b : Dec} {e : Entry} (hb : b.WF c) (he : e.dec.WF c) : post c b e =
    match b.add c e.plus with
    | .ok r => (r, .ok ())
    | .throw e => (b, .throw e)
    | .ub => (b, .ub) := by
  cases e with
  | add d => rfl
  | sub d =>
    simp only [post, Entry.plus, sub_eq_add_neg' h hb (show d.WF c from he)]
    try (cases b.add c d.neg <;> rfl)

theorem post_exact (h : c.Good) {b : Dec} {e : Entry} (hb : b.WF c) (he : e.dec.WF c) {k : Nat} (hk : max b.exp e.dec.exp ≤ k) (h1 : |b.value * 10 ^ k| ≤ c.maxMan)
    (h2 : |e.amount * 10 ^ k| ≤ c.maxMan) (h3 : |(b.value + e.amount) * 10 ^ k| ≤ c.maxMan) :
    ∃ d, post c b e = (d, .ok ()) ∧ d.WF c ∧ d.exp = max b.exp e.dec.exp ∧ d.value = b.value + e.amount ∧ d.Plain := by
  obtain ⟨d, e1, e2, e3, e4, e5⟩ := add_exact h hb (plus_wf he) (k := k) (by rw [plus_exp]; exact hk) h1 (by rw [plus_at]; exact h2) (by rw [plus_value]; exact h3)
  refine ⟨d, by rw [post_eq h hb he, e1], e2, by rw [e3, plus_exp], by rw [e4, plus_value], e5⟩

/-- The largest number of digits. -/
def digits (k : Nat) : List Entry → Nat
  | [] => k
  | e :: es => digits (max k e.dec.exp) es

theorem posts_exact (h : c.Good) (k : Nat) : ∀ (es : List Entry) (b : Dec), b.WF c → b.exp ≤ k → (∀ e ∈ es, e.dec.WF c ∧ e.dec.exp ≤ k ∧ |e.amount * 10 ^ k| ≤ c.maxMan) →
    (∀ n ≤ es.length, |(b.value + total (es.take n)) * 10 ^ k| ≤ c.maxMan) →
    ∃ r, posts c b es = (r, .ok ()) ∧ r.WF c ∧ r.exp = digits b.exp es ∧ r.value = b.value + total es ∧ (es ≠ [] → r.Plain)
  | [], b, hb, _, _, _ => ⟨b, rfl, hb, rfl, by simp [total], fun h => absurd rfl h⟩
  | e :: es, b, hb, hbk, he, hn => by
    obtain ⟨he1, he2, he3⟩ := he e (by simp)
    have h0 := hn 0 (by simp)
    have h1 := hn 1 (by simp)
    simp only [List.take_zero, total, add_zero, List.take_succ_cons] at h0 h1
    obtain ⟨d, e1, e2, e3, e4, e5⟩ := post_exact h hb he1 (by omega) h0 he3 h1
    have ih := posts_exact h k es d e2 (by omega) (fun e' h' => he e' (by simp [h'])) (by
      intro n hn'
      have := hn (n + 1) (by simp; omega)
      rw [List.take_succ_cons, total, ← add_assoc] at this
      rw [e4]; exact this)
    obtain ⟨r, r1, r2, r3, r4, r5⟩ := ih
    refine ⟨r, by simp only [posts, e1, r1], r2, by rw [r3, e3, digits], by rw [r4, e4, total, add_assoc], fun _ => ?_⟩
    by_cases hes : es = []
    · subst hes
      simp only [posts, Prod.mk.injEq, and_true] at r1
      rw [← r1]; exact e5
    · exact r5 hes

theorem digits_le {k : Nat} : ∀ (es : List Entry) (j : Nat), j ≤ k → (∀ e ∈ es, e.dec.exp ≤ k) → digits j es ≤ k
  | [], _, h, _ => h
  | e :: es, j, h, he => digits_le es _ (by have := he e (by simp); omega) (fun e' h' => he e' (by simp [h']))

theorem digits_perm {es es' : List Entry} (h : es.Perm es') : ∀ k, digits k es = digits k es' := by
  induction h with
  | nil => intro k; rfl
  | cons e _ ih => intro k; exact ih _
  | swap e e' es => intro k; simp only [digits]; congr 1; omega
  | trans _ _ ih ih' => intro k; rw [ih, ih']

theorem total_perm {es es' : List Entry} (h : es.Perm es') : total es = total es' := by
  induction h with
  | nil => rfl
  | cons e _ ih => simp only [total, ih]
  | swap e e' es => simp only [total]; ring
  | trans _ _ ih ih' => rw [ih, ih']

theorem turnover_perm {es es' : List Entry} (h : es.Perm es') : turnover es = turnover es' := by
  induction h with
  | nil => rfl
  | cons e _ ih => simp only [turnover, ih]
  | swap e e' es => simp only [turnover]; ring
  | trans _ _ ih ih' => rw [ih, ih']

theorem turnover_nonneg : ∀ es : List Entry, 0 ≤ turnover es
  | [] => le_refl _
  | e :: es => by have := turnover_nonneg es; have := abs_nonneg e.amount; simp only [turnover]; linarith

theorem total_le : ∀ es : List Entry, |total es| ≤ turnover es
  | [] => by simp [total, turnover]
  | e :: es => le_trans (abs_add_le _ _) (by have := total_le es; simp only [turnover]; linarith)

theorem turnover_take : ∀ (es : List Entry) (n : Nat), turnover (es.take n) ≤ turnover es
  | [], n => by simp
  | e :: es, 0 => turnover_nonneg _
  | e :: es, n + 1 => by rw [List.take_succ_cons]; have := turnover_take es n; simp only [turnover]; linarith

theorem amount_le {e : Entry} : ∀ {es : List Entry}, e ∈ es → |e.amount| ≤ turnover es
  | e' :: es, h => by
    simp only [turnover]
    have := turnover_nonneg es
    have := abs_nonneg e'.amount
    rcases List.mem_cons.1 h with rfl | h
    · linarith
    · have := amount_le h; linarith

theorem total_append : ∀ es fs : List Entry, total (es ++ fs) = total es + total fs
  | [], fs => by simp [total]
  | e :: es, fs => by simp only [List.cons_append, total, total_append es fs]; ring

theorem turnover_append : ∀ es fs : List Entry, turnover (es ++ fs) = turnover es + turnover fs
  | [], fs => by simp [turnover]
  | e :: es, fs => by simp only [List.cons_append, turnover, turnover_append es fs]; ring

theorem back_amount (e : Entry) : e.back.amount = -e.amount := by cases e <;> simp [Entry.back, Entry.amount]
theorem back_dec (e : Entry) : e.back.dec = e.dec := by cases e <;> rfl

theorem total_back : ∀ es : List Entry, total (es.map Entry.back) = -total es
  | [] => by simp [total]
  | e :: es => by simp only [List.map_cons, total, total_back es, back_amount]; ring

theorem turnover_back : ∀ es : List Entry, turnover (es.map Entry.back) = turnover es
  | [] => rfl
  | e :: es => by simp only [List.map_cons, turnover, turnover_back es, back_amount, abs_neg]

theorem scaled_le {v w : ℚ} {k : Nat} {m : ℚ} (h : |v| ≤ w) (hw : w * 10 ^ k ≤ m) : |v * 10 ^ k| ≤ m := by
  rw [abs_mul, abs_of_pos (show (0 : ℚ) < 10 ^ k by positivity)]
  exact le_trans (mul_le_mul_of_nonneg_right h (by positivity)) hw

/-! ## The property -/

/-- C158: a balance is exact: it is what it was at the beginning and the sum of all amounts, if each amount and each balance in between can be written with `k` digits,
where `k` is at least the number of digits of each. -/
theorem c158_exact (h : c.Good) (k : Nat) (es : List Entry) (b : Dec) (hb : b.WF c) (hk : b.exp ≤ k)
    (he : ∀ e ∈ es, e.dec.WF c ∧ e.dec.exp ≤ k ∧ |e.amount * 10 ^ k| ≤ c.maxMan) (hn : ∀ n ≤ es.length, |(b.value + total (es.take n)) * 10 ^ k| ≤ c.maxMan) :
    ∃ r, posts c b es = (r, .ok ()) ∧ r.WF c ∧ r.exp ≤ k ∧ r.value = b.value + total es := by
  obtain ⟨r, h1, h2, h3, h4, _⟩ := posts_exact h k es b hb hk he hn
  refine ⟨r, h1, h2, ?_, h4⟩
  rw [h3]
  exact digits_le es b.exp hk (fun e h' => (he e h').2.1)

/-- C158: the order of the entries does not matter, not even for the bits of the balance, if all of them together fit. -/
theorem c158_order (h : c.Good) (k : Nat) (es es' : List Entry) (b : Dec) (hb : b.WF c) (hk : b.exp ≤ k) (he : ∀ e ∈ es, e.dec.WF c ∧ e.dec.exp ≤ k)
    (hn : (|b.value| + turnover es) * 10 ^ k ≤ c.maxMan) (hp : es.Perm es') :
    ∃ r, posts c b es = (r, .ok ()) ∧ posts c b es' = (r, .ok ()) ∧ r.value = b.value + total es := by
  have key : ∀ fs : List Entry, (∀ e ∈ fs, e.dec.WF c ∧ e.dec.exp ≤ k) → turnover fs = turnover es →
      ∃ r, posts c b fs = (r, .ok ()) ∧ r.WF c ∧ r.exp = digits b.exp fs ∧ r.value = b.value + total fs ∧ (fs ≠ [] → r.Plain) := by
    intro fs hf ht
    refine posts_exact h k fs b hb hk (fun e h' => ⟨(hf e h').1, (hf e h').2, scaled_le ?_ hn⟩) (fun n _ => scaled_le ?_ hn)
    · have := amount_le h'; have := abs_nonneg b.value; linarith
    · have h1 := abs_add_le b.value (total (fs.take n)); have h2 := total_le (fs.take n); have h3 := turnover_take fs n; linarith
  obtain ⟨r, h1, -, h3, h4, h5⟩ := key es he rfl
  obtain ⟨r', h1', -, h3', h4', h5'⟩ := key es' (fun e h' => he e (hp.mem_iff.2 h')) (turnover_perm hp).symm
  refine ⟨r, h1, ?_, h4⟩
  by_cases hes : es = []
  · subst hes
    rw [List.nil_perm.1 hp]; exact h1
  · have hes' : es' ≠ [] := by rintro rfl; exact hes (List.perm_nil.1 hp)
    rw [h1', dec_ext (h4'.trans (by rw [h4, total_perm hp])) (by rw [h3, h3', digits_perm hp]) (h5' hes') (h5 hes)]

/-- C158: taking the entries back, in any order, gives a balance that is equal to the one at the beginning. -/
theorem c158_back (h : c.Good) (k : Nat) (es es' : List Entry) (b : Dec) (hb : b.WF c) (hz : b.Plain) (hk : b.exp ≤ k) (he : ∀ e ∈ es, e.dec.WF c ∧ e.dec.exp ≤ k)
    (hn : (|b.value| + 2 * turnover es) * 10 ^ k ≤ c.maxMan) (hp : (es.map Entry.back).Perm es') :
    ∃ r, posts c b (es ++ es') = (r, .ok ()) ∧ r.value = b.value ∧ r.eq c b = true := by
  have hm : ∀ e ∈ es ++ es', e.dec.WF c ∧ e.dec.exp ≤ k := by
    intro e h'
    rcases List.mem_append.1 h' with h' | h'
    · exact he e h'
    · obtain ⟨e', h1, rfl⟩ := List.mem_map.1 (hp.mem_iff.2 h')
      rw [back_dec]; exact he e' h1
  have ht : turnover (es ++ es') = 2 * turnover es := by rw [turnover_append, ← turnover_perm hp, turnover_back]; ring
  have htot : total (es ++ es') = 0 := by rw [total_append, ← total_perm hp, total_back]; ring
  rw [← ht] at hn
  obtain ⟨r, h1, h2, h3, h4, h5⟩ := posts_exact h k (es ++ es') b hb hk
    (fun e h' => ⟨(hm e h').1, (hm e h').2, scaled_le (by have := amount_le h'; have := abs_nonneg b.value; linarith) hn⟩)
    (fun n _ => scaled_le (by
      have h1 := abs_add_le b.value (total ((es ++ es').take n)); have h2 := total_le ((es ++ es').take n); have h3 := turnover_take (es ++ es') n; linarith) hn)
  have hv : r.value = b.value := by rw [h4, htot, add_zero]
  refine ⟨r, h1, hv, ?_⟩
  rw [c26_equality h2 hb]
  refine ⟨?_, hv⟩
  have hr : r.Plain := by
    by_cases hes : es ++ es' = []
    · rw [hes] at h1
      simp only [posts, Prod.mk.injEq, and_true] at h1
      rw [← h1]; exact hz
    · exact h5 hes
  have sign : ∀ d : Dec, d.Plain → (d.pos = true ↔ 0 ≤ d.value) := by
    intro d hd
    have nn : (0 : ℚ) ≤ (d.man : ℚ) / 10 ^ d.exp := by positivity
    constructor
    · intro hp; rw [value_pos hp]; exact nn
    · intro h0
      by_contra hp
      rw [Bool.not_eq_true] at hp
      have := value_neg hp
      have h00 : d.value = 0 := by linarith
      rw [hd h00] at hp
      exact absurd hp (by simp)
  have h6 := sign r hr
  have h7 := sign b hz
  rw [hv] at h6
  exact Bool.eq_iff_iff.2 (h6.trans h7.symm)

/-- C158: an entry that is refused leaves the balance as it is; no entry is undefined. -/
theorem c158_refused (h : c.Good) (b : Dec) (hb : b.WF c) (e : Entry) (he : e.dec.WF c) :
    (post c b e).2 ≠ .ub ∧ (∀ x, (post c b e).2 = .throw x → (post c b e).1 = b) ∧ (post c b e).1.WF c := by
  rw [post_eq h hb he]
  have := c25_add_partial h hb (plus_wf he) rfl
  by_cases hf : |b.at (max b.exp e.plus.exp)| ≤ c.maxMan ∧ |e.plus.at (max b.exp e.plus.exp)| ≤ c.maxMan
  · obtain ⟨d, h1, h2, _⟩ := this.2 hf
    rw [h1]
    exact ⟨by simp, by simp, h2⟩
  · rw [this.1 hf]
    exact ⟨by simp, fun _ _ => rfl, hb⟩

/-- C158: if a loop of entries ends with an exception, an entry was refused, the balance is the one just before it, and no entry behind it was made; entries without an exception are all made. -/
theorem c158_stops (h : c.Good) (es : List Entry) (b : Dec) (hb : b.WF c) (he : ∀ e ∈ es, e.dec.WF c) :
    (posts c b es).2 ≠ .ub ∧ (posts c b es).1.WF c ∧
    (∀ x, (posts c b es).2 = .throw x → ∃ done e rest, es = done ++ e :: rest ∧ posts c b done = ((posts c b es).1, .ok ()) ∧ (post c (posts c b es).1 e).2 = .throw x) ∧
    ((posts c b es).2 = .ok () → (posts c b es).1 = es.foldl (fun r e => (post c r e).1) b) := by
  induction es generalizing b with
  | nil => exact ⟨by simp [posts], hb, by simp [posts], fun _ => rfl⟩
  | cons e es ih =>
    obtain ⟨n1, n2, n3⟩ := c158_refused h b hb e (he e List.mem_cons_self)
    rcases hp : post c b e with ⟨r, _ | x | _⟩
    · rw [hp] at n3
      obtain ⟨i1, i2, i3, i4⟩ := ih r n3 (fun e' h' => he e' (List.mem_cons_of_mem _ h'))
      have hps : posts c b (e :: es) = posts c r es := by simp only [posts, hp]
      rw [hps]
      refine ⟨i1, i2, fun x hx => ?_, fun hx => ?_⟩
      · obtain ⟨done, e', rest, h1, h2, h3⟩ := i3 x hx
        exact ⟨e :: done, e', rest, by rw [h1]; rfl, by simp only [posts, hp]; exact h2, h3⟩
      · rw [i4 hx, List.foldl_cons, hp]
    · rw [hp] at n2
      have hr : r = b := n2 x rfl
      subst hr
      have hps : posts c r (e :: es) = (r, .throw x) := by simp only [posts, hp]
      rw [hps]
      refine ⟨by simp, hb, fun y hy => ?_, by simp⟩
      cases hy
      exact ⟨[], e, es, rfl, rfl, by rw [hp]⟩
    · rw [hp] at n1; exact (n1 rfl).elim

/-- The greatest decimal can be counted down, but not be given a digit: the second entry is refused and the third one is not made. -/
example : posts c64 ⟨true, 0, 2 ^ 59 - 1⟩ [.sub ⟨true, 0, 1⟩, .add ⟨true, 1, 5⟩, .sub ⟨true, 0, 1⟩] = (⟨true, 0, 2 ^ 59 - 2⟩, .throw .logic) := by decide +kernel

/-- C158: the same amount added to both sides keeps the order. -/
theorem c158_monotone (h : c.Good) (k : Nat) (x y : Dec) (e : Entry) (hx : x.WF c) (hy : y.WF c) (he : e.dec.WF c) (hz : ¬ ZeroPair x y)
    (hk : x.exp ≤ k ∧ y.exp ≤ k ∧ e.dec.exp ≤ k) (h1 : (|x.value| + |e.amount|) * 10 ^ k ≤ c.maxMan) (h2 : (|y.value| + |e.amount|) * 10 ^ k ≤ c.maxMan) :
    ∃ x' y', post c x e = (x', .ok ()) ∧ post c y e = (y', .ok ()) ∧ x'.lt c y' = x.lt c y ∧ x'.le c y' = x.le c y ∧ x'.eq c y' = x.eq c y := by
  have nx := abs_nonneg x.value
  have ny := abs_nonneg y.value
  have ne := abs_nonneg e.amount
  obtain ⟨x', a1, a2, -, a4, a5⟩ := post_exact h hx he (k := k) (by omega) (scaled_le (by linarith) h1) (scaled_le (by linarith) h1) (scaled_le (abs_add_le _ _) h1)
  obtain ⟨y', b1, b2, -, b4, b5⟩ := post_exact h hy he (k := k) (by omega) (scaled_le (by linarith) h2) (scaled_le (by linarith) h2) (scaled_le (abs_add_le _ _) h2)
  refine ⟨x', y', a1, b1, ?_⟩
  have hz' : ¬ ZeroPair x' y' := fun hc => hc.2.2 ((a5 hc.1).trans (b5 hc.2.1).symm)
  obtain ⟨p1, -, p3, -, p5⟩ := c26_numeric_order_partial h hx hy hz
  obtain ⟨q1, -, q3, -, q5⟩ := c26_numeric_order_partial h a2 b2 hz'
  rw [p1, p3, p5, q1, q3, q5, a4, b4]
  simp

/-! ## Samples -/

/-- 10.00 + 2.5 - 0.125 + 1 -/
example : posts c64 ⟨true, 2, 1000⟩ [.add ⟨true, 1, 25⟩, .sub ⟨true, 3, 125⟩, .add ⟨true, 0, 1⟩] = (⟨true, 3, 13375⟩, .ok ()) := by decide +kernel

/-- The entries in another order. -/
example : ∃ r, posts c64 ⟨true, 2, 1000⟩ [.add ⟨true, 1, 25⟩, .sub ⟨true, 3, 125⟩, .add ⟨true, 0, 1⟩] = (r, .ok ()) ∧
    posts c64 ⟨true, 2, 1000⟩ [.add ⟨true, 0, 1⟩, .add ⟨true, 1, 25⟩, .sub ⟨true, 3, 125⟩] = (r, .ok ()) ∧
    r.value = Dec.value ⟨true, 2, 1000⟩ + total [.add ⟨true, 1, 25⟩, .sub ⟨true, 3, 125⟩, .add ⟨true, 0, 1⟩] :=
  c158_order c64_good 3 _ _ _ (by simp [Dec.WF, c64, Cfg.manLen]) (by decide) (by simp [Dec.WF, c64, Cfg.manLen, Entry.dec]) (by simp [Dec.value, turnover, Entry.amount, Cfg.maxMan, Cfg.manLen, c64]; norm_num [abs_of_pos, abs_of_neg])
    (by decide)

/-- -3.5 and entries that are taken back in another order. -/
example : ∃ r, posts c64 ⟨false, 1, 35⟩ ([.add ⟨true, 1, 35⟩, .sub ⟨true, 3, 125⟩] ++ [.sub ⟨true, 1, 35⟩, .add ⟨true, 3, 125⟩]) = (r, .ok ()) ∧
    r.value = Dec.value ⟨false, 1, 35⟩ ∧ r.eq c64 ⟨false, 1, 35⟩ = true :=
  c158_back c64_good 3 _ _ _ (by simp [Dec.WF, c64, Cfg.manLen]) (by simp [Dec.Plain, Dec.value]) (by decide) (by simp [Dec.WF, c64, Cfg.manLen, Entry.dec])
    (by simp [Dec.value, turnover, Entry.amount, Cfg.maxMan, Cfg.manLen, c64]; norm_num [abs_of_pos, abs_of_neg]) (by decide)

/-- The greatest decimal minus 1 plus 1: the balances in between fit, though not all entries together do. -/
example : ∃ r, posts c64 ⟨true, 0, 2 ^ 59 - 1⟩ [.sub ⟨true, 0, 1⟩, .add ⟨true, 0, 1⟩] = (r, .ok ()) ∧ r.WF c64 ∧ r.exp ≤ 0 ∧
    r.value = Dec.value ⟨true, 0, 2 ^ 59 - 1⟩ + total [.sub ⟨true, 0, 1⟩, .add ⟨true, 0, 1⟩] :=
  c158_exact c64_good 0 _ _ (by simp [Dec.WF, c64, Cfg.manLen]) (by decide)
    (by simp [Dec.WF, c64, Cfg.manLen, Cfg.maxMan, Entry.dec, Entry.amount, Dec.value])
    (by
      intro n hn
      simp only [List.length_cons, List.length_nil] at hn
      rcases n with _ | _ | _ | n
      · simp [Dec.value, total, Cfg.maxMan, Cfg.manLen, c64]
      · simp [Dec.value, total, Entry.amount, Cfg.maxMan, Cfg.manLen, c64]; norm_num [abs_of_pos]
      · simp [Dec.value, total, Entry.amount, Cfg.maxMan, Cfg.manLen, c64]
      · omega)

/-- 1.5 < 1.75, so 1.5 - 2.125 < 1.75 - 2.125. -/
example : ∃ x' y', post c64 ⟨true, 1, 15⟩ (.sub ⟨true, 3, 2125⟩) = (x', .ok ()) ∧ post c64 ⟨true, 2, 175⟩ (.sub ⟨true, 3, 2125⟩) = (y', .ok ()) ∧
    x'.lt c64 y' = Dec.lt c64 ⟨true, 1, 15⟩ ⟨true, 2, 175⟩ ∧ x'.le c64 y' = Dec.le c64 ⟨true, 1, 15⟩ ⟨true, 2, 175⟩ ∧
    x'.eq c64 y' = Dec.eq c64 ⟨true, 1, 15⟩ ⟨true, 2, 175⟩ :=
  c158_monotone c64_good 3 _ _ _ (by simp [Dec.WF, c64, Cfg.manLen]) (by simp [Dec.WF, c64, Cfg.manLen]) (by simp [Dec.WF, c64, Cfg.manLen, Entry.dec])
    (by simp [ZeroPair, Dec.value]) (by simp [Entry.dec]) (by simp [Dec.value, Entry.amount, Cfg.maxMan, Cfg.manLen, c64]; norm_num [abs_of_pos])
    (by simp [Dec.value, Entry.amount, Cfg.maxMan, Cfg.manLen, c64]; norm_num [abs_of_pos])

/-- C158: all entries together have to fit: the greatest decimal, 1 and -1 give the greatest decimal or -1. -/
theorem c158_too_large : ∃ b e e', posts c64 b [e, e'] = (⟨false, 0, 1⟩, .ok ()) ∧ posts c64 b [e', e] = (⟨true, 0, 2 ^ 59 - 1⟩, .ok ()) :=
  ⟨⟨true, 0, 2 ^ 59 - 1⟩, .add ⟨true, 0, 1⟩, .sub ⟨true, 0, 1⟩, by decide +kernel, by decide +kernel⟩

end Verif.Decimal
