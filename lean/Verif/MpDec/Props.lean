import Verif.MpDec.Lemmas
import Verif.Decimal.Props

/-! # C179: decimals over Boost integers -/

namespace Verif.MpDec

open Verif.Multiprec

/-- C179 (part): a program with decimals sees the same over a Boost type of `w` bits as over a built-in type of `w` bits, if what it does is defined there.
Missing: types whose `sizeof` is not the number of their bytes (`c179_wide_violated`), and products that do not fit (`c179_product_violated`). -/
theorem c179_same_partial (w e sz : Nat) (hw : 8 ≤ w) (he : e + 1 < w) (he8 : e ≤ 8) (hsz : (sz * 8 - (e + 1)) % 256 = w - (e + 1))
    (p : List Stmt) (seen : List Seen) (h : start (builtin ⟨w, e⟩) p = .ok seen) : start (boost ⟨w, e, sz⟩) p = .ok seen := by
  have hg : Ty.Good ⟨w, e, sz⟩ := ⟨hw, he, he8, hsz⟩
  have hr := ref_run hg p (vars := fun _ => (builtin ⟨w, e⟩).zero) (words := fun _ => (boost ⟨w, e, sz⟩).zero) (fun _ => abs_zero hg)
  have h' : run (builtin (Ty.cfg ⟨w, e, sz⟩)) (fun _ => (builtin ⟨w, e⟩).zero) p = .ok seen := h
  rw [h'] at hr
  obtain ⟨_, h1, rfl⟩ := hr
  exact h1

/-- The type of the tests. -/
def u128 : Ty := ⟨128, 4, 16⟩

/-- A program: 1.50 + 0.25, compared, printed, rescaled to fewer digits (throws), rounded up, multiplied. -/
def sample : List Stmt :=
  [.parse 0 [49, 46, 53, 48], .parse 1 [48, 46, 50, 53], .add 2 0 1, .look 2, .lt 1 2, .neg 3 2, .print 3, .rescale 4 2 1 true, .ceil 4 2 1, .print 4, .mul 5 2 2, .print 5,
   .ofMantissa 6 (-150) 2, .sub 6 6 0, .print 6, .eq 6 3]

def sampleSeen : List Seen :=
  [.done, .done, .done, .parts true 2 175 5604, .bool true, .done, .text [45, 49, 46, 55, 53], .threw .logic, .done, .text [49, 46, 56], .done, .text [51, 46, 48, 54, 50, 53],
   .done, .done, .text [45, 51, 46, 48, 48], .bool false]

example : (16 * 8 - (4 + 1)) % 256 = 128 - (4 + 1) ∧ start (builtin ⟨128, 4⟩) sample = .ok sampleSeen := by decide +kernel
example : start (boost u128) sample = .ok sampleSeen := by decide +kernel

/-! ## Nothing is undefined -/

variable {t : Ty}

theorem denom_defined {k : Nat} (hk : k < 2 ^ t.e) : t.denom k ≠ .ub := by unfold Ty.denom; rw [if_pos hk]; simp

theorem nonzero_defined (b : t.Word) : t.nonzero b ≠ .ub := by unfold Ty.nonzero; split <;> simp

theorem ok_defined {α : Type} {a : α} : Res.ok a ≠ .ub := by simp

theorem bind_defined {α β : Type} {x : Res α} {f : α → Res β} (hx : x ≠ .ub) (hf : ∀ a, f a ≠ .ub) : (x >>= f) ≠ .ub := by
  cases x with
  | ok a => exact hf a
  | throw e => simp
  | ub => exact (hx rfl).elim

section
variable (h : t.Good)
include h

theorem le_maxExp {digits : Nat} (hd : ¬ digits > t.maxExp) : digits < 2 ^ t.e := by
  have : 0 < 2 ^ t.e := Nat.two_pow_pos _
  rw [maxExp_eq h] at hd
  simp only [Decimal.Cfg.maxExp, Ty.cfg] at hd
  omega

theorem exp_small (m : t.Word) : exp t.e m < 2 ^ t.e := by rw [exp_abs h]; exact exp_lt m

theorem extend_defined (m : t.Word) (digits : Nat) : extendSelf t m digits ≠ .ub := by
  unfold extendSelf checkExp
  split
  · by_cases hd : digits > t.maxExp
    · rw [if_pos hd]; simp
    · rw [if_neg hd]
      simp only [Res.ok_bind]
      refine bind_defined ?_ (fun _ => by simp)
      split
      · refine bind_defined (denom_defined (Nat.lt_of_le_of_lt (Nat.sub_le _ _) (le_maxExp h hd))) (fun _ => ?_)
        split <;> simp
      · simp
  · simp

theorem trim_defined (m : t.Word) (digits : Nat) (check : Bool) : trimSelf t m digits check ≠ .ub := by
  unfold trimSelf
  split
  · refine bind_defined (denom_defined (Nat.lt_of_le_of_lt (Nat.sub_le _ _) (exp_small h m))) (fun b => bind_defined (nonzero_defined b) (fun _ => ?_))
    split <;> simp
  · simp

theorem rescale_defined (m : t.Word) (digits : Nat) (check : Bool) : rescaleSelf t m digits check ≠ .ub := by
  unfold rescaleSelf
  split
  · exact extend_defined h m digits
  · split
    · exact trim_defined h m digits check
    · simp

theorem ceil_defined (m : t.Word) (digits : Nat) : ceilSelf t m digits ≠ .ub := by
  unfold ceilSelf
  split
  · exact bind_defined (denom_defined (Nat.lt_of_le_of_lt (Nat.sub_le _ _) (exp_small h m))) (fun b => bind_defined (nonzero_defined b) (fun _ => by simp))
  · simp

theorem align_defined (a b : t.Word) : align t a b ≠ .ub := by
  unfold align
  split
  · exact bind_defined (rescale_defined h _ _ _) (fun _ => by simp)
  · split
    · exact bind_defined (rescale_defined h _ _ _) (fun _ => by simp)
    · simp

theorem comparePositive_defined (a b : t.Word) (comp : Nat → Nat → Bool) : comparePositive t a b comp ≠ .ub := by
  unfold comparePositive
  refine bind_defined (denom_defined (exp_small h a)) (fun x => bind_defined (denom_defined (exp_small h b)) (fun y =>
    bind_defined (nonzero_defined x) (fun _ => bind_defined (nonzero_defined y) (fun _ => ?_))))
  split
  · simp
  · dsimp only
    split
    · exact bind_defined (denom_defined (Nat.lt_of_le_of_lt (Nat.sub_le _ _) (exp_small h a))) (fun _ => by simp)
    · split
      · exact bind_defined (denom_defined (Nat.lt_of_le_of_lt (Nat.sub_le _ _) (exp_small h b))) (fun _ => by simp)
      · simp

theorem compare_defined (a b : t.Word) (comp : Nat → Nat → Bool) : compare t a b comp ≠ .ub := by
  unfold compare
  split
  · exact comparePositive_defined h _ _ _
  · split
    · exact comparePositive_defined h _ _ _
    · simp

theorem print_defined (m : t.Word) : print t m ≠ .ub := by
  unfold print
  exact bind_defined (denom_defined (exp_small h m)) (fun x => bind_defined (nonzero_defined x) (fun _ => by simp))

omit h in
theorem doAppend_defined (p : PS t) (digit : Nat) : doAppend t p digit ≠ .ub := by
  unfold doAppend; dsimp only; split <;> simp

omit h in
theorem flush_defined (n : Nat) : ∀ p : PS t, flush t p n ≠ .ub := by
  induction n with
  | zero => intro p; simp [flush]
  | succ n ih => intro p; exact bind_defined (doAppend_defined p 0) ih

omit h in
theorem parseLoop_defined (point : Bool) (s : List Nat) : ∀ p : PS t, parseLoop t point p s ≠ .ub := by
  induction s with
  | nil => intro p; simp [parseLoop]
  | cons ch rest ih =>
    intro p
    unfold parseLoop
    split
    · simp
    · refine bind_defined (by unfold Decimal.symbolToDigit; split <;> simp) (fun d => bind_defined ?_ ih)
      unfold append
      split
      · split
        · exact doAppend_defined _ _
        · simp
      · split
        · simp
        · exact bind_defined (flush_defined _ _) (fun _ => doAppend_defined _ _)

theorem fromString_defined {s : List Nat} (hs : s ≠ []) : fromString t s ≠ .ub := by
  cases s with
  | nil => exact (hs rfl).elim
  | cons ch rest =>
    unfold fromString
    refine bind_defined (parseLoop_defined _ _ _) (fun a => bind_defined (parseLoop_defined _ _ _) (fun b => ?_))
    obtain ⟨left, pf⟩ := b
    dsimp only
    split
    · simp
    · unfold checkExp
      by_cases hd : pf.digits > t.maxExp
      · rw [if_pos hd]; simp
      · rw [if_neg hd]
        simp only [Res.ok_bind]
        refine bind_defined (denom_defined (le_maxExp h hd)) (fun x => bind_defined (nonzero_defined x) (fun _ => ?_))
        split
        · simp
        · split <;> simp

omit h in
theorem assign_defined {D : Type} (vars : Nat → D) (x : Nat) {r : Res D} (hr : r ≠ .ub) : assign vars x r ≠ .ub := by
  cases r with
  | ok a => simp [assign]
  | throw e => simp [assign]
  | ub => exact (hr rfl).elim

omit h in
theorem show_defined {D α : Type} (vars : Nat → D) (f : α → Seen) {r : Res α} (hr : r ≠ .ub) : show_ vars f r ≠ .ub := by
  cases r with
  | ok a => simp [show_]
  | throw e => simp [show_]
  | ub => exact (hr rfl).elim

theorem exec_defined (words : Nat → t.Word) (s : Stmt) (hs : ∀ x, s ≠ .parse x []) : exec (boost t) words s ≠ .ub := by
  cases s with
  | ofMantissa x v d => exact assign_defined _ _ ok_defined
  | parse x s => exact assign_defined _ _ (fromString_defined h (fun hc => hs x (by rw [hc])))
  | neg x a => exact assign_defined _ _ ok_defined
  | add x a b => exact assign_defined _ _ (bind_defined (align_defined h _ _) (fun _ => by simp))
  | sub x a b => exact assign_defined _ _ (bind_defined (align_defined h _ _) (fun _ => by simp))
  | mul x a b => exact assign_defined _ _ ok_defined
  | rescale x a d check => exact assign_defined _ _ (rescale_defined h _ _ _)
  | extend x a d => exact assign_defined _ _ (extend_defined h _ _)
  | truncate x a d => exact assign_defined _ _ (trim_defined h _ _ _)
  | ceil x a d => exact assign_defined _ _ (ceil_defined h _ _)
  | normalize x a => exact assign_defined _ _ ok_defined
  | eq a b => exact show_defined _ _ ok_defined
  | lt a b => exact show_defined _ _ (compare_defined h _ _ _)
  | le a b => exact show_defined _ _ (compare_defined h _ _ _)
  | gt a b => exact show_defined _ _ (compare_defined h _ _ _)
  | ge a b => exact show_defined _ _ (compare_defined h _ _ _)
  | print a => exact show_defined _ _ (print_defined h _)
  | look a => simp [exec]

end

/-- C179: over a Boost type no program does anything undefined, unless it converts an empty text. -/
theorem c179_defined (w e sz : Nat) (hw : 8 ≤ w) (he : e + 1 < w) (he8 : e ≤ 8) (hsz : (sz * 8 - (e + 1)) % 256 = w - (e + 1))
    (p : List Stmt) (hp : ∀ x, Stmt.parse x [] ∉ p) : ∃ seen, start (boost ⟨w, e, sz⟩) p = .ok seen ∧ seen.length = p.length := by
  have hg : Ty.Good ⟨w, e, sz⟩ := ⟨hw, he, he8, hsz⟩
  have key : ∀ (p : List Stmt) (vars : Nat → (Ty.mk w e sz).Word), (∀ x, Stmt.parse x [] ∉ p) → ∃ seen, run (boost ⟨w, e, sz⟩) vars p = .ok seen ∧ seen.length = p.length := by
    intro p
    induction p with
    | nil => intro vars _; exact ⟨[], rfl, rfl⟩
    | cons s ss ih =>
      intro vars hp
      have h1 := exec_defined hg vars s (fun x hx => hp x (by rw [hx]; exact List.mem_cons_self))
      rcases hr : exec (boost ⟨w, e, sz⟩) vars s with ⟨vars', o⟩ | ex | _
      · obtain ⟨os, h3, h4⟩ := ih vars' (fun x hx => hp x (List.mem_cons_of_mem _ hx))
        exact ⟨o :: os, by simp only [run, hr, Res.ok_bind, h3], by simp [h4]⟩
      · exfalso
        revert hr
        cases s <;> simp only [exec, assign, show_] <;> (try split) <;> simp
      · exact (h1 hr).elim
  exact key p _ hp

example : ∀ x, Stmt.parse x [] ∉ sample := by intro x; simp [sample]

/-! ## As numbers -/

/-- The number a word stands for: the lowest bit is the sign, the next `e` bits count the digits behind the point, the other bits are the mantissa. -/
def number (e : Nat) {w : Nat} (m : BitVec w) : ℚ := (if m.toNat % 2 = 0 then 1 else -1) * (m.toNat / 2 ^ (e + 1) : Nat) / 10 ^ (m.toNat / 2 % 2 ^ e)

theorem number_eq (m : t.Word) : number t.e m = (abs t m).value := by
  simp only [number, Decimal.Dec.value, abs, signField, expField, manField]
  have : (m.getLsbD 0 = false) ↔ m.toNat % 2 = 0 := by
    rw [BitVec.getLsbD, Nat.testBit_zero]; simp
  by_cases hm : m.toNat % 2 = 0
  · simp [hm, this.2 hm]
  · have h1 : m.getLsbD 0 = true := by
      cases hb : m.getLsbD 0 with
      | true => rfl
      | false => exact (hm (this.1 hb)).elim
    simp [hm, h1]

theorem abs_wf (h : t.Good) (m : t.Word) : (abs t m).WF t.cfg := by
  refine ⟨exp_lt m, ?_⟩
  have hr := h.room
  have hm : m.toNat < 2 ^ t.w := m.isLt
  simp only [abs, manField, Decimal.Cfg.manLen, Ty.cfg]
  refine Nat.div_lt_of_lt_mul ?_
  rw [← Nat.pow_add]
  have : t.e + 1 + (t.w - (t.e + 1)) = t.w := by omega
  rwa [this]

/-- C179: the limits of the type bound all its decimals. -/
theorem c179_limits_partial (w e sz : Nat) (hw : 8 ≤ w) (h1 : 1 ≤ e) (he : e + 1 < w) (he8 : e ≤ 8) (hsz : (sz * 8 - (e + 1)) % 256 = w - (e + 1)) (hp : 10 ^ (2 ^ e - 1) < 2 ^ w)
    (m : BitVec w) : number e m ≤ number e (maxValue ⟨w, e, sz⟩) ∧ number e (minValue ⟨w, e, sz⟩) ≤ number e m ∧
    compare ⟨w, e, sz⟩ m (maxValue ⟨w, e, sz⟩) (fun a b => decide (a ≤ b)) = .ok true ∧
    compare ⟨w, e, sz⟩ (minValue ⟨w, e, sz⟩) m (fun a b => decide (a ≤ b)) = .ok true := by
  have hg : Ty.Good ⟨w, e, sz⟩ := ⟨hw, he, he8, hsz⟩
  obtain ⟨mx, mn, hmx, hmn, _, _, hall⟩ := Decimal.c75_limits (c := ⟨w, e⟩) ⟨h1, he, hp⟩
  have hr := ref_fromMantissa hg ((Ty.maxMan ⟨w, e, sz⟩).toNat : Int) 0
  rw [maxMan_toNat hg] at hr
  rw [show Decimal.fromMantissa (Ty.cfg ⟨w, e, sz⟩) ((Ty.cfg ⟨w, e, sz⟩).maxMan : Int) 0 = .ok mx from hmx] at hr
  obtain ⟨b, hb, hbm⟩ := hr
  cases hb
  have hb : abs ⟨w, e, sz⟩ (maxValue ⟨w, e, sz⟩) = mx := by rw [← hbm, maxValue, maxMan_toNat hg]
  obtain ⟨h2, h3, h4, h5⟩ := hall (abs ⟨w, e, sz⟩ m) (abs_wf hg m)
  have hn : abs ⟨w, e, sz⟩ (minValue ⟨w, e, sz⟩) = mn := by
    simp only [Decimal.minValue] at hmn
    rw [show Decimal.fromMantissa ⟨w, e⟩ ((Decimal.Cfg.mk w e).maxMan : Int) 0 = .ok mx from hmx] at hmn
    cases hmn
    rw [← hb]
    exact abs_negate hg _
  have n1 : number e m = (abs ⟨w, e, sz⟩ m).value := number_eq (t := ⟨w, e, sz⟩) m
  have n2 : number e (maxValue ⟨w, e, sz⟩) = mx.value := by rw [← hb]; exact number_eq (t := ⟨w, e, sz⟩) _
  have n3 : number e (minValue ⟨w, e, sz⟩) = mn.value := by rw [← hn]; exact number_eq (t := ⟨w, e, sz⟩) _
  refine ⟨by rw [n1, n2]; exact h3, by rw [n1, n3]; exact h2, ?_, ?_⟩
  · have hc := ref_compare hg m (maxValue ⟨w, e, sz⟩) (fun a b => decide (a ≤ b))
    rw [hb] at hc
    rw [show Decimal.compare (Ty.cfg ⟨w, e, sz⟩) (abs ⟨w, e, sz⟩ m) mx (fun a b => decide (a ≤ b)) = .ok true from h4] at hc
    obtain ⟨_, hc, rfl⟩ := hc
    exact hc
  · have hc := ref_compare hg (minValue ⟨w, e, sz⟩) m (fun a b => decide (a ≤ b))
    rw [hn] at hc
    rw [show Decimal.compare (Ty.cfg ⟨w, e, sz⟩) mn (abs ⟨w, e, sz⟩ m) (fun a b => decide (a ≤ b)) = .ok true from h5] at hc
    obtain ⟨_, hc, rfl⟩ := hc
    exact hc

/-- C179: a sum that fits, with the larger of the two numbers of digits, is exact. -/
theorem c179_sum_partial (w e sz : Nat) (hw : 8 ≤ w) (h1 : 1 ≤ e) (he : e + 1 < w) (he8 : e ≤ 8) (hsz : (sz * 8 - (e + 1)) % 256 = w - (e + 1)) (hp : 10 ^ (2 ^ e - 1) < 2 ^ w)
    (x y : BitVec w) (k : Nat) (hk : k = max (x.toNat / 2 % 2 ^ e) (y.toNat / 2 % 2 ^ e))
    (hx : |number e x * 10 ^ k| ≤ (2 ^ (w - (e + 1)) - 1 : Nat)) (hy : |number e y * 10 ^ k| ≤ (2 ^ (w - (e + 1)) - 1 : Nat))
    (hs : |(number e x + number e y) * 10 ^ k| ≤ (2 ^ (w - (e + 1)) - 1 : Nat)) :
    ∃ z, add ⟨w, e, sz⟩ x y = .ok z ∧ number e z = number e x + number e y ∧ z.toNat / 2 % 2 ^ e = k := by
  have hg : Ty.Good ⟨w, e, sz⟩ := ⟨hw, he, he8, hsz⟩
  have nx : number e x = (abs ⟨w, e, sz⟩ x).value := number_eq (t := ⟨w, e, sz⟩) x
  have ny : number e y = (abs ⟨w, e, sz⟩ y).value := number_eq (t := ⟨w, e, sz⟩) y
  rw [nx] at hx hs
  rw [ny] at hy hs
  obtain ⟨d, hd, _, hde, hdv⟩ := (Decimal.c25_add_partial (c := ⟨w, e⟩) ⟨h1, he, hp⟩ (abs_wf hg x) (abs_wf hg y) (k := k) hk).2 ⟨hx, hy⟩
  have hr := ref_add hg x y
  rw [show (abs ⟨w, e, sz⟩ x).add (Ty.cfg ⟨w, e, sz⟩) (abs ⟨w, e, sz⟩ y) = .ok d from hd] at hr
  obtain ⟨z, hz, rfl⟩ := hr
  refine ⟨z, hz, ?_, hde⟩
  rw [nx, ny, show number e z = (abs ⟨w, e, sz⟩ z).value from number_eq (t := ⟨w, e, sz⟩) z]
  exact hdv.2 hs

/-- 1.50 and 0.25 -/
example : number 4 (4804#128) = 3 / 2 ∧ number 4 (804#128) = 1 / 4 ∧ add u128 4804#128 804#128 = .ok 5604#128 ∧ number 4 (5604#128) = 7 / 4 ∧
    max (4804 / 2 % 2 ^ 4) (804 / 2 % 2 ^ 4) = 2 ∧ |(3 / 2 + 1 / 4 : ℚ) * 10 ^ 2| ≤ ((2 ^ (128 - (4 + 1)) - 1 : Nat) : ℚ) ∧ (10 : Nat) ^ (2 ^ 4 - 1) < 2 ^ 128 := by
  refine ⟨by norm_num [number], by norm_num [number], by decide +kernel, by norm_num [number], by decide, by rw [abs_of_pos (by norm_num)]; norm_num, by decide⟩

/-- C179 is violated by products that do not fit, although `multiply` is said to throw then: 18446744073709551616 (2 ^ 64) times itself is 0. -/
theorem c179_product_violated : start (boost u128) [.ofMantissa 0 (2 ^ 64) 0, .mul 1 0 0, .print 1] = .ok [.done, .done, .text [48]] ∧
    start (boost u128) [.ofMantissa 0 (2 ^ 64) 0, .print 0] = .ok [.done, .text (Decimal.chars (Decimal.digitsOf (2 ^ 64)))] := by decide +kernel

/-- `uint256_t` where `sizeof` is 48 (four limbs, their number and padding). -/
def u256 : Ty := ⟨256, 4, 48⟩

/-- C179 is violated by wider types, whose `sizeof` is more than the number of their bytes: the text of 2 ^ 123 is refused although the mantissa has 251 bits; with a built-in type of
256 bits it would be accepted. -/
theorem c179_wide_violated : start (boost u256) [.parse 0 (Decimal.chars (Decimal.digitsOf (2 ^ 123)))] = .ok [.threw .logic] ∧
    start (builtin ⟨256, 4⟩) [.parse 0 (Decimal.chars (Decimal.digitsOf (2 ^ 123)))] = .ok [.done] ∧
    start (boost u256) [.ofMantissa 0 (2 ^ 123) 0, .look 0] = .ok [.done, .parts true 0 (2 ^ 123) (2 ^ 128)] := by decide +kernel

/-- C179 is violated: `numeric_limits::max()` of such a type is below other decimals of it. -/
theorem c179_limits_violated : compare u256 (maxValue u256) (fromMantissa u256 (2 ^ 123) 0) (fun a b => decide (a < b)) = .ok true := by decide +kernel

end Verif.MpDec
