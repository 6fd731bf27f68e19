import Verif.Time.Model
import Verif.StopWatch.Props
import Verif.Decimal.Text

/-!
# C123: printed durations, C124: times made of dates
-/

namespace Verif.Time

open Verif Verif.StopWatch Verif.Decimal

/-! ## C123 -/

/-- The text shows the duration: hours, minutes, seconds and fraction, with a sign. -/
structure Shows (t : List Nat) (w : Nat) (neg : Bool) (H M S F : List Nat) : Prop where
  text : t = (if neg then [45] else []) ++ chars H ++ 58 :: chars M ++ 58 :: chars S ++ (if w ≠ 0 then 46 :: chars F else [])
  digits : ∀ d ∈ H ++ M ++ S ++ F, d < 10
  lengths : 2 ≤ H.length ∧ M.length = 2 ∧ S.length = 2 ∧ F.length = w
  ranges : number M < 60 ∧ number S < 60

/-- The count of the shown duration. -/
def value (w : Nat) (neg : Bool) (H M S F : List Nat) : Int :=
  let a : Int := ((number H * 60 + number M) * 60 + number S) * 10 ^ w + number F
  if neg then -a else a

theorem chars_len (l : List Nat) : (chars l).length = l.length := by simp [chars]

theorem chars_inj : ∀ {l l' : List Nat}, chars l = chars l' → l = l'
  | [], [], _ => rfl
  | [], _ :: _, h => by simp [chars] at h
  | _ :: _, [], h => by simp [chars] at h
  | a :: l, b :: l', h => by
    simp only [chars, List.map_cons, List.cons.injEq] at h
    have := chars_inj (l := l) (l' := l') h.2
    rw [this, Nat.add_right_cancel h.1]

theorem two_spec (n : Nat) : ∃ D, two n = chars D ∧ number D = n ∧ (∀ d ∈ D, d < 10) ∧ 2 ≤ D.length ∧ (n < 100 → D.length = 2) := by
  obtain ⟨h1, h2, h3, _⟩ := digitsOf_spec n
  refine ⟨pad 2 (digitsOf n), rfl, ?_, ?_, ?_, ?_⟩
  · rw [pad, number_append, number_replicate]
    simpa using h1
  · intro d hd
    simp only [pad, List.mem_append, List.mem_replicate] at hd
    rcases hd with ⟨_, rfl⟩ | hd
    · omega
    · exact h2 d hd
  · simp [pad]
    omega
  · intro hn
    have := h3 2 (by omega) (by simpa using hn)
    simp [pad]
    omega

theorem frac_spec (w n : Nat) (h : n < 10 ^ w) : ∃ D, (if w ≠ 0 then 46 :: chars (pad w (digitsOf n)) else []) = (if w ≠ 0 then 46 :: chars D else []) ∧ number D = n ∧
    (∀ d ∈ D, d < 10) ∧ D.length = w := by
  by_cases hw : w = 0
  · subst hw
    have : n = 0 := by simpa using h
    subst this
    exact ⟨[], by simp, rfl, by simp, rfl⟩
  · obtain ⟨h1, h2, h3, _⟩ := digitsOf_spec n
    obtain ⟨h4, h5⟩ := pad_spec (h3 w (by omega) h)
    refine ⟨pad w (digitsOf n), rfl, by rw [h4, h1], ?_, h5⟩
    intro d hd
    simp only [pad, List.mem_append, List.mem_replicate] at hd
    rcases hd with ⟨_, rfl⟩ | hd
    · omega
    · exact h2 d hd

theorem hms_parts (w a : Nat) : ∃ h m s f, a = ((h * 60 + m) * 60 + s) * 10 ^ w + f ∧ m < 60 ∧ s < 60 ∧ f < 10 ^ w ∧ h = a / (3600 * 10 ^ w) ∧
    m = (a - h * (3600 * 10 ^ w)) / (60 * 10 ^ w) ∧ s = (a - h * (3600 * 10 ^ w) - m * (60 * 10 ^ w)) / 10 ^ w ∧
    f = a - h * (3600 * 10 ^ w) - m * (60 * 10 ^ w) - s * 10 ^ w := by
  have hu : 0 < 10 ^ w := by positivity
  generalize 10 ^ w = u at *
  have e1 : a - a / (3600 * u) * (3600 * u) = a % (3600 * u) := by rw [Nat.mul_comm]; exact (Nat.mod_eq_sub_mul_div ..).symm
  have l1 : a % (3600 * u) < 3600 * u := Nat.mod_lt _ (by omega)
  have d1 : 3600 * u * (a / (3600 * u)) + a % (3600 * u) = a := Nat.div_add_mod _ _
  refine ⟨a / (3600 * u), _, _, _, ?_, ?_, ?_, ?_, rfl, rfl, rfl, rfl⟩
  all_goals rw [e1]
  all_goals generalize a % (3600 * u) = b at *
  all_goals
    have e2 : b - b / (60 * u) * (60 * u) = b % (60 * u) := by rw [Nat.mul_comm]; exact (Nat.mod_eq_sub_mul_div ..).symm
    have l2 : b % (60 * u) < 60 * u := Nat.mod_lt _ (by omega)
    have d2 : 60 * u * (b / (60 * u)) + b % (60 * u) = b := Nat.div_add_mod _ _
    try rw [e2]
  all_goals try generalize b % (60 * u) = c at *
  all_goals
    have e3 : c - c / u * u = c % u := by rw [Nat.mul_comm]; exact (Nat.mod_eq_sub_mul_div ..).symm
    have l3 : c % u < u := Nat.mod_lt _ hu
    have d3 : u * (c / u) + c % u = c := Nat.div_add_mod _ _
    try rw [e3]
  · rw [show ((a / (3600 * u) * 60 + b / (60 * u)) * 60 + c / u) * u + c % u = 3600 * u * (a / (3600 * u)) + (60 * u * (b / (60 * u)) + (u * (c / u) + c % u)) by ring,
      d3, d2, d1]
  · exact (Nat.div_lt_iff_lt_mul (by omega)).2 (by rw [show 60 * (60 * u) = 3600 * u by ring]; exact l1)
  · exact (Nat.div_lt_iff_lt_mul hu).2 l2
  · exact l3

/-- C123: the text shows exactly the duration. -/
theorem c123_text_partial (w : Nat) (val : Int) (parts : Nat) (hv : -2 ^ 63 < val) (hv' : val < 2 ^ 63) :
    ∃ t neg H M S F, formatDuration w val parts = .ok t ∧ Shows t w neg H M S F ∧ value w neg H M S F = val := by
  obtain ⟨h, m, s, f, ha, hm, hs, hf, eh, em, es, ef⟩ := hms_parts w val.natAbs
  obtain ⟨H, t1, n1, d1, l1, _⟩ := two_spec h
  obtain ⟨M, t2, n2, d2, _, l2⟩ := two_spec m
  obtain ⟨S, t3, n3, d3, _, l3⟩ := two_spec s
  obtain ⟨F, t4, n4, d4, l4⟩ := frac_spec w f hf
  refine ⟨_, decide (val < 0), H, M, S, F, ?_, ⟨rfl, ?_, ⟨l1, l2 (by omega), l3 (by omega), l4⟩, by omega⟩, ?_⟩
  · simp only [formatDuration, hms, i64]
    rw [if_pos (by unfold Fits; omega)]
    simp only [Res.ok_bind, Int.toNat_natCast, ← eh, ← em, ← es, ← ef, t1, t2, t3, t4, pure, decide_eq_true_eq]
  · intro d hd
    simp only [List.mem_append] at hd
    rcases hd with ((hd | hd) | hd) | hd
    · exact d1 d hd
    · exact d2 d hd
    · exact d3 d hd
    · exact d4 d hd
  · simp only [value, n1, n2, n3, n4]
    have ha' : (val.natAbs : Int) = ((h * 60 + m) * 60 + s) * 10 ^ w + f := by exact_mod_cast ha
    by_cases hn : val < 0
    · rw [if_pos (by simpa using hn), ← ha']
      omega
    · rw [if_neg (by simpa using hn), ← ha']
      omega

/-- C123: the text determines the duration. -/
theorem c123_unambiguous {t : List Nat} {w : Nat} {n n' : Bool} {H M S F H' M' S' F' : List Nat} (h : Shows t w n H M S F) (h' : Shows t w n' H' M' S' F') :
    value w n H M S F = value w n' H' M' S' F' := by
  have ht := h.text.symm.trans h'.text
  obtain ⟨l1, l2, l3, l4⟩ := h.lengths
  obtain ⟨k1, k2, k3, k4⟩ := h'.lengths
  simp only [List.append_assoc, List.cons_append] at ht
  have tail : ∀ (M S F : List Nat), M.length = 2 → S.length = 2 → F.length = w →
      (58 :: (chars M ++ 58 :: (chars S ++ if w ≠ 0 then 46 :: chars F else []))).length = if w ≠ 0 then 7 + w else 6 := by
    intro M S F h1 h2 h3
    split <;> simp [chars_len, h1, h2, h3]
    omega
  rw [← List.append_assoc, ← List.append_assoc] at ht
  obtain ⟨e1, e2⟩ := List.append_inj' ht (by rw [tail M S F l2 l3 l4, tail M' S' F' k2 k3 k4])
  simp only [List.cons.injEq, true_and] at e2
  obtain ⟨eM, e2⟩ := List.append_inj e2 (by rw [chars_len, chars_len, l2, k2])
  simp only [List.cons.injEq, true_and] at e2
  obtain ⟨eS, e2⟩ := List.append_inj e2 (by rw [chars_len, chars_len, l3, k3])
  have eF : F = F' := by
    by_cases hw : w = 0
    · rw [List.eq_nil_of_length_eq_zero (by omega : F.length = 0), List.eq_nil_of_length_eq_zero (by omega : F'.length = 0)]
    · rw [if_pos hw, if_pos hw] at e2
      simp only [List.cons.injEq, true_and] at e2
      exact chars_inj e2
  have head : ∀ H : List Nat, 2 ≤ H.length → ∃ d l, chars H = (d + 48) :: l := by
    intro H hH
    cases H with
    | nil => simp at hH
    | cons d l => exact ⟨d, chars l, rfl⟩
  obtain ⟨d, l, hd⟩ := head H l1
  obtain ⟨d', l', hd'⟩ := head H' k1
  have eH : n = n' ∧ H = H' := by
    cases n <;> cases n' <;> simp only [if_true, if_false, Bool.false_eq_true, List.nil_append, List.cons_append] at e1
    · exact ⟨rfl, chars_inj e1⟩
    · rw [hd] at e1
      simp only [List.cons.injEq] at e1
      omega
    · rw [hd'] at e1
      simp only [List.cons.injEq] at e1
      omega
    · simp only [List.cons.injEq, true_and] at e1
      exact ⟨rfl, chars_inj e1⟩
  rw [eH.1, eH.2, chars_inj eM, chars_inj eS, eF]

/-- C123: the elapsed time that is printed is the elapsed time. -/
theorem c123_watch_partial (watch : Watch) (now : Int) (h : Fits (now - watch.startTime)) (h' : now - watch.startTime ≠ -2 ^ 63) :
    ∃ t neg H M S F, printWatch watch now = .ok t ∧ Shows t 9 neg H M S F ∧ value 9 neg H M S F = now - watch.startTime := by
  have he : elapsed watch now = .ok (now - watch.startTime) := if_pos h
  have h1 := h.1
  have h2 := h.2
  generalize now - watch.startTime = e at *
  have hp : printWatch watch now = formatDuration 9 e 2 := by
    unfold printWatch
    rw [he, Res.ok_bind]
  rw [hp]
  exact c123_text_partial 9 e 2 (lt_of_le_of_ne h1 (Ne.symm h')) h2

/-- C123, Clang: the number of nanoseconds. -/
theorem c123_clang_partial (w : Nat) (val : Int) (parts : Nat) (h : Fits (val * 10 ^ (9 - w))) :
    ∃ D, formatDurationClang w val parts = .ok ((if val < 0 then [45] else []) ++ chars D ++ [110, 115]) ∧ (∀ d ∈ D, d < 10) ∧
      (number D : Int) = (val * 10 ^ (9 - w)).natAbs := by
  obtain ⟨h1, h2, _⟩ := digitsOf_spec (val * 10 ^ (9 - w)).natAbs
  refine ⟨digitsOf (val * 10 ^ (9 - w)).natAbs, ?_, h2, by rw [h1]⟩
  have hp : (0 : Int) < 10 ^ (9 - w) := by positivity
  have : val * 10 ^ (9 - w) < 0 ↔ val < 0 := by
    constructor
    · intro hx
      by_contra hc
      exact absurd hx (not_lt.2 (Int.mul_nonneg (not_lt.1 hc) (le_of_lt hp)))
    · exact fun hx => Int.mul_neg_of_neg_of_pos hx hp
  simp only [formatDurationClang, i64, if_pos h, Res.ok_bind, pure, this]

/-- C123 is violated: the number of parts asked for does not matter, there are always hours, minutes and seconds. -/
theorem c123_parts_violated (w : Nat) (val : Int) (parts : Nat) : formatDuration w val parts = formatDuration w val 3 ∧
    formatDuration 0 3661 1 = .ok [48, 49, 58, 48, 49, 58, 48, 49] := by
  refine ⟨rfl, ?_⟩
  simp [formatDuration, hms, i64, Fits, two, digitsOf, pad, chars, pure, Bind.bind, Res.bind]

/-- C123 is violated: the smallest duration is undefined behaviour. -/
theorem c123_min_violated (w parts : Nat) : formatDuration w (-2 ^ 63) parts = .ub := by
  simp [formatDuration, hms, i64, Fits, Bind.bind, Res.bind]

/-- C123 is violated by Clang: a duration of 10^10 seconds is undefined behaviour. -/
theorem c123_clang_violated (parts : Nat) : formatDurationClang 0 (10 ^ 10) parts = .ub := by
  simp [formatDurationClang, i64, Fits, Bind.bind, Res.bind]

/-- One hour, one minute and one and a half seconds, negative: -01:01:01.500. -/
example : Shows [45, 48, 49, 58, 48, 49, 58, 48, 49, 46, 53, 48, 48] 3 true [0, 1] [0, 1] [0, 1] [5, 0, 0] ∧ value 3 true [0, 1] [0, 1] [0, 1] [5, 0, 0] = -3661500 :=
  ⟨⟨rfl, by decide, by decide, by decide⟩, by decide⟩

example : formatDuration 3 (-3661500) 2 = .ok [45, 48, 49, 58, 48, 49, 58, 48, 49, 46, 53, 48, 48] := by
  simp [formatDuration, hms, i64, Fits, two, digitsOf, pad, chars, pure, Bind.bind, Res.bind]

/-! ## C124 -/

/-- A date of the Gregorian calendar, month and day counted from 1. -/
structure Date where
  y : Int
  m : Int
  d : Int
deriving DecidableEq

/-- Days in a month. -/
def monthLen (y m : Int) : Int :=
  if m = 2 then (if y % 4 = 0 ∧ (y % 100 ≠ 0 ∨ y % 400 = 0) then 29 else 28) else if m = 4 ∨ m = 6 ∨ m = 9 ∨ m = 11 then 30 else 31

def Date.Valid (a : Date) : Prop := 1 ≤ a.m ∧ a.m ≤ 12 ∧ 1 ≤ a.d ∧ a.d ≤ monthLen a.y a.m

instance (a : Date) : Decidable a.Valid := inferInstanceAs (Decidable (_ ∧ _))

/-- The day after. -/
def Date.next (a : Date) : Date :=
  if a.d < monthLen a.y a.m then ⟨a.y, a.m, a.d + 1⟩
  else if a.m < 12 then ⟨a.y, a.m + 1, 1⟩
  else ⟨a.y + 1, 1, 1⟩

/-- `k` days after. -/
def Date.plus (a : Date) : Nat → Date
  | 0 => a
  | k + 1 => (a.plus k).next

theorem Date.next_valid {a : Date} (h : a.Valid) : a.next.Valid := by
  obtain ⟨y, m, d⟩ := a
  obtain ⟨h1, h2, h3, h4⟩ := h
  simp only [Date.next, Date.Valid] at *
  split
  · simp only [monthLen] at *
    refine ⟨h1, h2, by omega, by omega⟩
  · split
    · simp only [monthLen] at *
      refine ⟨by omega, by omega, by omega, ?_⟩
      repeat' split
      all_goals omega
    · simp only [monthLen]
      omega

theorem Date.plus_valid {a : Date} (h : a.Valid) : ∀ k, (a.plus k).Valid
  | 0 => h
  | k + 1 => Date.next_valid (Date.plus_valid h k)

/-- The time in seconds that `mktime` gives for a date and a time of the day. -/
def secs (zone : Int) (a : Date) (hour min second : Int) : Int := mktime zone ⟨a.y - 1900, a.m - 1, a.d, hour, min, second⟩

theorem daysBefore_succ (y : Int) : daysBefore (y + 1) = daysBefore y + 365 + (if leap y then 1 else 0) := by
  unfold daysBefore leap
  by_cases h4 : y % 4 = 0 <;> by_cases h100 : y % 100 = 0 <;> by_cases h400 : y % 400 = 0 <;> simp [h4, h100, h400] <;> omega

theorem secs_next (zone : Int) (a : Date) (h : a.Valid) (hour min second : Int) : secs zone a.next hour min second = secs zone a hour min second + 86400 := by
  obtain ⟨y, m, d⟩ := a
  obtain ⟨h1, h2, h3, h4⟩ := h
  simp only at h1 h2 h3 h4
  have hm : m = 1 ∨ m = 2 ∨ m = 3 ∨ m = 4 ∨ m = 5 ∨ m = 6 ∨ m = 7 ∨ m = 8 ∨ m = 9 ∨ m = 10 ∨ m = 11 ∨ m = 12 := by omega
  have hs := daysBefore_succ y
  by_cases hd : d < monthLen y m
  · simp only [Date.next, if_pos hd, secs, mktime]
    ring
  · have he : d = monthLen y m := by omega
    subst he
    simp only [Date.next, if_neg hd]
    by_cases hl : y % 4 = 0 ∧ (y % 100 ≠ 0 ∨ y % 400 = 0)
    · have hL : leap y = true := by simpa [leap] using hl
      rw [hL, if_pos rfl] at hs
      rcases hm with rfl | rfl | rfl | rfl | rfl | rfl | rfl | rfl | rfl | rfl | rfl | rfl <;>
        simp [secs, mktime, monthLen, monthStart, hl, hL] <;> omega
    · have hL : leap y = false := by
        cases hb : leap y
        · rfl
        · simp [leap] at hb
          exact absurd hb (by simpa using hl)
      rw [hL] at hs
      simp only [Bool.false_eq_true, if_false, Int.add_zero] at hs
      rcases hm with rfl | rfl | rfl | rfl | rfl | rfl | rfl | rfl | rfl | rfl | rfl | rfl <;>
        simp [secs, mktime, monthLen, monthStart, hl, hL] <;> omega

theorem secs_plus (zone : Int) (a : Date) (h : a.Valid) (hour min second : Int) : ∀ k : Nat, secs zone (a.plus k) hour min second = secs zone a hour min second + k * 86400
  | 0 => by simp [Date.plus]
  | k + 1 => by
    simp only [Date.plus]
    rw [secs_next zone _ (Date.plus_valid h k), secs_plus zone a h hour min second k]
    push_cast
    ring

/-- The epoch. -/
def epoch : Date := ⟨1970, 1, 1⟩

theorem secs_eq (zone : Int) (a : Date) (hour min second : Int) : secs zone a hour min second = secs 0 a 0 0 0 + hour * 3600 + min * 60 + second - zone := by
  simp only [secs, mktime]
  ring

/-- The result in terms of seconds. -/
theorem makeTime_eq (zone : Int) (w : Nat) (hw : w ≤ 9) (a : Date) (hour min second : Int) (hy : -2 ^ 31 + 1900 ≤ a.y ∧ a.y < 2 ^ 31)
    (hf : Fits (secs zone a hour min second * 10 ^ 9)) : makeTime zone w a.y (a.m - 1) a.d hour min second = .ok (secs zone a hour min second * 10 ^ w) := by
  have hp : (10 : Int) ^ 9 = 10 ^ w * 10 ^ (9 - w) := by rw [← pow_add]; congr 1; omega
  have h0 : (10 : Int) ^ (9 - w) ≠ 0 := by positivity
  have h32 : i32 (a.y - 1900) = .ok (a.y - 1900) := by unfold i32; rw [if_pos (by omega)]
  have h64 : i64 (secs zone a hour min second * 10 ^ 9) = .ok (secs zone a hour min second * 10 ^ 9) := if_pos hf
  simp only [makeTime, h32, Res.ok_bind]
  have : mktime zone ⟨a.y - 1900, a.m - 1, a.d, hour, min, second⟩ = secs zone a hour min second := rfl
  rw [this, h64]
  simp only [Res.ok_bind, pure]
  rw [hp, ← mul_assoc, Int.mul_tdiv_cancel _ h0]

/-- C124: `make_time` of a date `k` days after the epoch, with the month counted from 0 as in `std::tm`, and a time of the day is `k` days and the time of the
day after the epoch, in the zone. -/
theorem c124_after_epoch_partial (zone : Int) (w : Nat) (hw : w ≤ 9) (k : Nat) (hour min second : Int) (a : Date) (ha : epoch.plus k = a)
    (hy : -2 ^ 31 + 1900 ≤ a.y ∧ a.y < 2 ^ 31) (hf : Fits ((k * 86400 + hour * 3600 + min * 60 + second - zone) * 10 ^ 9)) :
    makeTime zone w a.y (a.m - 1) a.d hour min second = .ok ((k * 86400 + hour * 3600 + min * 60 + second - zone) * 10 ^ w) := by
  have hs : secs zone a hour min second = k * 86400 + hour * 3600 + min * 60 + second - zone := by
    subst ha
    rw [secs_eq, secs_plus 0 epoch (by decide) 0 0 0 k, show secs 0 epoch 0 0 0 = 0 by decide]
    ring
  rw [makeTime_eq zone w hw a hour min second hy (by rw [hs]; exact hf), hs]

/-- C124: and `k` days before the epoch. -/
theorem c124_before_epoch_partial (zone : Int) (w : Nat) (hw : w ≤ 9) (k : Nat) (hour min second : Int) (a : Date) (hv : a.Valid) (ha : a.plus k = epoch)
    (hy : -2 ^ 31 + 1900 ≤ a.y ∧ a.y < 2 ^ 31) (hf : Fits ((-k * 86400 + hour * 3600 + min * 60 + second - zone) * 10 ^ 9)) :
    makeTime zone w a.y (a.m - 1) a.d hour min second = .ok ((-k * 86400 + hour * 3600 + min * 60 + second - zone) * 10 ^ w) := by
  have hs : secs zone a hour min second = -k * 86400 + hour * 3600 + min * 60 + second - zone := by
    have h1 := secs_plus 0 a hv 0 0 0 k
    rw [ha, show secs 0 epoch 0 0 0 = 0 by decide] at h1
    rw [secs_eq]
    linarith
  rw [makeTime_eq zone w hw a hour min second hy (by rw [hs]; exact hf), hs]

/-- What is required of `std::mktime`: if the local clock shows this date and time at some moment, then the result is a moment at which it does. -/
def MkOk (shown : Int → Int) (mk : Int → Option Int) : Prop := ∀ t, ∃ t', mk (shown t) = some t' ∧ shown t' = shown t

theorem makeTimeZ_eq (mk : Int → Option Int) (c w : Nat) (a : Date) (hour min second t : Int) (hy : -2 ^ 31 + 1900 ≤ a.y ∧ a.y < 2 ^ 31)
    (hm : (mk (secs 0 a hour min second)).getD (-1) = t) (h1 : Fits (t * 10 ^ c)) (h2 : Fits (t * 10 ^ w)) :
    makeTimeZ mk c w a.y (a.m - 1) a.d hour min second = .ok (t * 10 ^ w) := by
  have h32 : i32 (a.y - 1900) = .ok (a.y - 1900) := by unfold i32; rw [if_pos (by omega)]
  have h64 : i64 (t * 10 ^ c) = .ok (t * 10 ^ c) := if_pos h1
  have e : mktimeZ mk ⟨a.y - 1900, a.m - 1, a.d, hour, min, second⟩ = t := hm
  simp only [makeTimeZ, h32, Res.ok_bind, e, h64, castTime]
  by_cases hw : w ≤ c
  · rw [if_pos hw]
    have hp : (10 : Int) ^ c = 10 ^ w * 10 ^ (c - w) := by rw [← pow_add]; congr 1; omega
    have h0 : (10 : Int) ^ (c - w) ≠ 0 := by positivity
    rw [hp, ← mul_assoc, Int.mul_tdiv_cancel _ h0]
  · rw [if_neg hw]
    have hp : t * (10 : Int) ^ c * 10 ^ (w - c) = t * 10 ^ w := by rw [mul_assoc, ← pow_add]; congr 2; omega
    rw [hp]
    exact if_pos h2

/-- C124, in any time zone, with changes of the offset: if at the moment `t` the local clock shows the date and the time of the day, then `make_time` gives a moment at
which it shows them; that is `t` itself, unless the clock shows them more than once.  `k` is the number of days from the epoch to the date. -/
theorem c124_local (shown : Int → Int) (mk : Int → Option Int) (hk : MkOk shown mk) (c w : Nat) (k : Nat) (hour min second t : Int) (a : Date)
    (ha : epoch.plus k = a) (hy : -2 ^ 31 + 1900 ≤ a.y ∧ a.y < 2 ^ 31) (hs : shown t = k * 86400 + hour * 3600 + min * 60 + second)
    (hf : ∀ t', shown t' = shown t → Fits (t' * 10 ^ c) ∧ Fits (t' * 10 ^ w)) :
    ∃ t', makeTimeZ mk c w a.y (a.m - 1) a.d hour min second = .ok (t' * 10 ^ w) ∧ shown t' = shown t ∧
      ((∀ t'', shown t'' = shown t → t'' = t) → t' = t) := by
  obtain ⟨t', h1, h2⟩ := hk t
  have hs' : secs 0 a hour min second = shown t := by
    rw [hs]
    subst ha
    rw [secs_eq, secs_plus 0 epoch (by decide) 0 0 0 k, show secs 0 epoch 0 0 0 = 0 by decide]
    ring
  exact ⟨t', makeTimeZ_eq mk c w a hour min second t' hy (by rw [hs', h1]; rfl) (hf t' h2).1 (hf t' h2).2, h2, fun h => h t' h2⟩

/-- C124: the same for dates before the epoch. -/
theorem c124_local_before (shown : Int → Int) (mk : Int → Option Int) (hk : MkOk shown mk) (c w : Nat) (k : Nat) (hour min second t : Int) (a : Date)
    (hv : a.Valid) (ha : a.plus k = epoch) (hy : -2 ^ 31 + 1900 ≤ a.y ∧ a.y < 2 ^ 31) (hs : shown t = -k * 86400 + hour * 3600 + min * 60 + second)
    (hf : ∀ t', shown t' = shown t → Fits (t' * 10 ^ c) ∧ Fits (t' * 10 ^ w)) :
    ∃ t', makeTimeZ mk c w a.y (a.m - 1) a.d hour min second = .ok (t' * 10 ^ w) ∧ shown t' = shown t ∧
      ((∀ t'', shown t'' = shown t → t'' = t) → t' = t) := by
  obtain ⟨t', h1, h2⟩ := hk t
  have hs' : secs 0 a hour min second = shown t := by
    have h1 := secs_plus 0 a hv 0 0 0 k
    rw [ha, show secs 0 epoch 0 0 0 = 0 by decide] at h1
    rw [hs, secs_eq]
    linarith
  exact ⟨t', makeTimeZ_eq mk c w a hour min second t' hy (by rw [hs', h1]; rfl) (hf t' h2).1 (hf t' h2).2, h2, fun h => h t' h2⟩

/-- C124: a time zone with a constant offset and a clock of nanoseconds, as above. -/
theorem c124_constant_zone (zone : Int) (w : Nat) (hw : w ≤ 9) (year month day hour min second : Int) :
    makeTimeZ (fun l => some (l - zone)) 9 w year month day hour min second = makeTime zone w year month day hour min second := by
  have e : ∀ y, mktimeZ (fun l => some (l - zone)) ⟨y, month, day, hour, min, second⟩ = mktime zone ⟨y, month, day, hour, min, second⟩ := by
    intro y
    simp [mktimeZ, localSecs, mktime]
  simp only [makeTimeZ, makeTime, e, castTime, if_pos hw]
  rfl

/-- C124: the fraction is added in any time zone. -/
theorem c124_local_fraction (mk : Int → Option Int) (c w : Nat) (year month day hour min second fs t : Int)
    (h : makeTimeZ mk c w year month day hour min second = .ok t) (hf : Fits (t + fs)) :
    makeTimeFsZ mk c w year month day hour min second fs = .ok (t + fs) := by
  simp only [makeTimeFsZ, h, Res.ok_bind, i64, if_pos hf]

/-- C124 is violated: if `std::mktime` cannot represent the time, the result is the last second of 1969 in universal time, and nothing is thrown. -/
theorem c124_failure_violated (mk : Int → Option Int) (c w : Nat) (hc : c ≤ 18) (hw : w ≤ 18) (year month day hour min second : Int)
    (hy : -2 ^ 31 + 1900 ≤ year ∧ year < 2 ^ 31) (hm : mk (localSecs ⟨year - 1900, month, day, hour, min, second⟩) = none) :
    makeTimeZ mk c w year month day hour min second = .ok (-10 ^ w) := by
  have fits : ∀ n : Nat, n ≤ 18 → Fits (-1 * 10 ^ n) := by
    intro n hn
    have h1 : (10 : Int) ^ n ≤ 10 ^ 18 := pow_le_pow_right₀ (by norm_num) hn
    have h2 : (0 : Int) < 10 ^ n := by positivity
    unfold Fits
    constructor
    · have : (10 : Int) ^ 18 ≤ 2 ^ 63 := by norm_num
      linarith
    · have : (0 : Int) < 2 ^ 63 := by norm_num
      linarith
  have := makeTimeZ_eq mk c w ⟨year, month + 1, day⟩ hour min second (-1) hy (by
    have e : secs 0 ⟨year, month + 1, day⟩ hour min second = localSecs ⟨year - 1900, month, day, hour, min, second⟩ := by
      simp [secs, localSecs]
    rw [e, hm]; rfl) (fits c hc) (fits w hw)
  simpa using this

/-- A zone that is one hour ahead of universal time during a summer. -/
def summer (t : Int) : Int := if 10 ^ 7 ≤ t ∧ t < 2 * 10 ^ 7 then t + 3600 else t

/-- A `std::mktime` for it: nothing for the hour that is skipped, the summer time for the hour that is repeated. -/
def mkSummer (l : Int) : Option Int :=
  if 10 ^ 7 ≤ l - 3600 ∧ l - 3600 < 2 * 10 ^ 7 then some (l - 3600) else if 10 ^ 7 ≤ l ∧ l < 2 * 10 ^ 7 then none else some l

example : MkOk summer mkSummer ∧ ¬ MkOk summer (fun l => some l) := by
  constructor
  · intro t
    by_cases h : (10 : Int) ^ 7 ≤ t ∧ t < 2 * 10 ^ 7
    · refine ⟨t, ?_, rfl⟩
      simp only [summer, if_pos h, mkSummer]
      rw [if_pos (by omega)]
      congr 1
      omega
    · simp only [summer, if_neg h, mkSummer]
      by_cases h2 : (10 : Int) ^ 7 ≤ t - 3600 ∧ t - 3600 < 2 * 10 ^ 7
      · refine ⟨t - 3600, if_pos h2, ?_⟩
        rw [if_pos h2]; omega
      · refine ⟨t, ?_, if_neg h⟩
        rw [if_neg h2]
  · intro h
    obtain ⟨t', h1, h2⟩ := h (15 * 10 ^ 6)
    simp only [Option.some.injEq] at h1
    subst h1
    simp [summer] at h2

/-- C124: a month of 12 and more is one of the next years. -/
theorem c124_months (zone : Int) (w : Nat) (y m d hour min second : Int) (hy : -2 ^ 31 + 1900 ≤ y ∧ y + 1 < 2 ^ 31) :
    makeTime zone w y (m + 12) d hour min second = makeTime zone w (y + 1) m d hour min second := by
  have h1 : i32 (y - 1900) = .ok (y - 1900) := by unfold i32; rw [if_pos (by omega)]
  have h2 : i32 (y + 1 - 1900) = .ok (y + 1 - 1900) := by unfold i32; rw [if_pos (by omega)]
  have e1 : (m + 12) / 12 = m / 12 + 1 := by omega
  have e2 : (m + 12) % 12 = m % 12 := by omega
  simp only [makeTime, h1, h2, Res.ok_bind, mktime, e1, e2]
  rw [show y - 1900 + 1900 + (m / 12 + 1) = y + 1 - 1900 + 1900 + m / 12 by ring]

/-- C124: the fraction of a second is added. -/
theorem c124_fraction (zone : Int) (w : Nat) (year month day hour min second fs t : Int) (h : makeTime zone w year month day hour min second = .ok t) (hf : Fits (t + fs)) :
    makeTimeFs zone w year month day hour min second fs = .ok (t + fs) := by
  simp only [makeTimeFs, h, Res.ok_bind, i64, if_pos hf]

theorem monthStart_bounds (m : Int) : 0 ≤ monthStart m ∧ monthStart m ≤ 334 := by
  unfold monthStart
  repeat' split
  all_goals omega

/-- C124 is violated for all years after 2262 with a clock of nanoseconds: undefined behaviour even if the duration asked for is seconds. -/
theorem c124_late_violated (zone : Int) (hz : zone ≤ 86400) (w : Nat) (year month day hour min second : Int) (hy : 2263 ≤ year) (hm : 0 ≤ month) (hd : 1 ≤ day) (hh : 0 ≤ hour) (hmin : 0 ≤ min)
    (hs : 0 ≤ second) : makeTime zone w year month day hour min second = .ub := by
  unfold makeTime i32
  split
  · have hb := monthStart_bounds (month % 12)
    have hn : ¬ Fits (mktime zone ⟨year - 1900, month, day, hour, min, second⟩ * 10 ^ 9) := by
      intro h
      unfold Fits at h
      have := h.2
      simp only [mktime, daysBefore] at this
      split at this <;> omega
    simp only [Res.ok_bind, i64, if_neg hn]
    rfl
  · rfl

/-- C124 is violated for all years before 1677 in the same way, down to the smallest `int`. -/
theorem c124_early_violated (zone : Int) (hz : -86400 ≤ zone) (w : Nat) (year month day hour min second : Int) (hy : year < 1677) (hm : month ≤ 11) (hd : day ≤ 31) (hh : hour ≤ 23) (hmin : min ≤ 59)
    (hs : second ≤ 60) : makeTime zone w year month day hour min second = .ub := by
  unfold makeTime i32
  split
  · have hb := monthStart_bounds (month % 12)
    have hn : ¬ Fits (mktime zone ⟨year - 1900, month, day, hour, min, second⟩ * 10 ^ 9) := by
      intro h
      unfold Fits at h
      have := h.1
      simp only [mktime, daysBefore] at this
      split at this <;> omega
    simp only [Res.ok_bind, i64, if_neg hn]
    rfl
  · rfl

example : makeTime 0 0 2263 0 1 0 0 0 = .ub ∧ makeTime 3600 9 3000 11 31 23 59 60 = .ub ∧ makeTime 0 3 1600 1 29 0 0 0 = .ub ∧ makeTime 0 0 (-2 ^ 31) 0 1 0 0 0 = .ub :=
  ⟨c124_late_violated _ (by decide) _ _ _ _ _ _ _ (by decide) (by decide) (by decide) (by decide) (by decide) (by decide),
    c124_late_violated _ (by decide) _ _ _ _ _ _ _ (by decide) (by decide) (by decide) (by decide) (by decide) (by decide),
    c124_early_violated _ (by decide) _ _ _ _ _ _ _ (by decide) (by decide) (by decide) (by decide) (by decide) (by decide),
    c124_early_violated _ (by decide) _ _ _ _ _ _ _ (by decide) (by decide) (by decide) (by decide) (by decide) (by decide)⟩

/-- C124: the month is not that of the calendar: 7 is August. -/
theorem c124_month_shifted : makeTime 0 0 2019 7 17 16 31 13 = .ok (secs 0 ⟨2019, 8, 17⟩ 16 31 13) ∧ secs 0 ⟨2019, 8, 17⟩ 16 31 13 = 1566059473 := by
  decide

/-- The end of February 2000, and the day after. -/
example : (⟨2000, 2, 29⟩ : Date).Valid ∧ (⟨2000, 2, 29⟩ : Date).next = ⟨2000, 3, 1⟩ ∧ ¬ (⟨1900, 2, 29⟩ : Date).Valid := by decide

/-- The 366th day of the count is the 2nd of January 1971. -/
example : epoch.plus 366 = ⟨1971, 1, 2⟩ := by decide +kernel

example : (⟨1969, 12, 30⟩ : Date).plus 2 = epoch ∧ (⟨1969, 12, 30⟩ : Date).Valid := by decide

end Verif.Time
