import Verif.Decimal.Lemmas
import Mathlib.Data.List.Induction

/-! # Reading and printing decimals: lemmas -/

namespace Verif.Decimal

variable {c : Cfg}

theorem number_foldl (ds : List Nat) : ∀ n : Nat, ds.foldl (fun n d => 10 * n + d) n = n * 10 ^ ds.length + number ds := by
  induction ds with
  | nil => intro n; simp [number]
  | cons d ds ih =>
    intro n
    simp only [number, List.foldl_cons, List.length_cons]
    rw [ih, ih (10 * 0 + d)]
    ring

theorem number_append (xs ys : List Nat) : number (xs ++ ys) = number xs * 10 ^ ys.length + number ys := by
  rw [number, List.foldl_append, number_foldl ys]; rfl

theorem number_snoc (xs : List Nat) (d : Nat) : number (xs ++ [d]) = 10 * number xs + d := by
  rw [number_append]; simp [number]; ring

theorem number_replicate (n : Nat) : number (List.replicate n 0) = 0 := by
  induction n with
  | zero => rfl
  | succ n ih => rw [List.replicate_succ', number_snoc, ih]

/-- The digits without the zeros at the end. -/
def strip (fs : List Nat) : List Nat := (fs.reverse.dropWhile (· = 0)).reverse

theorem strip_zero (P : List Nat) : strip (P ++ [0]) = strip P := by
  simp [strip, List.reverse_append]

theorem strip_nonzero (P : List Nat) {d : Nat} (h : d ≠ 0) : strip (P ++ [d]) = P ++ [d] := by
  simp [strip, List.reverse_append, h]

theorem strip_split (P : List Nat) : ∃ z, P = strip P ++ List.replicate z 0 ∧ P.length = (strip P).length + z := by
  induction P using List.reverseRecOn with
  | nil => exact ⟨0, rfl, rfl⟩
  | append_singleton P d ih =>
    by_cases h : d = 0
    · subst h
      obtain ⟨z, h1, h2⟩ := ih
      refine ⟨z + 1, ?_, ?_⟩
      · rw [strip_zero, List.replicate_succ', ← List.append_assoc, ← h1]
      · rw [strip_zero, List.length_append, h2]; simp; omega
    · exact ⟨0, by simp [strip_nonzero P h], by simp [strip_nonzero P h]⟩

theorem strip_number (P : List Nat) : number P = number (strip P) * 10 ^ (P.length - (strip P).length) := by
  obtain ⟨z, h1, h2⟩ := strip_split P
  have : P.length - (strip P).length = z := by omega
  rw [this]
  conv_lhs => rw [h1]
  rw [number_append, number_replicate]; simp

theorem strip_length (P : List Nat) : (strip P).length ≤ P.length := by
  obtain ⟨z, _, h2⟩ := strip_split P; omega

theorem strip_mono1 (P : List Nat) (d : Nat) : number (strip P) ≤ number (strip (P ++ [d])) := by
  by_cases h : d = 0
  · subst h; rw [strip_zero]
  · rw [strip_nonzero P h, number_snoc, strip_number P]
    have : 1 ≤ 10 ^ (P.length - (strip P).length) := Nat.one_le_pow _ _ (by norm_num)
    nlinarith [Nat.zero_le (number (strip P))]

theorem strip_mono (fs : List Nat) : ∀ P : List Nat, number (strip P) ≤ number (strip (P ++ fs)) := by
  induction fs with
  | nil => intro P; simp
  | cons d fs ih =>
    intro P
    have := ih (P ++ [d])
    rw [List.append_assoc] at this
    exact le_trans (strip_mono1 P d) this

/-- Enough room that multiplying a mantissa by ten does not wrap. -/
structure Cfg.Wide (c : Cfg) : Prop extends Cfg.Good c where
  wide : 3 ≤ c.e
  narrow : c.e ≤ 8

theorem Cfg.Wide.room (h : c.Wide) : 16 * (c.maxMan + 1) ≤ 2 ^ c.w := by
  rw [maxMan_succ]
  have h1 := h.toGood.manLen_lt
  have h2 := h.wide
  calc 16 * 2 ^ c.manLen = 2 ^ (c.manLen + 4) := by rw [pow_add]; ring
    _ ≤ 2 ^ c.w := Nat.pow_le_pow_right (by norm_num) (by omega)

theorem doAppend_eq (h : c.Wide) {p : PS} (hp : p.val ≤ c.maxMan) {d : Nat} (hd : d < 10) :
    doAppend c p d = if 10 * p.val + d ≤ c.maxMan then .ok { p with val := 10 * p.val + d, digits := (p.digits + 1) % 256 }
      else .throw .logic := by
  have := h.room
  simp only [doAppend]
  rw [Nat.mod_eq_of_lt (show p.val * 10 + d < 2 ^ c.w by omega), Nat.mul_comm p.val 10]
  by_cases h1 : 10 * p.val + d ≤ c.maxMan
  · rw [if_neg (by omega), if_pos h1]
  · rw [if_pos (by omega), if_neg h1]

theorem flush_eq (h : c.Wide) : ∀ (n : Nat) {p : PS}, p.val ≤ c.maxMan → p.digits < 256 →
    flush c p n = if p.val * 10 ^ n ≤ c.maxMan then .ok { p with val := p.val * 10 ^ n, digits := (p.digits + n) % 256 }
      else .throw .logic := by
  intro n
  induction n with
  | zero => intro p hp hd; simp [flush, hp, Nat.mod_eq_of_lt hd]
  | succ n ih =>
    intro p hp hd
    simp only [flush]
    rw [doAppend_eq h hp (by norm_num)]
    simp only [Nat.add_zero]
    have e : p.val * 10 ^ (n + 1) = 10 * p.val * 10 ^ n := by ring
    by_cases h1 : 10 * p.val ≤ c.maxMan
    · rw [if_pos h1]
      simp only [Res.ok_bind]
      rw [ih h1 (Nat.mod_lt _ (by norm_num)), e]
      simp only [Nat.mod_add_mod]
      rw [show p.digits + 1 + n = p.digits + (n + 1) by omega]
    · rw [if_neg h1, if_neg]
      · rfl
      · rw [e]
        have : 1 ≤ 10 ^ n := Nat.one_le_pow _ _ (by norm_num)
        nlinarith

theorem symbolToDigit_digit {d : Nat} (h : d < 10) : symbolToDigit (d + 48) = .ok d := by
  simp only [symbolToDigit]; rw [if_pos (by omega)]; simp

/-- Digits in front of the point. -/
theorem parseLoop_int (h : c.Wide) {tail : List Nat} : ∀ (ds : List Nat) {p : PS}, (∀ d ∈ ds, d < 10) → p.val ≤ c.maxMan →
    (p.val * 10 ^ ds.length + number ds ≤ c.maxMan → ∃ k, parseLoop c true p (ds.map (· + 48) ++ tail) =
      parseLoop c true ⟨k, p.zeros, p.val * 10 ^ ds.length + number ds⟩ tail) ∧
    (c.maxMan < p.val * 10 ^ ds.length + number ds →
      parseLoop c true p (ds.map (· + 48) ++ tail) = .throw .logic) := by
  intro ds
  induction ds with
  | nil =>
    intro p _ hp
    refine ⟨fun _ => ⟨p.digits, ?_⟩, fun hc => ?_⟩
    · simp [number]
    · simp [number] at hc; omega
  | cons d ds ih =>
    intro p hds hp
    have hd : d < 10 := hds d (by simp)
    have hds' : ∀ d ∈ ds, d < 10 := fun x hx => hds x (by simp [hx])
    have hn : number (d :: ds) = d * 10 ^ ds.length + number ds := by
      have := number_append [d] ds
      simpa [number] using this
    have e : p.val * 10 ^ (d :: ds).length + number (d :: ds) = (10 * p.val + d) * 10 ^ ds.length + number ds := by
      rw [hn, List.length_cons]; ring
    have step : parseLoop c true p ((d :: ds).map (· + 48) ++ tail) =
        (append c true p d >>= fun p => parseLoop c true p (ds.map (· + 48) ++ tail)) := by
      simp only [List.map_cons, List.cons_append, parseLoop]
      rw [if_neg (by omega), symbolToDigit_digit hd]; rfl
    rw [e, step]
    have happ : append c true p d = if 10 * p.val + d ≤ c.maxMan then
        (if d ≠ 0 ∨ p.val ≠ 0 then .ok { p with val := 10 * p.val + d, digits := (p.digits + 1) % 256 } else .ok p)
        else .throw .logic := by
      simp only [append, if_true]
      by_cases h1 : d ≠ 0 ∨ p.val ≠ 0
      · rw [if_pos h1, doAppend_eq h hp hd, if_pos h1]
      · rw [if_neg h1, if_neg h1]
        rw [if_pos (by omega)]
    rw [happ]
    by_cases h1 : 10 * p.val + d ≤ c.maxMan
    · rw [if_pos h1]
      have key : ∃ k, (if d ≠ 0 ∨ p.val ≠ 0 then Res.ok { p with val := 10 * p.val + d, digits := (p.digits + 1) % 256 }
          else Res.ok p) = Res.ok (⟨k, p.zeros, 10 * p.val + d⟩ : PS) := by
        by_cases h2 : d ≠ 0 ∨ p.val ≠ 0
        · rw [if_pos h2]; exact ⟨_, rfl⟩
        · rw [if_neg h2]
          have : 10 * p.val + d = p.val := by omega
          exact ⟨p.digits, by rw [this]⟩
      obtain ⟨k, hk⟩ := key
      rw [hk]
      simp only [Res.ok_bind]
      exact ih (p := ⟨k, p.zeros, 10 * p.val + d⟩) hds' h1
    · rw [if_neg h1]
      have hbig : c.maxMan < (10 * p.val + d) * 10 ^ ds.length + number ds := by
        have : 1 ≤ 10 ^ ds.length := Nat.one_le_pow _ _ (by norm_num)
        nlinarith
      exact ⟨fun hc => absurd hc (by omega), fun _ => rfl⟩

/-- What has been read of the digits behind the point. -/
structure FracInv (c : Cfg) (p : PS) (P : List Nat) : Prop where
  digits : p.digits = (strip P).length
  zeros : p.zeros = P.length - (strip P).length
  val : p.val = number (strip P)
  le : p.val ≤ c.maxMan

theorem parseLoop_frac (h : c.Wide) : ∀ (fs : List Nat) {p : PS} {P : List Nat}, FracInv c p P → (∀ d ∈ fs, d < 10) →
    (P ++ fs).length ≤ 255 →
    (number (strip (P ++ fs)) ≤ c.maxMan → ∃ p', parseLoop c false p (fs.map (· + 48)) = .ok ([], p') ∧
      FracInv c p' (P ++ fs)) ∧
    (c.maxMan < number (strip (P ++ fs)) → parseLoop c false p (fs.map (· + 48)) = .throw .logic) := by
  intro fs
  induction fs with
  | nil =>
    intro p P hi _ _
    simp only [List.append_nil]
    exact ⟨fun _ => ⟨p, rfl, hi⟩, fun hc => by have := hi.val; have := hi.le; omega⟩
  | cons d fs ih =>
    intro p P hi hfs hlen
    have hd : d < 10 := hfs d (by simp)
    have hfs' : ∀ d ∈ fs, d < 10 := fun x hx => hfs x (by simp [hx])
    have hP : (P ++ [d]) ++ fs = P ++ d :: fs := by simp
    have hlen' : ((P ++ [d]) ++ fs).length ≤ 255 := by rw [hP]; exact hlen
    have hlP : P.length + 1 ≤ 255 := by simp at hlen; omega
    have hsl := strip_length P
    have step : parseLoop c false p ((d :: fs).map (· + 48)) =
        (append c false p d >>= fun p => parseLoop c false p (fs.map (· + 48))) := by
      simp only [List.map_cons, parseLoop]
      rw [if_neg (by simp), symbolToDigit_digit hd]; rfl
    rw [step, ← hP]
    by_cases hd0 : d = 0
    · subst hd0
      have happ : append c false p 0 = .ok { p with zeros := p.zeros + 1 } := by
        simp only [append, Bool.false_eq_true, if_false, if_true]
        rw [Nat.mod_eq_of_lt (by have := hi.zeros; omega)]
      rw [happ]
      simp only [Res.ok_bind]
      refine ih ⟨?_, ?_, ?_, hi.le⟩ hfs' hlen'
      · rw [strip_zero]; exact hi.digits
      · rw [strip_zero, List.length_append]; simp; have := hi.zeros; omega
      · rw [strip_zero]; exact hi.val
    · have hnum : number (strip (P ++ [d])) = 10 * (p.val * 10 ^ p.zeros) + d := by
        rw [strip_nonzero P hd0, number_snoc, strip_number P, hi.val, hi.zeros]
      have hdig : p.digits < 256 := by have := hi.digits; omega
      have happ : append c false p d = if number (strip (P ++ [d])) ≤ c.maxMan then
          .ok ⟨P.length + 1, 0, number (strip (P ++ [d]))⟩ else .throw .logic := by
        simp only [append, Bool.false_eq_true, if_false, hd0]
        rw [flush_eq h _ hi.le hdig]
        by_cases h1 : p.val * 10 ^ p.zeros ≤ c.maxMan
        · rw [if_pos h1]
          simp only [Res.ok_bind]
          rw [doAppend_eq h h1 hd]
          simp only
          rw [hnum]
          have : (((p.digits + p.zeros) % 256) + 1) % 256 = P.length + 1 := by
            have h2 := hi.digits; have h3 := hi.zeros; omega
          rw [this]
        · rw [if_neg h1, if_neg (by rw [hnum]; omega)]; rfl
      rw [happ]
      by_cases h1 : number (strip (P ++ [d])) ≤ c.maxMan
      · rw [if_pos h1]
        simp only [Res.ok_bind]
        refine ih ⟨?_, ?_, rfl, h1⟩ hfs' hlen'
        · rw [strip_nonzero P hd0]; simp
        · rw [strip_nonzero P hd0]; simp
      · rw [if_neg h1]
        have := strip_mono fs (P ++ [d])
        exact ⟨fun hc => by omega, fun _ => rfl⟩

/-- A text that is read is a literal. -/
theorem parseLoop_true_ok : ∀ (t : List Nat) {p p' : PS} {rest : List Nat}, parseLoop c true p t = .ok (rest, p') →
    ∃ ds : List Nat, (∀ d ∈ ds, d < 10) ∧ (t = ds.map (· + 48) ∧ rest = [] ∨ t = ds.map (· + 48) ++ 46 :: rest) := by
  intro t
  induction t with
  | nil => intro p p' rest h; cases h; exact ⟨[], by simp, Or.inl ⟨rfl, rfl⟩⟩
  | cons ch t ih =>
    intro p p' rest h
    simp only [parseLoop, true_and] at h
    by_cases h1 : ch = 46
    · rw [if_pos h1] at h; cases h; exact ⟨[], by simp, Or.inr (by simp [h1])⟩
    · rw [if_neg h1] at h
      simp only [symbolToDigit] at h
      by_cases h2 : 48 ≤ ch ∧ ch ≤ 57
      · rw [if_pos h2] at h
        simp only [Res.ok_bind] at h
        obtain ⟨q, hq, h⟩ := Res.bind_eq_ok.1 h
        obtain ⟨ds, h3, h4⟩ := ih h
        refine ⟨(ch - 48) :: ds, ?_, ?_⟩
        · intro d hd
          rcases List.mem_cons.1 hd with rfl | hd
          · omega
          · exact h3 d hd
        · have he : ch - 48 + 48 = ch := by omega
          rcases h4 with ⟨h4, h5⟩ | h4
          · exact Or.inl ⟨by simp [he, h4], h5⟩
          · exact Or.inr (by simp [he, h4])
      · rw [if_neg h2] at h; cases h

theorem parseLoop_false_ok : ∀ (t : List Nat) {p p' : PS} {rest : List Nat}, parseLoop c false p t = .ok (rest, p') →
    ∃ ds : List Nat, (∀ d ∈ ds, d < 10) ∧ t = ds.map (· + 48) ∧ rest = [] := by
  intro t
  induction t with
  | nil => intro p p' rest h; cases h; exact ⟨[], by simp, rfl, rfl⟩
  | cons ch t ih =>
    intro p p' rest h
    simp only [parseLoop, Bool.false_eq_true, false_and, if_false] at h
    simp only [symbolToDigit] at h
    by_cases h2 : 48 ≤ ch ∧ ch ≤ 57
    · rw [if_pos h2] at h
      simp only [Res.ok_bind] at h
      obtain ⟨q, hq, h⟩ := Res.bind_eq_ok.1 h
      obtain ⟨ds, h3, h4, h5⟩ := ih h
      refine ⟨(ch - 48) :: ds, ?_, ?_, h5⟩
      · intro d hd
        rcases List.mem_cons.1 hd with rfl | hd
        · omega
        · exact h3 d hd
      · have he : ch - 48 + 48 = ch := by omega
        simp [he, h4]
    · rw [if_neg h2] at h; cases h

/-! No undefined behaviour, and only one kind of exception. -/

def Clean {α : Type} (r : Res α) : Prop := r ≠ .ub ∧ ∀ e, r = .throw e → e = .logic

theorem Clean.ok {α : Type} (a : α) : Clean (.ok a) := ⟨by simp, by simp⟩
theorem Clean.logic {α : Type} : Clean (.throw .logic : Res α) := ⟨by simp, by simp⟩
theorem Clean.bind {α β : Type} {r : Res α} {f : α → Res β} (h : Clean r) (hf : ∀ a, r = .ok a → Clean (f a)) : Clean (r >>= f) := by
  cases r with
  | ok a => exact hf a rfl
  | throw e => exact ⟨by simp, by rintro e' he; cases he; exact h.2 _ rfl⟩
  | ub => exact absurd rfl h.1

theorem doAppend_clean (p : PS) (d : Nat) : Clean (doAppend c p d) := by
  simp only [doAppend]; split
  · exact Clean.logic
  · exact Clean.ok _

theorem flush_clean (n : Nat) : ∀ p : PS, Clean (flush c p n) := by
  induction n with
  | zero => intro p; exact Clean.ok _
  | succ n ih => intro p; exact (doAppend_clean p 0).bind (fun a _ => ih a)

theorem append_clean (b : Bool) (p : PS) (d : Nat) : Clean (append c b p d) := by
  simp only [append]
  split
  · split
    · exact doAppend_clean _ _
    · exact Clean.ok _
  · split
    · exact Clean.ok _
    · exact (flush_clean _ _).bind (fun a _ => doAppend_clean _ _)

theorem parseLoop_clean (b : Bool) (t : List Nat) : ∀ p : PS, Clean (parseLoop c b p t) := by
  induction t with
  | nil => intro p; exact Clean.ok _
  | cons ch t ih =>
    intro p
    simp only [parseLoop]
    split
    · exact Clean.ok _
    · refine Clean.bind ?_ (fun a _ => (append_clean _ _ _).bind (fun b _ => ih _))
      simp only [symbolToDigit]; split
      · exact Clean.ok _
      · exact Clean.logic

theorem checkExp_clean (k : Nat) : Clean (checkExp c k) := by
  simp only [checkExp]; split
  · exact Clean.logic
  · exact Clean.ok _

/-- The body of `fromString`, sign aside. -/
def fromBody (c : Cfg) (positive : Bool) (body : List Nat) : Res Dec := do
  let (tail, pi) ← parseInt c body true
  let (left, pf) ← parseInt c tail false
  if left ≠ [] then .throw .logic
  else do
    checkExp c pf.digits
    let denom ← c.denom pf.digits
    if denom = 0 then .ub
    else if pi.val > c.maxMan / denom then .throw .logic
    else
      let ip := pi.val * denom % 2 ^ c.w
      if pf.val > c.maxMan - ip then .throw .logic
      else
        let d := (Dec.zero.setMan c ((ip + pf.val) % 2 ^ c.w)).setExp c pf.digits
        .ok (if positive then d else d.negate)

theorem fromString_cons (ch : Nat) (rest : List Nat) :
    fromString c (ch :: rest) = fromBody c (if ch = 43 ∨ ch = 45 then decide (ch = 43) else true)
      (if ch = 43 ∨ ch = 45 then rest else ch :: rest) := rfl

theorem fromBody_clean (h : c.Good) (b : Bool) (t : List Nat) : Clean (fromBody c b t) := by
  simp only [fromBody]
  refine (parseLoop_clean _ _ _).bind (fun x _ => ?_)
  refine (parseLoop_clean _ _ _).bind (fun y _ => ?_)
  obtain ⟨_, pi⟩ := x
  obtain ⟨left, pf⟩ := y
  simp only
  split
  · exact Clean.logic
  · simp only [checkExp]
    by_cases h1 : pf.digits > c.maxExp
    · rw [if_pos h1]; exact Clean.logic
    · rw [if_neg h1, Res.ok_bind, h.denom (by omega), Res.ok_bind, if_neg (by simp)]
      split
      · exact Clean.logic
      · split
        · exact Clean.logic
        · exact Clean.ok _

theorem fromBody_eq (h : c.Wide) (b : Bool) {ds fs point : List Nat} (hds : ∀ d ∈ ds, d < 10) (hfs : ∀ d ∈ fs, d < 10)
    (hp : point = [46] ∨ point = [] ∧ fs = []) (hlen : fs.length ≤ 255) :
    fromBody c b (ds.map (· + 48) ++ point ++ fs.map (· + 48)) =
      if (strip fs).length ≤ c.maxExp ∧ number ds * 10 ^ (strip fs).length + number (strip fs) ≤ c.maxMan then
        .ok ⟨b, (strip fs).length, number ds * 10 ^ (strip fs).length + number (strip fs)⟩
      else .throw .logic := by
  have hint := parseLoop_int h (tail := point ++ fs.map (· + 48)) ds (p := ⟨0, 0, 0⟩) hds (Nat.zero_le _)
  have hfrac := parseLoop_frac h fs (p := ⟨0, 0, 0⟩) (P := []) ⟨rfl, rfl, rfl, Nat.zero_le _⟩ hfs (by simpa using hlen)
  simp only [Nat.zero_mul, Nat.zero_add, List.nil_append] at hint hfrac
  rw [← List.append_assoc] at hint
  have hpow : 1 ≤ 10 ^ (strip fs).length := Nat.one_le_pow _ _ (by norm_num)
  have hge : number ds ≤ number ds * 10 ^ (strip fs).length := Nat.le_mul_of_pos_right _ hpow
  simp only [fromBody, parseInt]
  by_cases h1 : number ds ≤ c.maxMan
  · obtain ⟨k, hk⟩ := hint.1 h1
    have htail : parseLoop c true ⟨k, 0, number ds⟩ (point ++ fs.map (· + 48)) =
        .ok (fs.map (· + 48), ⟨k, 0, number ds⟩) := by
      rcases hp with rfl | ⟨rfl, rfl⟩
      · simp [parseLoop]
      · simp [parseLoop]
    rw [hk, htail]
    simp only [Res.ok_bind]
    by_cases h2 : number (strip fs) ≤ c.maxMan
    · obtain ⟨pf, hpf, hinv⟩ := hfrac.1 h2
      rw [hpf]
      simp only [Res.ok_bind, ne_eq, not_true_eq_false, if_false]
      rw [hinv.digits, hinv.val]
      by_cases h3 : (strip fs).length ≤ c.maxExp
      · simp only [checkExp]
        rw [if_neg (show ¬ (strip fs).length > c.maxExp by omega), Res.ok_bind, h.toGood.denom h3, Res.ok_bind, if_neg (by simp)]
        have hdiv : number ds > c.maxMan / 10 ^ (strip fs).length ↔ ¬ number ds * 10 ^ (strip fs).length ≤ c.maxMan := by
          rw [gt_iff_lt, Nat.div_lt_iff_lt_mul hpow, not_le]
        have hmax := h.toGood.maxMan_lt
        by_cases h4 : number ds * 10 ^ (strip fs).length ≤ c.maxMan
        · rw [if_neg (by rw [hdiv]; simpa using h4)]
          rw [Nat.mod_eq_of_lt (show number ds * 10 ^ (strip fs).length < 2 ^ c.w by omega)]
          by_cases h5 : number ds * 10 ^ (strip fs).length + number (strip fs) ≤ c.maxMan
          · rw [if_neg (show ¬ number (strip fs) > c.maxMan - number ds * 10 ^ (strip fs).length by omega),
              if_pos (show (strip fs).length ≤ c.maxExp ∧ number ds * 10 ^ (strip fs).length + number (strip fs) ≤ c.maxMan from ⟨h3, h5⟩)]
            rw [Nat.mod_eq_of_lt (show number ds * 10 ^ (strip fs).length + number (strip fs) < 2 ^ c.w by omega)]
            cases b <;> simp [Dec.zero, Dec.setMan, Dec.setExp, Dec.negate, mod_man_eq h5, mod_exp_eq h3]
          · rw [if_pos (show number (strip fs) > c.maxMan - number ds * 10 ^ (strip fs).length by omega),
              if_neg (show ¬ ((strip fs).length ≤ c.maxExp ∧ number ds * 10 ^ (strip fs).length + number (strip fs) ≤ c.maxMan) from fun hc => h5 hc.2)]
        · rw [if_pos (hdiv.2 h4), if_neg (fun hc => by have := hc.2; omega)]
      · simp only [checkExp]
        rw [if_pos (show (strip fs).length > c.maxExp by omega),
          if_neg (show ¬ ((strip fs).length ≤ c.maxExp ∧ _) from fun hc => h3 hc.1)]; rfl
    · rw [hfrac.2 (by omega), if_neg (fun hc => by have := hc.2; omega)]; rfl
  · rw [hint.2 (by omega), if_neg (fun hc => by have := hc.2; omega)]; rfl

/-- Reading a literal whose part behind the point is not too long. -/
theorem fromString_literal (h : c.Wide) {t ds fs : List Nat} {neg : Bool} (hl : Literal t neg ds fs) (ht : t ≠ [])
    (hlen : fs.length ≤ 255) :
    fromString c t =
      if (strip fs).length ≤ c.maxExp ∧ number ds * 10 ^ (strip fs).length + number (strip fs) ≤ c.maxMan then
        .ok ⟨!neg, (strip fs).length, number ds * 10 ^ (strip fs).length + number (strip fs)⟩
      else .throw .logic := by
  obtain ⟨hds, hfs, sign, point, rfl, hsign, hp⟩ := hl
  rcases hsign with ⟨rfl, rfl⟩ | ⟨rfl | rfl, rfl⟩
  · simp only [List.cons_append, List.nil_append, fromString_cons]
    rw [if_pos (by norm_num), if_pos (by norm_num)]
    exact fromBody_eq h _ hds hfs hp hlen
  · simp only [List.cons_append, List.nil_append, fromString_cons]
    rw [if_pos (by norm_num), if_pos (by norm_num)]
    exact fromBody_eq h _ hds hfs hp hlen
  · have key : ∀ ch rest, [] ++ ds.map (· + 48) ++ point ++ fs.map (· + 48) = ch :: rest → ¬ (ch = 43 ∨ ch = 45) := by
      intro ch rest he
      cases ds with
      | cons d ds => simp at he; omega
      | nil =>
        rcases hp with rfl | ⟨rfl, rfl⟩
        · simp at he; omega
        · simp at he
    cases hc : [] ++ ds.map (· + 48) ++ point ++ fs.map (· + 48) with
    | nil => exact absurd hc ht
    | cons ch rest =>
      have hk := key ch rest hc
      rw [fromString_cons, if_neg hk, if_neg hk, ← hc]
      exact fromBody_eq h _ hds hfs hp hlen

theorem fromString_ok_literal {t : List Nat} {d : Dec} (h : fromString c t = .ok d) : ∃ neg ds fs, Literal t neg ds fs := by
  cases t with
  | nil => cases h
  | cons ch rest =>
    rw [fromString_cons] at h
    simp only [fromBody] at h
    obtain ⟨⟨tail, pi⟩, h1, h⟩ := Res.bind_eq_ok.1 h
    obtain ⟨⟨left, pf⟩, h2, h⟩ := Res.bind_eq_ok.1 h
    obtain ⟨ds, hds, h1'⟩ := parseLoop_true_ok _ h1
    obtain ⟨fs, hfs, h2, _⟩ := parseLoop_false_ok _ h2
    have body : ∃ point, (if ch = 43 ∨ ch = 45 then rest else ch :: rest) = ds.map (· + 48) ++ point ++ fs.map (· + 48) ∧
        (point = [46] ∨ point = [] ∧ fs = []) := by
      have h2 : tail = fs.map (· + 48) := h2
      rcases h1' with ⟨h1, h0⟩ | h1
      · have hf : fs = [] := by rw [h0] at h2; simpa using h2.symm
        exact ⟨[], by rw [h1, hf]; simp, Or.inr ⟨rfl, hf⟩⟩
      · exact ⟨[46], by rw [h1, h2]; simp, Or.inl rfl⟩
    obtain ⟨point, hb, hp⟩ := body
    by_cases hs : ch = 43 ∨ ch = 45
    · rw [if_pos hs] at hb
      rcases hs with rfl | rfl
      · exact ⟨false, ds, fs, hds, hfs, [43], point, by rw [hb]; simp, Or.inr ⟨Or.inl rfl, rfl⟩, hp⟩
      · exact ⟨true, ds, fs, hds, hfs, [45], point, by rw [hb]; simp, Or.inl ⟨rfl, rfl⟩, hp⟩
    · rw [if_neg hs] at hb
      exact ⟨false, ds, fs, hds, hfs, [], point, by rw [hb]; simp, Or.inr ⟨Or.inr rfl, rfl⟩, hp⟩

/-! ## Printing -/

theorem digitsOf_spec (n : Nat) : number (digitsOf n) = n ∧ (∀ d ∈ digitsOf n, d < 10) ∧
    (∀ k, 0 < k → n < 10 ^ k → (digitsOf n).length ≤ k) ∧ (9 < n → (digitsOf n).head? ≠ some 0) := by
  induction n using Nat.strongRecOn with
  | _ n ih =>
    rw [digitsOf]
    split
    · next h =>
      refine ⟨by simp [number], by simpa using h, fun k hk _ => by simp; omega, fun h9 => by omega⟩
    · next h =>
      obtain ⟨h1, h2, h3, h4⟩ := ih (n / 10) (by omega)
      refine ⟨by rw [number_snoc, h1]; omega, ?_, ?_, ?_⟩
      · intro d hd
        rcases List.mem_append.1 hd with hd | hd
        · exact h2 d hd
        · simp at hd; omega
      · intro k hk hn
        have hk2 : k ≠ 1 := by rintro rfl; simp at hn; omega
        have hp : 10 ^ k = 10 ^ (k - 1) * 10 := by rw [← pow_succ]; congr 1; omega
        have := h3 (k - 1) (by omega) (by omega)
        simp; omega
      · intro _
        by_cases h9 : 9 < n / 10
        · have := h4 h9
          cases hc : digitsOf (n / 10) with
          | nil => rw [hc] at h1; simp [number] at h1; omega
          | cons a l => rw [hc] at this; simpa using this
        · rw [digitsOf, if_pos (by omega)]; simp; omega

theorem pad_spec {k : Nat} {ds : List Nat} (h : ds.length ≤ k) : number (pad k ds) = number ds ∧ (pad k ds).length = k := by
  constructor
  · rw [pad, number_append, number_replicate]; simp
  · simp [pad]; omega

theorem print_eq (h : c.Good) {d : Dec} (hd : d.WF c) :
    d.print c = .ok ((if d.pos then [] else [45]) ++ chars (digitsOf (d.man / 10 ^ d.exp)) ++
      (if d.exp ≠ 0 then 46 :: chars (pad d.exp (digitsOf (d.man % 10 ^ d.exp))) else [])) := by
  simp only [Dec.print]
  rw [h.denom (WF.exp_le hd), Res.ok_bind, if_neg (by simp)]

/-- The digits behind the point that are printed. -/
def fracDigits (d : Dec) : List Nat := if d.exp ≠ 0 then pad d.exp (digitsOf (d.man % 10 ^ d.exp)) else []

theorem fracDigits_spec (d : Dec) : number (fracDigits d) = d.man % 10 ^ d.exp ∧ (fracDigits d).length = d.exp ∧
    ∀ x ∈ fracDigits d, x < 10 := by
  simp only [fracDigits]
  split
  · next he =>
    obtain ⟨h1, h2, h3, _⟩ := digitsOf_spec (d.man % 10 ^ d.exp)
    obtain ⟨q1, q2⟩ := pad_spec (h3 d.exp (by omega) (Nat.mod_lt _ (by positivity)))
    refine ⟨by rw [q1, h1], q2, ?_⟩
    intro x hx
    rcases List.mem_append.1 hx with hx | hx
    · rw [List.mem_replicate] at hx; omega
    · exact h2 x hx
  · next he =>
    have : d.exp = 0 := by omega
    simp [number, this, Nat.mod_one]

theorem print_literal (h : c.Good) {d : Dec} (hd : d.WF c) : ∃ t, d.print c = .ok t ∧ t ≠ [] ∧
    Literal t (!d.pos) (digitsOf (d.man / 10 ^ d.exp)) (fracDigits d) := by
  refine ⟨_, print_eq h hd, ?_, (digitsOf_spec _).2.1, (fracDigits_spec d).2.2,
    if d.pos then [] else [45], if d.exp ≠ 0 then [46] else [], ?_, ?_, ?_⟩
  · have : chars (digitsOf (d.man / 10 ^ d.exp)) ≠ [] := by
      rw [digitsOf]; split <;> simp [chars]
    intro hc
    simp only [List.append_eq_nil_iff] at hc
    exact this hc.1.2
  · by_cases he : d.exp = 0
    · simp [he, fracDigits, chars]
    · simp [he, fracDigits, chars]
  · cases d.pos <;> simp
  · by_cases he : d.exp = 0
    · right; simp [he, fracDigits]
    · left; simp [he]

/-! ## Reading gives the normal form -/

theorem strip_digits {fs : List Nat} (h : ∀ d ∈ fs, d < 10) : ∀ d ∈ strip fs, d < 10 := by
  obtain ⟨z, h1, _⟩ := strip_split fs
  intro d hd
  exact h d (by rw [h1]; exact List.mem_append_left _ hd)

theorem strip_last (fs : List Nat) (h : ∀ d ∈ fs, d < 10) : strip fs = [] ∨ number (strip fs) % 10 ≠ 0 := by
  induction fs using List.reverseRecOn with
  | nil => exact Or.inl rfl
  | append_singleton P d ih =>
    by_cases hd : d = 0
    · subst hd; rw [strip_zero]; exact ih (fun x hx => h x (by simp [hx]))
    · right
      rw [strip_nonzero P hd, number_snoc]
      have := h d (by simp)
      omega

/-- The decimal that is read from a literal. -/
def readDec (neg : Bool) (ds fs : List Nat) : Dec :=
  ⟨!neg, (strip fs).length, number ds * 10 ^ (strip fs).length + number (strip fs)⟩

theorem readDec_normal (neg : Bool) (ds : List Nat) {fs : List Nat} (h : ∀ d ∈ fs, d < 10) : (readDec neg ds fs).Normal := by
  rcases strip_last fs h with h1 | h1
  · simp [readDec, Dec.Normal, h1]
  · simp only [readDec, Dec.Normal]
    refine ⟨fun h2 => by omega, ?_⟩
    by_cases h2 : (strip fs).length = 0
    · exact Or.inr (Or.inl h2)
    · right; right
      obtain ⟨k, hk⟩ := Nat.exists_eq_succ_of_ne_zero h2
      rw [hk, pow_succ, ← Nat.mul_assoc]
      omega

theorem readDec_value (neg : Bool) (ds fs : List Nat) : (readDec neg ds fs).value = literalValue neg ds fs := by
  obtain ⟨z, h1, h2⟩ := strip_split fs
  have h3 := strip_number fs
  have hz : fs.length - (strip fs).length = z := by omega
  rw [hz] at h3
  simp only [readDec, Dec.value, literalValue, h3, h2]
  push_cast
  rw [pow_add]
  cases neg <;> simp <;> field_simp

/-- Representable as a decimal of this type. -/
theorem readDec_wf_iff {neg : Bool} {ds fs : List Nat} (hfs : ∀ d ∈ fs, d < 10) :
    ((strip fs).length ≤ c.maxExp ∧ number ds * 10 ^ (strip fs).length + number (strip fs) ≤ c.maxMan) ↔
    ∃ d : Dec, d.WF c ∧ d.value = literalValue neg ds fs := by
  have e1 := two_e_le (c := c)
  have e2 := maxMan_succ (c := c)
  constructor
  · intro h
    exact ⟨readDec neg ds fs, ⟨by simp only [readDec]; omega, by simp only [readDec]; omega⟩, readDec_value neg ds fs⟩
  · rintro ⟨d, hd, hv⟩
    obtain ⟨w, v, p, n, _⟩ := normalize_spec hd
    have hn := readDec_normal neg ds hfs
    have habs : (d.normalize c).man * 10 ^ (readDec neg ds fs).exp = (readDec neg ds fs).man * 10 ^ (d.normalize c).exp := by
      have h1 : |(d.normalize c).value| = |(readDec neg ds fs).value| := by rw [v, hv, readDec_value]
      have habs : ∀ x : Dec, |x.value| = (x.man : ℚ) / 10 ^ x.exp := by
        intro x
        simp only [Dec.value]
        rw [abs_div, abs_mul, abs_of_nonneg (show (0 : ℚ) ≤ 10 ^ x.exp by positivity),
          abs_of_nonneg (show (0 : ℚ) ≤ (x.man : ℚ) by positivity)]
        split <;> simp
      rw [habs, habs, div_eq_div_iff (by positivity) (by positivity)] at h1
      exact_mod_cast h1
    obtain ⟨q1, q2⟩ := normal_unique n hn habs
    have w1 := WF.exp_le w
    have w2 := WF.man_le w
    rw [q1] at w1
    rw [q2] at w2
    exact ⟨w1, w2⟩

theorem append_zeros_lt {p q : PS} {d : Nat} (h : append c false p d = .ok q) : q.zeros < 256 := by
  simp only [append, Bool.false_eq_true, if_false] at h
  split at h
  · cases h
    exact Nat.mod_lt _ (by decide)
  · obtain ⟨r, _, h⟩ := Res.bind_eq_ok.1 h
    simp only [doAppend] at h
    split at h
    · cases h
    · cases h
      simp

theorem parseLoop_zeros (G : List Nat) : ∀ (n : Nat) (p : PS), p.zeros < 256 →
    parseLoop c false p (List.replicate n 48 ++ G) = parseLoop c false { p with zeros := (p.zeros + n) % 256 } G
  | 0, p, h => by simp [Nat.mod_eq_of_lt h]
  | n + 1, p, h => by
    have hs : symbolToDigit 48 = .ok 0 := rfl
    rw [List.replicate_succ, List.cons_append, parseLoop]
    simp only [Bool.false_eq_true, false_and, if_false, hs, Res.ok_bind, append, if_true]
    rw [parseLoop_zeros G n _ (Nat.mod_lt _ (by decide))]
    simp only [Nat.mod_add_mod, Nat.add_assoc, Nat.add_comm 1 n]

theorem parseLoop_prefix {G H : List Nat} (hGH : ∀ q : PS, q.zeros < 256 → parseLoop c false q G = parseLoop c false q H) :
    ∀ (F : List Nat) (p : PS), p.zeros < 256 → parseLoop c false p (F ++ G) = parseLoop c false p (F ++ H)
  | [], p, h => hGH p h
  | ch :: F, p, h => by
    simp only [List.cons_append, parseLoop, Bool.false_eq_true, false_and, if_false]
    rcases symbolToDigit ch with d | e | _
    · simp only [Res.ok_bind]
      rcases hq : append c false p d with q | e | _
      · simp only [Res.ok_bind]
        exact parseLoop_prefix hGH F q (append_zeros_lt hq)
      · rfl
      · rfl
    · rfl
    · rfl

theorem parseLoop_point : ∀ (A : List Nat) (p : PS), 46 ∉ A → ∃ r : Res PS, ∀ T, parseLoop c true p (A ++ 46 :: T) = (r >>= fun q => .ok (T, q))
  | [], p, _ => ⟨.ok p, fun T => by simp [parseLoop]⟩
  | ch :: A, p, h => by
    have h1 : ch ≠ 46 := fun e => h (by simp [e])
    rcases hs : symbolToDigit ch with d | e | _
    · rcases hq : append c true p d with q | e | _
      · obtain ⟨r, hr⟩ := parseLoop_point A q (fun h' => h (List.mem_cons_of_mem _ h'))
        exact ⟨r, fun T => by simp [parseLoop, h1, hs, hq, hr]⟩
      · exact ⟨.throw e, fun T => by simp [parseLoop, h1, hs, hq]⟩
      · exact ⟨.ub, fun T => by simp [parseLoop, h1, hs, hq]⟩
    · exact ⟨.throw e, fun T => by simp [parseLoop, h1, hs]⟩
    · exact ⟨.ub, fun T => by simp [parseLoop, h1, hs]⟩

end Verif.Decimal
