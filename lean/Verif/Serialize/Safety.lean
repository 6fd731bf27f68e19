import Verif.Serialize.RoundTrip

/-!
# Reading arbitrary bytes
-/

namespace Verif.Serialize

/-- Whatever the stream contains, up to `N` bytes, and in every state of the context that meets `I`: no undefined
behaviour, only a prefix of the stream is consumed, the state still meets `I` and a value that is returned
satisfies `P`. -/
def Safe {σ α : Type} (I : σ → Prop) (N : Nat) (rd : Rd σ α) (P : α → Prop) : Prop :=
  ∀ c s, I c → s.length ≤ N → match rd c s with
    | .ok (a, c', s') => P a ∧ I c' ∧ s' <:+ s
    | .throw _ => True
    | .ub => False

theorem Safe.pure {σ α : Type} {I : σ → Prop} {N : Nat} {P : α → Prop} (a : α) (h : P a) : Safe I N (Pure.pure a : Rd σ α) P := by
  intro c s hI _
  rw [Rd.pure_def]
  exact ⟨h, hI, List.suffix_refl s⟩

theorem Safe.bind {σ α β : Type} {I : σ → Prop} {N : Nat} {P : α → Prop} {Q : β → Prop} {f : Rd σ α} {g : α → Rd σ β}
    (hf : Safe I N f P) (hg : ∀ a, P a → Safe I N (g a) Q) : Safe I N (f >>= g) Q := by
  intro c s hI hN
  rw [Rd.bind_def]
  have h1 := hf c s hI hN
  cases hfc : f c s with
  | ok r =>
    obtain ⟨a, c', s'⟩ := r
    rw [hfc] at h1
    have h2 := hg a h1.1 c' s' h1.2.1 (Nat.le_trans h1.2.2.length_le hN)
    simp only
    cases hgc : g a c' s' with
    | ok r2 =>
      obtain ⟨b, c2, s2⟩ := r2
      rw [hgc] at h2
      exact ⟨h2.1, h2.2.1, h2.2.2.trans h1.2.2⟩
    | throw e => trivial
    | ub => rw [hgc] at h2; exact h2
  | throw e => trivial
  | ub => rw [hfc] at h1; exact h1

theorem Safe.fail {σ α : Type} {I : σ → Prop} {N : Nat} {P : α → Prop} (e : Exn) : Safe I N (Rd.fail e : Rd σ α) P := by
  intro c s _ _; trivial

theorem Safe.lift {σ α : Type} {I : σ → Prop} {N : Nat} {P : α → Prop} {r : Res α} (h1 : r ≠ .ub) (h2 : ∀ a, r = .ok a → P a) :
    Safe I N (Rd.lift r : Rd σ α) P := by
  intro c s hI _
  unfold Rd.lift
  cases r with
  | ok a => exact ⟨h2 a rfl, hI, List.suffix_refl s⟩
  | throw e => trivial
  | ub => exact absurd rfl h1

theorem Safe.readRaw {σ : Type} {I : σ → Prop} {N : Nat} (n : Nat) : Safe I N (readRaw n : Rd σ _) (fun bs => bs.length = n) := by
  intro c s hI _
  unfold Serialize.readRaw
  by_cases h : s.length < n
  · rw [if_pos h]; trivial
  · rw [if_neg h]
    exact ⟨by simp; omega, hI, List.drop_suffix n s⟩

theorem Safe.readSize {σ : Type} {I : σ → Prop} {N : Nat} : Safe I N (readSize : Rd σ Nat) (fun n => n < 2 ^ 64) := by
  unfold Serialize.readSize
  refine Safe.bind (Safe.readRaw 8) (fun bs hbs => Safe.pure _ ?_)
  have := leVal_lt bs
  rw [hbs] at this
  norm_num at this ⊢
  exact this

theorem splitNums_legal (n : Nat) : ∀ k bs, (splitNums n k bs).length = k ∧
    ∀ v ∈ splitNums n k bs, ∃ x, v = .num x ∧ x < 256 ^ n
  | 0, bs => by simp [splitNums]
  | k + 1, bs => by
    obtain ⟨h1, h2⟩ := splitNums_legal n k (bs.drop n)
    simp only [splitNums, List.length_cons, h1, List.mem_cons, true_and]
    rintro v (rfl | hv)
    · refine ⟨_, rfl, ?_⟩
      refine Nat.lt_of_lt_of_le (leVal_lt _) (Nat.pow_le_pow_right (by omega) ?_)
      simp
    · exact h2 v hv

theorem readBits_safe {σ : Type} {I : σ → Prop} {N : Nat} : ∀ n aggr mask, Safe I N (readBits n aggr mask : Rd σ _)
    (fun vs => vs.length = n ∧ ∀ v ∈ vs, ∃ b, v = .bool b)
  | 0, _, _ => by
    simp only [readBits]
    exact Safe.pure _ (by simp)
  | n + 1, aggr, mask => by
    simp only [readBits]
    by_cases hm : mask = 0
    · rw [if_pos hm]
      refine Safe.bind (Safe.readRaw 1) (fun bs _ => Safe.bind (readBits_safe n _ _) (fun vs hvs => Safe.pure _ ?_))
      refine ⟨by simp [hvs.1], ?_⟩
      simp only [List.mem_cons]
      rintro v (rfl | hv)
      · exact ⟨_, rfl⟩
      · exact hvs.2 v hv
    · rw [if_neg hm]
      refine Safe.bind (readBits_safe n _ _) (fun vs hvs => Safe.pure _ ?_)
      refine ⟨by simp [hvs.1], ?_⟩
      simp only [List.mem_cons]
      rintro v (rfl | hv)
      · exact ⟨_, rfl⟩
      · exact hvs.2 v hv

theorem readEach_safe {σ : Type} {I : σ → Prop} {N : Nat} {P : Val → Prop} (rd : Val → Rd σ Val) : ∀ olds : List Val,
    (∀ o ∈ olds, Safe I N (rd o) P) → Safe I N (readEach rd olds) (fun vs => vs.length = olds.length ∧ ∀ v ∈ vs, P v)
  | [], _ => by
    simp only [readEach]
    exact Safe.pure _ (by simp)
  | o :: os, h => by
    simp only [readEach]
    refine Safe.bind (h o (by simp)) (fun v hv => Safe.bind (readEach_safe rd os (fun p hp => h p (by simp [hp])))
      (fun vs hvs => Safe.pure _ ?_))
    refine ⟨by simp [hvs.1], ?_⟩
    simp only [List.mem_cons]
    rintro w (rfl | hw)
    · exact hv
    · exact hvs.2 w hw

theorem readVector_safe {σ : Type} {I : σ → Prop} {N : Nat} (env : Env) (t : Ty) (rd : Val → Rd σ Val) (olds : List Val)
    (hne : ∀ n c, t ≠ .enm n c) (h : ∀ o ∈ olds, Safe I N (rd o) (Legal env t)) :
    Safe I N (readVector (elemKind t) rd olds) (fun vs => vs.length = olds.length ∧ ∀ v ∈ vs, Legal env t v) := by
  cases t with
  | num n =>
    simp only [elemKind, readVector]
    refine Safe.bind (Safe.readRaw _) (fun bs hbs => Safe.pure _ ?_)
    obtain ⟨h1, h2⟩ := splitNums_legal n olds.length bs
    refine ⟨h1, fun v hv => ?_⟩
    obtain ⟨x, rfl, hx⟩ := h2 v hv
    simpa [Legal] using hx
  | bool =>
    simp only [elemKind, readVector]
    intro c s hI hN
    have := readBits_safe (σ := σ) olds.length 0 0 c s hI hN
    cases hr : (readBits olds.length 0 0 : Rd σ _) c s with
    | ok r =>
      rw [hr] at this
      refine ⟨⟨this.1.1, fun v hv => ?_⟩, this.2⟩
      obtain ⟨b, rfl⟩ := this.1.2 v hv
      simp [Legal]
    | throw e => trivial
    | ub => rw [hr] at this; exact this
  | enm n c => exact absurd rfl (hne n c)
  | _ => exact readEach_safe rd olds h

theorem insertOrdered_mem (lt : Val → Val → Bool) (key : Val → Val) (x : Val) (l : List Val) :
    ∀ z ∈ insertOrdered lt key x l, z = x ∨ z ∈ l := by
  induction l with
  | nil => simp [insertOrdered]
  | cons y ys ih =>
    intro z hz
    simp only [insertOrdered] at hz
    split at hz
    · rcases List.mem_cons.mp hz with h | h
      · right; simp [h]
      · rcases ih z h with h | h
        · left; exact h
        · right; simp [h]
    · split at hz
      · rcases List.mem_cons.mp hz with h | h
        · left; exact h
        · right; exact h
      · right; exact hz

theorem insertOrdered_pairwise (lt : Val → Val → Bool) (key : Val → Val) (x : Val) (l : List Val)
    (htr : ∀ a b c, lt a b = true → lt b c = true → lt a c = true)
    (h : l.Pairwise (fun a b => lt (key a) (key b) = true)) :
    (insertOrdered lt key x l).Pairwise (fun a b => lt (key a) (key b) = true) := by
  induction l with
  | nil => simp [insertOrdered]
  | cons y ys ih =>
    rw [List.pairwise_cons] at h
    simp only [insertOrdered]
    split
    · rename_i h1
      rw [List.pairwise_cons]
      refine ⟨fun z hz => ?_, ih h.2⟩
      rcases insertOrdered_mem lt key x ys z hz with h3 | h3
      · rw [h3]; exact h1
      · exact h.1 z h3
    · split
      · rename_i h2
        rw [List.pairwise_cons]
        refine ⟨fun z hz => ?_, List.pairwise_cons.mpr h⟩
        rcases List.mem_cons.mp hz with h3 | h3
        · rw [h3]; exact h2
        · exact htr _ _ _ h2 (h.1 z h3)
      · exact List.pairwise_cons.mpr h

theorem collInsert_safe (k : Coll) (key : Val → Val) (x : Val) (l : List Val) (hk : k.Good) (hv : k.Valid key l)
    (P : Val → Prop) (hx : P x) (hl : ∀ v ∈ l, P v) :
    collInsert k key x l ≠ .ub ∧ ∀ r, collInsert k key x l = .ok r → k.Valid key r ∧ ∀ v ∈ r, P v := by
  cases k with
  | deque =>
    simp only [collInsert, ne_eq, reduceCtorEq, not_false_eq_true, Res.ok.injEq, true_and]
    rintro r rfl
    exact ⟨trivial, by simp only [List.mem_append, List.mem_singleton]; rintro v (h | rfl); exacts [hl v h, hx]⟩
  | ring cap =>
    simp only [Coll.Good] at hk
    simp only [Coll.Valid] at hv ⊢
    simp only [collInsert]
    rw [if_neg (by omega)]
    by_cases hc : l.length < cap
    · rw [if_pos hc]
      refine ⟨nofun, ?_⟩
      rintro r hr
      cases hr
      exact ⟨by simp; omega,
        by simp only [List.mem_append, List.mem_singleton]; rintro v (h | rfl); exacts [hl v h, hx]⟩
    · rw [if_neg hc]
      refine ⟨nofun, ?_⟩
      rintro r hr
      cases hr
      refine ⟨by simp; omega, ?_⟩
      simp only [List.mem_append, List.mem_singleton]
      rintro v (h | rfl)
      · exact hl v (List.mem_of_mem_tail h)
      · exact hx
  | ordered lt =>
    simp only [Coll.Good] at hk
    simp only [Coll.Valid] at hv ⊢
    simp only [collInsert, ne_eq, reduceCtorEq, not_false_eq_true, Res.ok.injEq, true_and]
    rintro r rfl
    refine ⟨insertOrdered_pairwise lt key x l hk hv, fun v hv' => ?_⟩
    rcases insertOrdered_mem lt key x l v hv' with rfl | h
    · exact hx
    · exact hl v h
  | hashed eq =>
    simp only [Coll.Valid] at hv ⊢
    simp only [collInsert, ne_eq, reduceCtorEq, not_false_eq_true, Res.ok.injEq, true_and]
    rintro r rfl
    split
    · exact ⟨hv, hl⟩
    · rename_i hn
      rw [Bool.not_eq_true, List.any_eq_false] at hn
      refine ⟨?_, by simp only [List.mem_append, List.mem_singleton]; rintro v (h | rfl); exacts [hl v h, hx]⟩
      rw [List.pairwise_append]
      refine ⟨hv, by simp, ?_⟩
      intro a ha b hb
      rw [List.mem_singleton] at hb
      subst hb
      simpa using hn a ha

theorem readColl_safe {σ : Type} {I : σ → Prop} {N : Nat} (k : Coll) (key : Val → Val) (rd : Rd σ Val) (P : Val → Prop) (hk : k.Good)
    (hrd : Safe I N rd P) : ∀ n acc, k.Valid key acc → (∀ v ∈ acc, P v) →
      Safe I N (readColl k key rd n acc) (fun r => k.Valid key r ∧ ∀ v ∈ r, P v)
  | 0, acc, hv, ha => by
    simp only [readColl]
    exact Safe.pure _ ⟨hv, ha⟩
  | n + 1, acc, hv, ha => by
    simp only [readColl]
    refine Safe.bind hrd (fun x hx => ?_)
    obtain ⟨h1, h2⟩ := collInsert_safe k key x acc hk hv P hx ha
    refine Safe.bind (Safe.lift (P := fun r => k.Valid key r ∧ ∀ v ∈ r, P v) h1 h2) (fun r hr => ?_)
    exact readColl_safe k key rd P hk hrd n r hr.1 hr.2

mutual

theorem legal_dflt (env : Env) : ∀ t, Checked env t → Legal env t (dflt t)
  | .num n _, _ => by
    simp only [dflt, Legal]
    exact Nat.pos_of_ne_zero (by simp)
  | .bool, _ => by simp [dflt, Legal]
  | .enm _ _, h => by simpa [dflt, Legal, Checked] using h
  | .time _ _, _ => by simp [dflt, Legal]
  | .str _, _ => by simp [dflt, Legal]
  | .vec _, _ => by simp [dflt, Legal]
  | .arr n t, h => by
    simp only [Checked] at h
    simp only [dflt, Legal, List.length_replicate, true_and]
    intro v hv
    rw [(List.mem_replicate.mp hv).2]
    exact legal_dflt env t h.2
  | .opt _ _, _ => by simp [dflt, Legal]
  | .coll k _, h => by
    simp only [dflt, Legal]
    refine ⟨?_, by simp⟩
    cases k <;> simp [Coll.Valid]
  | .map k _ _, h => by
    simp only [dflt, Legal]
    refine ⟨?_, by simp⟩
    cases k <;> simp [Coll.Valid]
  | .var _, h => by simp [Checked] at h
  | .struct _ ts, h => by
    simp only [Checked] at h
    simp only [dflt, Legal]
    exact legal_dflts env ts h

theorem legal_dflts (env : Env) : ∀ ts, CheckedAll env ts → Legals env ts (dflt.dflts ts)
  | [], _ => by simp [dflt.dflts, Legals]
  | t :: ts, h => by
    simp only [CheckedAll] at h
    simp only [dflt.dflts, Legals]
    exact ⟨legal_dflt env t h.1, legal_dflts env ts h.2⟩

end

mutual

/-- Every structure inside the type has the property. -/
def Structs (D : Option SInfo → List Ty → Prop) : Ty → Prop
  | .vec t => Structs D t
  | .arr _ t => Structs D t
  | .opt t _ => Structs D t
  | .coll _ t => Structs D t
  | .map _ kt vt => Structs D kt ∧ Structs D vt
  | .var ts => StructsAll D ts
  | .struct info ts => D info ts ∧ StructsAll D ts
  | _ => True

/-- All of them. -/
def StructsAll (D : Option SInfo → List Ty → Prop) : List Ty → Prop
  | [] => True
  | t :: ts => Structs D t ∧ StructsAll D ts

end

mutual

theorem structs_true : ∀ t, Structs (fun _ _ => True) t
  | .num _ _ => by simp [Structs]
  | .bool => by simp [Structs]
  | .enm _ _ => by simp [Structs]
  | .time _ _ => by simp [Structs]
  | .str _ => by simp [Structs]
  | .vec t => by simp [Structs, structs_true t]
  | .arr _ t => by simp [Structs, structs_true t]
  | .opt t _ => by simp [Structs, structs_true t]
  | .coll _ t => by simp [Structs, structs_true t]
  | .map _ kt vt => by simp [Structs, structs_true kt, structs_true vt]
  | .var ts => by simp [Structs, structsAll_true ts]
  | .struct _ ts => by simp [Structs, structsAll_true ts]

theorem structsAll_true : ∀ ts, StructsAll (fun _ _ => True) ts
  | [] => by simp [StructsAll]
  | t :: ts => by simp [StructsAll, structs_true t, structsAll_true ts]

end

/-- The hook preserves safety: whenever each field reader is safe, so is the structure. -/
def HookSafe {σ : Type} (I : σ → Prop) (N : Nat) (D : Option SInfo → List Ty → Prop) (env : Env) (h : Hook σ) : Prop :=
  ∀ info (ts : List Ty) (rds : List (Val → Rd σ Val)) olds, D info ts → Legals env ts olds → rds.length = ts.length →
    (∀ (i : Nat) (t : Ty) (rd : Val → Rd σ Val) (o : Val), ts[i]? = some t → rds[i]? = some rd → Legal env t o → Safe I N (rd o) (Legal env t)) →
    Safe I N (h info rds olds) (Legals env ts)

theorem plainHook_safe {σ : Type} {I : σ → Prop} {N : Nat} {D : Option SInfo → List Ty → Prop} (env : Env) : HookSafe I N D env (plainHook : Hook σ) := by
  intro info ts
  suffices hk : ∀ (rds : List (Val → Rd σ Val)) olds, _ → _ → _ → Safe I N (readFields rds olds) (Legals env ts) from fun rds olds _ => hk rds olds
  induction ts with
  | nil =>
    intro rds olds hl hr _
    have : rds = [] := List.eq_nil_of_length_eq_zero hr
    subst this
    cases olds with
    | nil => exact Safe.pure _ (by simp [Legals])
    | cons _ _ => simp [Legals] at hl
  | cons t ts ih =>
    intro rds olds hl hr hs
    cases rds with
    | nil => simp at hr
    | cons rd rds =>
      cases olds with
      | nil => simp [Legals] at hl
      | cons o os =>
        simp only [Legals] at hl
        simp only [readFields]
        refine Safe.bind (hs 0 t rd o (by simp) (by simp) hl.1) (fun v hv => ?_)
        refine Safe.bind (ih rds os hl.2 (by simpa using hr) (fun i t' rd' o' h1 h2 h3 =>
          hs (i + 1) t' rd' o' (by simpa using h1) (by simpa using h2) h3)) (fun vs hvs => ?_)
        exact Safe.pure _ (by simp only [Legals]; exact ⟨hv, hvs⟩)

theorem durationCast_one (p : Nat) (i : Int) (h1 : -2 ^ 63 ≤ i) (h2 : i < 2 ^ 63) :
    durationCast 1 p i ≠ .ub := by
  unfold durationCast
  rw [if_pos (by rw [fits64_iff]; simp; omega)]
  nofun

theorem toInt64_range (n : Nat) (h : n < 2 ^ 64) : -2 ^ 63 ≤ toInt64 n ∧ toInt64 n < 2 ^ 63 := by
  unfold toInt64
  split <;> omega

theorem readTys_length {σ : Type} (env : Env) (h : Hook σ) : ∀ (ts : List Ty), (readTys env h ts).length = ts.length
  | [] => by simp [readTys]
  | t :: ts => by simp [readTys, readTys_length env h ts]

section

variable {σ : Type} {I : σ → Prop} {N : Nat} {D : Option SInfo → List Ty → Prop} (env : Env) (h : Hook σ)

mutual

theorem readTy_safe (hh : HookSafe I N D env h) : ∀ (t : Ty) (old : Val), Structs D t → Checked env t → Legal env t old →
    Safe I N (readTy env h t old) (Legal env t)
  | .num n _, old, _, _, _ => by
    simp only [readTy]
    refine Safe.bind (Safe.readRaw n) (fun bs hbs => Safe.pure _ ?_)
    simp only [Legal]
    have := leVal_lt bs
    rwa [hbs] at this
  | .bool, old, _, _, _ => by
    simp only [readTy]
    exact Safe.bind (Safe.readRaw 1) (fun bs hbs => Safe.pure _ (by simp [Legal]))
  | .enm n count, old, _, _, _ => by
    simp only [readTy]
    refine Safe.bind (Safe.readRaw n) (fun bs hbs => ?_)
    by_cases hc : count ≤ leVal bs
    · rw [if_pos hc]; exact Safe.fail _
    · rw [if_neg hc]; exact Safe.pure _ (by simp only [Legal]; omega)
  | .time p q, old, _, hc, _ => by
    simp only [Checked] at hc
    subst hc
    simp only [readTy]
    refine Safe.bind (Safe.readRaw 8) (fun bs hbs => ?_)
    have h1 := leVal_lt bs
    rw [hbs] at h1
    have h2 := toInt64_range (leVal bs) (by norm_num at h1 ⊢; exact h1)
    exact Safe.bind (Safe.lift (P := fun _ => True) (durationCast_one p _ h2.1 h2.2) (fun _ _ => trivial))
      (fun i _ => Safe.pure _ (by simp [Legal]))
  | .str c, old, _, hc, _ => by
    simp only [Checked] at hc
    simp only [readTy]
    refine Safe.bind Safe.readSize (fun len hlen => ?_)
    by_cases hl : env.limit.any (· < len * c % 2 ^ 64) = true
    · rw [if_pos hl]; exact Safe.fail _
    · rw [if_neg hl]
      refine Safe.bind (Safe.lift (P := fun vs => vs.length = len ∧ len ≤ env.cap) ?_ ?_) (fun vs hvs => ?_)
      · unfold resize; split <;> nofun
      · intro a ha
        unfold resize at ha
        split at ha
        · exact absurd ha nofun
        · cases ha
          refine ⟨by simp, by omega⟩
      · refine Safe.bind (Safe.readRaw _) (fun bs hbs => Safe.pure _ ?_)
        obtain ⟨h1, h2⟩ := splitNums_legal c vs.length (bs ++ List.replicate (vs.length * c - len * c % 2 ^ 64) 0)
        simp only [Legal]
        refine ⟨fun L hL => ?_, h2⟩
        rw [h1, hvs.1]
        have hlt : len * c < 2 ^ 64 := Nat.lt_of_le_of_lt (Nat.mul_le_mul_right c hvs.2) hc
        rw [Nat.mod_eq_of_lt hlt, hL] at hl
        simpa using hl
  | .vec t, old, hd, hc, ho => by
    simp only [Structs] at hd
    simp only [Checked] at hc
    simp only [readTy]
    refine Safe.bind Safe.readSize (fun n hn => ?_)
    cases old with
    | list olds =>
      simp only [Legal] at ho
      refine Safe.bind (Safe.lift (P := fun vs => ∀ v ∈ vs, Legal env t v) ?_ ?_) (fun vs hvs => ?_)
      · unfold resize; split <;> nofun
      · intro a ha v hv
        unfold resize at ha
        split at ha
        · exact absurd ha nofun
        · cases ha
          rcases List.mem_append.mp hv with h1 | h1
          · exact ho v (List.mem_of_mem_take h1)
          · rw [(List.mem_replicate.mp h1).2]; exact legal_dflt env t hc.2
      · refine Safe.bind (readVector_safe env t _ vs hc.1 (fun o ho' => readTy_safe hh t o hd hc.2 (hvs o ho')))
          (fun r hr => Safe.pure _ ?_)
        simp only [Legal]
        exact hr.2
    | _ => simp [Legal] at ho
  | .arr n t, old, hd, hc, ho => by
    simp only [Structs] at hd
    simp only [Checked] at hc
    simp only [readTy]
    cases old with
    | list olds =>
      simp only [Legal] at ho
      refine Safe.bind (readVector_safe env t _ olds hc.1 (fun o ho' => readTy_safe hh t o hd hc.2 (ho.2 o ho')))
          (fun r hr => Safe.pure _ ?_)
      simp only [Legal]
      exact ⟨by rw [hr.1, ho.1], hr.2⟩
    | _ => simp [Legal] at ho
  | .opt t _, old, hd, hc, ho => by
    simp only [Structs] at hd
    simp only [Checked] at hc
    simp only [readTy]
    refine Safe.bind (Safe.readRaw 1) (fun bs _ => ?_)
    by_cases hb : (leVal bs != 0) = true
    · rw [if_pos hb]
      refine Safe.bind (readTy_safe hh t (dflt t) hd hc (legal_dflt env t hc)) (fun v hv => Safe.pure _ ?_)
      simpa only [Legal] using hv
    · rw [if_neg hb]
      exact Safe.pure _ ho
  | .coll k t, old, hd, hc, ho => by
    simp only [Structs] at hd
    simp only [Checked] at hc
    simp only [readTy]
    refine Safe.bind Safe.readSize (fun n hn => ?_)
    cases old with
    | list olds =>
      simp only [Legal] at ho
      refine Safe.bind (readColl_safe k id _ (Legal env t) hc.1
        (readTy_safe hh t (dflt t) hd hc.2 (legal_dflt env t hc.2)) n olds ho.1 ho.2) (fun r hr => Safe.pure _ ?_)
      simp only [Legal]
      exact hr
    | _ => simp [Legal] at ho
  | .map k kt vt, old, hd, hc, ho => by
    simp only [Structs] at hd
    simp only [Checked] at hc
    simp only [readTy]
    refine Safe.bind Safe.readSize (fun n hn => ?_)
    cases old with
    | list olds =>
      simp only [Legal] at ho
      refine Safe.bind (readColl_safe k fstVal _ (fun v => ∃ a b, v = .list [a, b] ∧ Legal env kt a ∧ Legal env vt b) hc.1
        ?_ n olds ho.1 ho.2) (fun r hr => Safe.pure _ ?_)
      · simp only [readPair]
        refine Safe.bind (readTy_safe hh kt (dflt kt) hd.1 hc.2.1 (legal_dflt env kt hc.2.1)) (fun a ha => ?_)
        refine Safe.bind (readTy_safe hh vt (dflt vt) hd.2 hc.2.2 (legal_dflt env vt hc.2.2)) (fun b hb => ?_)
        exact Safe.pure _ ⟨a, b, rfl, ha, hb⟩
      · simp only [Legal]
        exact hr
    | _ => simp [Legal] at ho
  | .var _, _, _, hc, _ => by simp [Checked] at hc
  | .struct info ts, old, hd, hc, ho => by
    simp only [Structs] at hd
    simp only [Checked] at hc
    simp only [readTy]
    cases old with
    | list olds =>
      simp only [Legal] at ho
      refine Safe.bind (hh info ts _ olds hd.1 ho (readTys_length env h ts) (fun i t rd o h1 h2 h3 =>
        readTys_safe hh ts hd.2 hc i t rd o h1 h2 h3)) (fun r hr => Safe.pure _ ?_)
      simp only [Legal]
      exact hr
    | _ => simp [Legal] at ho

theorem readTys_safe (hh : HookSafe I N D env h) : ∀ (ts : List Ty), StructsAll D ts → CheckedAll env ts →
    ∀ (i : Nat) (t : Ty) (rd : Val → Rd σ Val) (o : Val), ts[i]? = some t → (readTys env h ts)[i]? = some rd → Legal env t o → Safe I N (rd o) (Legal env t)
  | [], _, _, i, t, rd, o, h1, _, _ => by simp at h1
  | t' :: ts, hd, hc, 0, t, rd, o, h1, h2, h3 => by
    simp only [List.getElem?_cons_zero, Option.some.injEq, readTys] at h1 h2
    subst h1 h2
    simp only [CheckedAll] at hc
    simp only [StructsAll] at hd
    exact readTy_safe hh t' o hd.1 hc.1 h3
  | t' :: ts, hd, hc, i + 1, t, rd, o, h1, h2, h3 => by
    simp only [List.getElem?_cons_succ, readTys] at h1 h2
    simp only [CheckedAll] at hc
    simp only [StructsAll] at hd
    exact readTys_safe hh ts hd.2 hc.2 i t rd o h1 h2 h3

end

end

end Verif.Serialize
