import Verif.Serialize.Undefined
import Verif.Storage.Model

/-! # Which types are read from arbitrary bytes without exceptions other than those of the streams -/

namespace Verif.Serialize

open Verif.Storage (isIo)

/-! ### What it means -/

mutual

/-- The memory for an object of the type does not depend on a length that is read before the data: there are no vectors, and strings, of characters of one byte, are limited to what
fits in the memory. -/
def Sized (env : Env) : Ty → Prop
  | .str c => c = 1 ∧ ∃ L, env.limit = some L ∧ L ≤ env.cap
  | .vec _ => False
  | .arr _ t => Sized env t
  | .opt t _ => Sized env t
  | .coll _ t => Sized env t
  | .map _ kt vt => Sized env kt ∧ Sized env vt
  | .var ts => SizedAll env ts
  | .struct _ ts => SizedAll env ts
  | _ => True

/-- All the types. -/
def SizedAll (env : Env) : List Ty → Prop
  | [] => True
  | t :: ts => Sized env t ∧ SizedAll env ts

end

/-- All exceptions of the reader are `IoException`s. -/
def IoOnly {α : Type} (rd : Rd Unit α) : Prop := ∀ c s e, rd c s = .throw e → isIo e = true

/-! ### Lemmas -/

namespace IoOnly

theorem pure {α : Type} (a : α) : IoOnly (pure a : Rd Unit α) := fun _ _ _ h => by cases h

theorem ub {α : Type} : IoOnly (Rd.ub : Rd Unit α) := fun _ _ _ h => by cases h

theorem fail {α : Type} {e : Exn} (he : isIo e = true) : IoOnly (Rd.fail e : Rd Unit α) := fun _ _ _ h => by cases h; exact he

theorem bind {α β : Type} {f : Rd Unit α} {g : α → Rd Unit β} (hf : IoOnly f) (hg : ∀ a, IoOnly (g a)) : IoOnly (f >>= g) := by
  intro c s e h
  rw [Rd.bind_def] at h
  cases hr : f c s with
  | ok r =>
    obtain ⟨a, c', s'⟩ := r
    rw [hr] at h
    exact hg a c' s' e h
  | throw e' =>
    rw [hr] at h
    cases h
    exact hf c s _ hr
  | ub => rw [hr] at h; cases h

theorem lift {α : Type} {r : Res α} (hr : ∀ e, r = .throw e → isIo e = true) : IoOnly (Rd.lift r : Rd Unit α) := by
  intro c s e h
  unfold Rd.lift at h
  cases r with
  | ok a => cases h
  | throw e' => cases h; exact hr _ rfl
  | ub => cases h

theorem readRaw (n : Nat) : IoOnly (readRaw n : Rd Unit (List UInt8)) := by
  intro c s e h
  unfold Serialize.readRaw at h
  split at h
  · cases h; rfl
  · cases h

theorem readSize : IoOnly (readSize : Rd Unit Nat) := bind (readRaw 8) fun _ => pure _

theorem readBits : ∀ (n : Nat) (a m : UInt8), IoOnly (readBits n a m : Rd Unit (List Val))
  | 0, _, _ => pure _
  | n + 1, a, m => by
    unfold Serialize.readBits
    split
    · exact bind (readRaw 1) fun _ => bind (readBits n _ _) fun _ => pure _
    · exact bind (readBits n _ _) fun _ => pure _

theorem readEach {rd : Val → Rd Unit Val} (h : ∀ v, IoOnly (rd v)) : ∀ vs, IoOnly (readEach rd vs)
  | [] => pure _
  | v :: vs => bind (h v) fun _ => bind (readEach h vs) fun _ => pure _

theorem readVector (k : EK) {rd : Val → Rd Unit Val} (h : ∀ v, IoOnly (rd v)) (vs : List Val) : IoOnly (readVector k rd vs) := by
  cases k with
  | raw n => exact bind (readRaw _) fun _ => pure _
  | each => exact readEach h vs
  | packed => exact readBits _ _ _
  | bad => exact ub

theorem collInsert (k : Coll) (key : Val → Val) (x : Val) (l : List Val) (e : Exn) : collInsert k key x l ≠ .throw e := by
  unfold Serialize.collInsert
  cases k with
  | ring cap => simp only; split <;> [skip; split] <;> nofun
  | _ => nofun

theorem readColl (k : Coll) (key : Val → Val) {rd : Rd Unit Val} (h : IoOnly rd) : ∀ n acc, IoOnly (readColl k key rd n acc)
  | 0, _ => pure _
  | n + 1, acc => bind h fun x => bind (lift fun e he => absurd he (collInsert k key x acc e)) fun _ => readColl k key h n _

theorem readFields : ∀ {rds : List (Val → Rd Unit Val)}, (∀ rd ∈ rds, ∀ v, IoOnly (rd v)) → ∀ vs, IoOnly (readFields rds vs)
  | [], _, [] => pure _
  | [], _, _ :: _ => ub
  | _ :: _, _, [] => ub
  | rd :: rds, h, v :: vs => bind (h rd (by simp) v) fun _ => bind (readFields (fun r hr => h r (by simp [hr])) vs) fun _ => pure _

theorem durationCast (p q : Nat) (i : Int) (e : Exn) : durationCast p q i ≠ .throw e := by
  unfold Serialize.durationCast
  split <;> nofun

end IoOnly

mutual

theorem readTy_ioOnly (env : Env) : ∀ (t : Ty) (old : Val), Sized env t → IoOnly (readTy env plainHook t old)
  | .num n _, old, _ => by simp only [readTy]; exact .bind (.readRaw n) fun _ => .pure _
  | .bool, old, _ => by simp only [readTy]; exact .bind (.readRaw 1) fun _ => .pure _
  | .enm n count, old, _ => by
    simp only [readTy]
    refine .bind (.readRaw n) fun bs => ?_
    split
    · exact .fail rfl
    · exact .pure _
  | .time p q, old, _ => by
    simp only [readTy]
    exact .bind (.readRaw 8) fun bs => .bind (.lift fun e he => absurd he (IoOnly.durationCast _ _ _ e)) fun _ => .pure _
  | .str c, old, h => by
    simp only [Sized] at h
    obtain ⟨rfl, L, hL, hcap⟩ := h
    simp only [readTy]
    intro cx s e he
    rw [Rd.bind_def] at he
    cases hr : readSize cx s with
    | ok r =>
      obtain ⟨len, c', s'⟩ := r
      have hlen : len < 2 ^ 64 := by
        unfold readSize at hr
        rw [Rd.bind_def] at hr
        unfold readRaw at hr
        split at hr
        · rename_i h1
          split at h1
          · cases h1
          · cases h1
            cases hr
            have := leVal_lt (s.take 8)
            rw [List.length_take, Nat.min_eq_left (by omega)] at this
            norm_num at this ⊢
            exact this
        · cases hr
        · cases hr
      rw [hr] at he
      simp only [Nat.mul_one, Nat.mod_eq_of_lt hlen, hL, Option.any_some, decide_eq_true_eq] at he
      revert he
      split
      · intro he; cases he; rfl
      · rename_i hle
        refine IoOnly.bind (.lift fun e' he' => ?_) (fun vs => .bind (.readRaw _) fun _ => .pure _) _ _ _
        unfold resize at he'
        rw [if_neg (by omega)] at he'
        cases he'
    | throw e' =>
      rw [hr] at he
      cases he
      exact IoOnly.readSize _ _ _ hr
    | ub => rw [hr] at he; cases he
  | .vec t, old, h => by simp [Sized] at h
  | .arr n t, old, h => by
    simp only [Sized] at h
    simp only [readTy]
    cases old with
    | list vs => exact .bind (.readVector _ (fun v => readTy_ioOnly env t v h) vs) fun _ => .pure _
    | _ => exact .ub
  | .opt t _, old, h => by
    simp only [Sized] at h
    simp only [readTy]
    refine .bind (.readRaw 1) fun bs => ?_
    split
    · exact .bind (readTy_ioOnly env t _ h) fun _ => .pure _
    · exact .pure _
  | .coll k t, old, h => by
    simp only [Sized] at h
    simp only [readTy]
    refine .bind .readSize fun n => ?_
    cases old with
    | list vs => exact .bind (.readColl _ _ (readTy_ioOnly env t _ h) _ _) fun _ => .pure _
    | _ => exact .ub
  | .map k kt vt, old, h => by
    simp only [Sized] at h
    simp only [readTy]
    refine .bind .readSize fun n => ?_
    cases old with
    | list vs =>
      exact .bind (.readColl _ _ (.bind (readTy_ioOnly env kt _ h.1) fun _ => .bind (readTy_ioOnly env vt _ h.2) fun _ => .pure _) _ _) fun _ => .pure _
    | _ => exact .ub
  | .var ts, old, h => by
    simp only [Sized] at h
    simp only [readTy]
    refine .bind .readSize fun i => ?_
    split
    · rename_i rd d hrd _
      exact .bind (readTys_ioOnly env ts h rd (List.mem_of_getElem? hrd) d) fun _ => .pure _
    · exact .ub
  | .struct info ts, old, h => by
    simp only [Sized] at h
    simp only [readTy]
    cases old with
    | list vs => exact .bind (.readFields (fun rd hrd v => readTys_ioOnly env ts h rd hrd v) vs) fun _ => .pure _
    | _ => exact .ub

theorem readTys_ioOnly (env : Env) : ∀ (ts : List Ty), SizedAll env ts → ∀ rd ∈ readTys env plainHook ts, ∀ v, IoOnly (rd v)
  | [], _, rd, hrd, _ => by simp [readTys] at hrd
  | t :: ts, h, rd, hrd, v => by
    simp only [SizedAll] at h
    simp only [readTys, List.mem_cons] at hrd
    rcases hrd with rfl | hrd
    · exact readTy_ioOnly env t v h.1
    · exact readTys_ioOnly env ts h.2 rd hrd v

end

/-- Whatever the bytes are. -/
theorem read_ioOnly (env : Env) (t : Ty) (old : Val) (ht : Sized env t) (s : List UInt8) (e : Exn) (h : read env t old s = .throw e) : isIo e = true := by
  unfold read at h
  cases hr : readTy env (plainHook (σ := Unit)) t old () s with
  | ok r => obtain ⟨a, b, c⟩ := r; rw [hr] at h; cases h
  | throw e' => rw [hr] at h; cases h; exact readTy_ioOnly env t old ht _ _ _ hr
  | ub => rw [hr] at h; cases h

/-- A length before the elements of a vector that is more than the memory holds. -/
theorem read_vec_long (env : Env) (t : Ty) (vs : List Val) (n : Nat) (hn : n < 2 ^ 64) (hc : env.cap < n) (rest : List UInt8) :
    read env (.vec t) (.list vs) (leBytes 8 n ++ rest) = .throw .general := by
  obtain ⟨c', _, e⟩ := (Exact.readSize (σ := Unit) (I := fun _ => True) n hn () trivial).1 rest
  simp only [read, readTy, Rd.bind_def, e, Rd.lift, resize, if_pos hc]

/-- The length of a string whose number of bytes wraps around passes the limit. -/
theorem read_str_long (env : Env) (c n L : Nat) (hn : n < 2 ^ 64) (hL : env.limit = some L) (hw : n * c % 2 ^ 64 ≤ L) (hc : env.cap < n) (old : Val) (rest : List UInt8) :
    read env (.str c) old (leBytes 8 n ++ rest) = .throw .general := by
  obtain ⟨c', _, e⟩ := (Exact.readSize (σ := Unit) (I := fun _ => True) n hn () trivial).1 rest
  have hw' : ¬ (env.limit.any (· < n * c % 2 ^ 64) = true) := by
    rw [hL]
    simp only [Option.any_some, decide_eq_true_eq]
    omega
  simp only [read, readTy, Rd.bind_def, e, if_neg hw', Rd.lift, resize, if_pos hc]

end Verif.Serialize
