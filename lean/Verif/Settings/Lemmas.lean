import Verif.Settings.Model
import Verif.Storage.Lemmas

namespace Verif.Settings

open Storage

variable {V : Type}

theorem runProg_res (fail : Option Nat) (p : Prog) (d : Files) : (runProg fail p d).2 = .ok () ∨ (runProg fail p d).2 = .throw .io := by
  unfold runProg
  split
  · simp
  · split <;> simp

/-- Every object refers to itself. -/
def Own (h : Heap V) : Prop := ∀ a o, h a = some o → o.target = a

theorem own_put {h : Heap V} (hi : Own h) (a : Nat) (o : Option (Obj V)) (ho : ∀ x, o = some x → x.target = a) : Own (put h a o) := by
  intro b x hx
  unfold put at hx
  split at hx
  · subst b; exact ho x hx
  · exact hi b x hx

def Act.isMove : Act V → Bool
  | .moveTo .. => true
  | _ => false

theorem own_step {fmt : Format V} {h h' : Heap V} {a : Act V} {r : Option Bool} (hi : Own h) (hm : a.isMove = false)
    (hs : step fmt h a = .ok (h', r)) : Own h' := by
  cases a with
  | moveTo a b l => simp [Act.isMove] at hm
  | make a v =>
    simp only [step] at hs; split at hs <;> simp at hs
    rw [← hs.1]; exact own_put hi _ _ (by simp)
  | destroy a =>
    simp only [step] at hs; split at hs <;> simp at hs
    rw [← hs.1]; exact own_put hi _ _ (by simp)
  | set a v =>
    simp only [step] at hs; split at hs <;> simp at hs
    rename_i o ho
    rw [← hs.1]; exact own_put hi _ _ (by simp; exact hi a o ho)
  | «open» a m b =>
    simp only [step] at hs; split at hs
    · rename_i o ho
      rcases hq : openA m b with ⟨d, q⟩
      rw [hq] at hs
      rcases q with y | e | _ <;> simp at hs
      rw [← hs.1]; exact own_put hi _ _ (by simp; exact hi a o ho)
    · simp at hs
  | close a =>
    simp only [step] at hs; split at hs <;> simp at hs
    rename_i o ho
    rw [← hs.1]; exact own_put hi _ _ (by simp; exact hi a o ho)
  | save a =>
    simp only [step] at hs; split at hs <;> try simp at hs
    rename_i o ho
    split at hs <;> simp [Res.bind_eq_ok] at hs
    obtain ⟨x, hs, _⟩ := hs
    rw [← hs]; exact own_put hi _ _ (by simp; exact hi a o ho)
  | load a =>
    simp only [step] at hs; split at hs <;> try simp at hs
    rename_i o ho
    split at hs <;> try simp at hs
    rename_i t _
    rcases hq : loadA fmt none t.val o.files with ⟨d, v, q⟩
    rw [hq] at hs
    have h1 := own_put hi a (some { o with files := d }) (by simp; exact hi a o ho)
    rcases q with y | e | _ <;> simp at hs
    split at hs <;> simp at hs
    rename_i t' ht
    rw [← hs.1]
    exact own_put h1 _ _ (by simp; exact h1 _ _ ht)

theorem own_run {fmt : Format V} : ∀ (l : List (Act V)) (h h' : Heap V), Own h → (∀ a ∈ l, a.isMove = false) → run fmt h l = .ok h' → Own h'
  | [], h, h', hi, _, hr => by simp [run] at hr; exact hr ▸ hi
  | a :: l, h, h', hi, hm, hr => by
    simp only [run, Res.bind_eq_ok] at hr
    obtain ⟨⟨h1, x⟩, h2, h3⟩ := hr
    exact own_run l h1 h' (own_step hi (hm a (by simp)) h2) (fun b hb => hm b (by simp [hb])) h3

end Verif.Settings
