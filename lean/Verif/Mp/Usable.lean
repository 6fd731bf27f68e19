import Verif.Mp.ValueLemmas
import Verif.Vts.Sound

/-! # New objects of a C++ type have values of the type -/

namespace Verif.Mp

open Verif.Serialize Verif.Vts

/-- What is expected of the parts of a type: an enumeration has an enumerator, a ring a limit and a variant an alternative, the comparator of a set or a map is
transitive; vectors of enumerations cannot be read. -/
def usableNode (O : Orders) : Kind → List CTy → Prop
  | .enm _ c _, _ => 0 < c
  | .time p q _, _ => 0 < p ∧ 0 < q
  | .vec, [t] => isEnm t = false
  | .arr _, [t] => isEnm t = false
  | .ring cap, _ => 0 < cap
  | .set c, _ => ∀ x y z, O.lt c x y = true → O.lt c y z = true → O.lt c x z = true
  | .map c, _ => ∀ x y z, O.lt c x y = true → O.lt c y z = true → O.lt c x z = true
  | .var, args => args ≠ []
  | _, _ => True

mutual
/-- A type with such parts. -/
def Usable (O : Orders) : CTy → Prop
  | .node k args => usableNode O k args ∧ UsableAll O args
/-- All of them. -/
def UsableAll (O : Orders) : List CTy → Prop
  | [] => True
  | t :: ts => Usable O t ∧ UsableAll O ts
end

mutual
theorem usable_sound (O : Orders) (SV : List CTy) : ∀ (t : CTy), Ok t → Usable O t → Sound (toTy O SV t)
  | .node k args, ho, hu => by
    simp only [Ok] at ho
    simp only [Usable] at hu
    obtain ⟨hn, ha⟩ := ho
    obtain ⟨hu, hus⟩ := hu
    cases k
    case pair =>
      simp only [toTy, ofKind, Sound]
      exact usableAll_sound O SV args ha hus
    case refl =>
      simp only [toTy, ofKind, Sound]
      exact usableAll_sound O SV args ha hus
    case var =>
      simp only [toTy, ofKind, Sound]
      refine ⟨?_, usableAll_sound O SV args ha hus⟩
      simp only [usableNode] at hu
      cases args with
      | nil => exact absurd rfl hu
      | cons _ _ => simp [toTys]
    all_goals
      rcases args with _ | ⟨a, _ | ⟨b, _ | ⟨c, l⟩⟩⟩ <;> simp [okNode] at hn
      first
        | (simp only [toTy, ofKind, Sound]; done)
        | (simp only [toTy, ofKind, Sound]; exact hu)
        | (have h1 := usable_sound O SV a ha.1 hus.1
           simp only [toTy, toTys, ofKind, Sound]
           exact h1)
        | (have h1 := usable_sound O SV a ha.1 hus.1
           simp only [toTy, toTys, ofKind, Sound, Coll.Good, true_and]
           exact h1)
        | (have h1 := usable_sound O SV a ha.1 hus.1
           simp only [toTy, toTys, ofKind, Sound, Coll.Good]
           exact ⟨hu, h1⟩)
        | (have h1 := usable_sound O SV a ha.1 hus.1
           simp only [toTy, toTys, ofKind, Sound]
           exact ⟨(isEnm_toTy O SV a ha.1).2 hu, h1⟩)
        | (have h1 := usable_sound O SV a ha.1 hus.1
           have h2 := usable_sound O SV b ha.2.1 hus.2.1
           simp only [toTy, toTys, ofKind, Sound, Coll.Good, true_and]
           exact ⟨h1, h2⟩)
        | (have h1 := usable_sound O SV a ha.1 hus.1
           have h2 := usable_sound O SV b ha.2.1 hus.2.1
           simp only [toTy, toTys, ofKind, Sound, Coll.Good]
           exact ⟨hu, h1, h2⟩)
theorem usableAll_sound (O : Orders) (SV : List CTy) : ∀ (ts : List CTy), OkAll ts → UsableAll O ts → SoundAll (toTys O SV ts)
  | [], _, _ => by simp [toTys, SoundAll]
  | t :: ts, ho, hu => by
    simp only [OkAll] at ho
    simp only [UsableAll] at hu
    simp only [toTys, SoundAll]
    exact ⟨usable_sound O SV t ho.1 hu.1, usableAll_sound O SV ts ho.2 hu.2⟩
end

end Verif.Mp
