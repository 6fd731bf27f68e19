import Verif.Mp.Values

/-! # The type codes have the values of the types -/

namespace Verif.Mp

open Verif.Serialize Verif.Vts

theorem isEnm_toTy (O : Orders) (SV : List CTy) (t : CTy) (ho : Ok t) : (∀ n c, toTy O SV t ≠ .enm n c) ↔ isEnm t = false := by
  obtain ⟨k, args⟩ := t
  simp only [Ok] at ho
  obtain ⟨hn, ha⟩ := ho
  cases k with
  | atomic =>
    rcases args with _ | ⟨a, _ | ⟨b, l⟩⟩ <;> simp [okNode] at hn
    obtain ⟨ka, as⟩ := a
    cases ka <;> simp [isArith] at hn <;> simp [toTy, toTys, ofKind, isEnm]
  | _ =>
    rcases args with _ | ⟨a, _ | ⟨b, _ | ⟨c, l⟩⟩⟩ <;> simp [okNode] at hn <;> simp [toTy, toTys, ofKind, isEnm]

theorem pairs_pairwise (R : Val → Val → Prop) (P Q : Val → Prop) (vs : List Val) (h : ∀ v ∈ vs, ∃ a b, v = .list [a, b] ∧ P a ∧ Q b) :
    vs.Pairwise (fun x y => R (fstVal x) (fstVal y)) ↔
      vs.Pairwise (fun x y => ∀ a b a' b', x = .list [a, b] → y = .list [a', b'] → R a a') := by
  apply List.Pairwise.iff_of_mem
  intro x y hx hy
  obtain ⟨a, b, rfl, -, -⟩ := h x hx
  obtain ⟨a', b', rfl, -, -⟩ := h y hy
  simp only [fstVal]
  constructor
  · rintro hr c d c' d' ⟨⟩ ⟨⟩; exact hr
  · intro hr; exact hr a b a' b' rfl rfl

mutual
theorem value_iff (O : Orders) (SV : List CTy) (env : Env) : ∀ (t : CTy), Ok t → ∀ v, HasTy env (toTy O SV t) v ↔ Value O env t v
  | .node k args, ho, v => by
    simp only [Ok] at ho
    obtain ⟨hn, ha⟩ := ho
    cases k
    case pair =>
      have := values_iff O SV env args ha
      simp only [toTy, ofKind]
      cases v <;> simp [HasTy, Value, this]
    case refl =>
      have := values_iff O SV env args ha
      simp only [toTy, ofKind]
      cases v <;> simp [HasTy, Value, this]
    case var =>
      have := valueAt_iff O SV env args ha
      simp only [toTy, ofKind]
      cases v <;> simp [HasTy, Value, this]
    case map =>
      rcases args with _ | ⟨a, _ | ⟨b, _ | ⟨c, l⟩⟩⟩ <;> simp [okNode] at hn
      have h1 := value_iff O SV env a ha.1
      have h2 := value_iff O SV env b ha.2.1
      simp only [toTy, toTys, ofKind]
      cases v <;> simp only [HasTy, Value, Coll.Valid, h1, h2]
      rename_i vs
      refine and_congr_right fun _ => ⟨fun h => ⟨(pairs_pairwise (fun a b => O.lt _ a b = true) _ _ _ h.2).1 h.1, h.2⟩,
        fun h => ⟨(pairs_pairwise (fun a b => O.lt _ a b = true) _ _ _ h.2).2 h.1, h.2⟩⟩
    case umap =>
      rcases args with _ | ⟨a, _ | ⟨b, _ | ⟨c, l⟩⟩⟩ <;> simp [okNode] at hn
      have h1 := value_iff O SV env a ha.1
      have h2 := value_iff O SV env b ha.2.1
      simp only [toTy, toTys, ofKind]
      cases v <;> simp only [HasTy, Value, Coll.Valid, h1, h2]
      rename_i vs
      refine and_congr_right fun _ => ⟨fun h => ⟨(pairs_pairwise (fun a b => O.eq _ a b = false) _ _ _ h.2).1 h.1, h.2⟩,
        fun h => ⟨(pairs_pairwise (fun a b => O.eq _ a b = false) _ _ _ h.2).2 h.1, h.2⟩⟩
    all_goals
      rcases args with _ | ⟨a, _ | ⟨b, l⟩⟩ <;> simp [okNode] at hn
      first
        | (simp only [toTy, ofKind]; cases v <;> simp [HasTy, Value]; done)
        | (have h1 := value_iff O SV env a ha.1
           have h2 := isEnm_toTy O SV a ha.1
           simp only [toTy, toTys, ofKind]
           cases v <;> simp only [HasTy, Value, Coll.Valid, h1, h2, id, true_and]
           done)
theorem valueAt_iff (O : Orders) (SV : List CTy) (env : Env) : ∀ (ts : List CTy), OkAll ts → ∀ i v, HasTyAt env (toTys O SV ts) i v ↔ ValueAt O env ts i v
  | [], _, i, v => by simp [toTys, HasTyAt, ValueAt]
  | t :: ts, ho, i, v => by
    simp only [OkAll] at ho
    cases i with
    | zero => simp only [toTys, HasTyAt, ValueAt]; exact value_iff O SV env t ho.1 v
    | succ i => simp only [toTys, HasTyAt, ValueAt]; exact valueAt_iff O SV env ts ho.2 i v
theorem values_iff (O : Orders) (SV : List CTy) (env : Env) : ∀ (ts : List CTy), OkAll ts → ∀ vs, HasTys env (toTys O SV ts) vs ↔ Values O env ts vs
  | [], _, vs => by cases vs <;> simp [toTys, HasTys, Values]
  | t :: ts, ho, vs => by
    simp only [OkAll] at ho
    cases vs with
    | nil => simp [toTys, HasTys, Values]
    | cons v vs => simp only [toTys, HasTys, Values]; rw [value_iff O SV env t ho.1 v, values_iff O SV env ts ho.2 vs]
end

mutual
theorem blank_iff (O : Orders) (SV : List CTy) : ∀ (t : CTy), Ok t → ∀ v, Fresh (toTy O SV t) v ↔ Blank t v
  | .node k args, ho, v => by
    simp only [Ok] at ho
    obtain ⟨hn, ha⟩ := ho
    cases k
    case pair =>
      have := blanks_iff O SV args ha
      simp only [toTy, ofKind]
      cases v <;> simp [Fresh, Blank, this]
    case refl =>
      have := blanks_iff O SV args ha
      simp only [toTy, ofKind]
      cases v <;> simp [Fresh, Blank, this]
    case var => simp [toTy, ofKind, Fresh, Blank]
    case atomic =>
      rcases args with _ | ⟨a, _ | ⟨b, l⟩⟩ <;> simp [okNode] at hn
      obtain ⟨ka, as⟩ := a
      cases ka <;> simp [isArith] at hn <;> simp [toTy, toTys, ofKind, Fresh, Blank]
    all_goals
      rcases args with _ | ⟨a, _ | ⟨b, _ | ⟨c, l⟩⟩⟩ <;> simp [okNode] at hn
      first
        | (simp only [toTy, toTys, ofKind]; cases v <;> simp [Fresh, Blank]; done)
        | (have h1 := blank_iff O SV a ha.1
           simp only [toTy, toTys, ofKind]
           cases v <;> simp [Fresh, Blank, h1]
           done)
theorem blanks_iff (O : Orders) (SV : List CTy) : ∀ (ts : List CTy), OkAll ts → ∀ vs, Freshs (toTys O SV ts) vs ↔ Blanks ts vs
  | [], _, vs => by cases vs <;> simp [toTys, Freshs, Blanks]
  | t :: ts, ho, vs => by
    simp only [OkAll] at ho
    cases vs with
    | nil => simp [toTys, Freshs, Blanks]
    | cons v vs => simp only [toTys, Freshs, Blanks]; rw [blank_iff O SV t ho.1 v, blanks_iff O SV ts ho.2 vs]
end

end Verif.Mp
