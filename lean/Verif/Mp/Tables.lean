import Verif.Mp.Names
import Verif.Vts.Spec

/-!
# The derived tables describe the types
-/

namespace Verif.Mp

open Verif.Serialize Verif.Vts

/-! ### Lists of types -/

theorem toVariant_spec : ∀ (l acc : List CTy), acc.Nodup →
    (toVariant acc l).Nodup ∧ (∀ t, t ∈ toVariant acc l ↔ t ∈ acc ∨ t ∈ l) ∧ ∃ m, toVariant acc l = acc ++ m ∧ m.Sublist l
  | [], acc, h => ⟨h, by simp [toVariant], [], by simp [toVariant]⟩
  | t :: ts, acc, h => by
    simp only [toVariant]
    by_cases hm : t ∈ acc
    · have : acc.any (· == t) = true := by simp; exact hm
      rw [if_pos this]
      obtain ⟨h1, h2, m, h3, h4⟩ := toVariant_spec ts acc h
      refine ⟨h1, fun u => ?_, m, h3, h4.cons _⟩
      rw [h2, List.mem_cons]
      constructor
      · rintro (h | h) <;> simp [h]
      · rintro (h | rfl | h) <;> simp_all
    · have : ¬ acc.any (· == t) = true := by simpa using hm
      rw [if_neg this]
      have hn : (acc ++ [t]).Nodup := by
        rw [List.nodup_append]
        refine ⟨h, by simp, fun a ha b hb e => ?_⟩
        simp at hb; subst hb; subst e; exact hm ha
      obtain ⟨h1, h2, m, h3, h4⟩ := toVariant_spec ts (acc ++ [t]) hn
      refine ⟨h1, fun u => ?_, t :: m, by rw [h3]; simp, h4.cons_cons _⟩
      rw [h2]; simp [or_assoc]

theorem split_spec (p : CTy → Bool) : ∀ (l a b : List CTy), split p a b l = (a ++ l.filter p, b ++ l.filter (fun t => !p t))
  | [], a, b => by simp [split]
  | t :: ts, a, b => by
    simp only [split]
    split
    · next h => rw [split_spec p ts]; simp [h]
    · next h => rw [split_spec p ts]; simp at h; simp [h]

theorem structV_eq (V : List CTy) : structV V = V.filter isRefl := by simp [structV, split_spec]
theorem fieldV_eq (V : List CTy) : fieldV V = V.filter (fun t => !isRefl t) := by simp [fieldV, split_spec]

/-- The sum of the matches. -/
theorem sum_match (t : CTy) : ∀ (l : List CTy), (l.map fun u => if u = t then 1 else 0).sum = l.count t
  | [] => rfl
  | u :: l => by
    simp only [List.map_cons, List.sum_cons, sum_match t l, List.count_cons]
    by_cases h : u = t <;> simp [h] <;> omega

theorem foldl_max_zero : ∀ (l : List Nat) (a : Nat), (∀ x ∈ l, x = 0) → l.foldl max a = a
  | [], a, _ => rfl
  | x :: l, a, h => by
    have : x = 0 := h x (by simp)
    subst this
    simp only [List.foldl_cons, Nat.max_zero]
    exact foldl_max_zero l a (fun y hy => h y (by simp [hy]))

theorem foldl_match (t : CTy) : ∀ (l : List CTy) (s a : Nat), l.count t = 1 → a ≤ s →
    (l.mapIdx fun i u => if u = t then i + s else 0).foldl max a = max a (l.idxOf t + s)
  | [], s, a, h, _ => by simp at h
  | u :: l, s, a, h, ha => by
    simp only [List.mapIdx_cons, List.foldl_cons]
    by_cases e : u = t
    · subst e
      have hz : l.count u = 0 := by simpa using h
      have hm : u ∉ l := List.count_eq_zero.mp hz
      simp only [if_true, Nat.zero_add, List.idxOf_cons_self]
      refine foldl_max_zero _ _ ?_
      intro x hx
      rw [List.mem_mapIdx] at hx
      obtain ⟨i, hi, e⟩ := hx
      have hne : ¬ l[i] = u := fun e' => hm (by rw [← e']; exact List.getElem_mem hi)
      rw [if_neg hne] at e
      exact e.symm
    · have hc : l.count t = 1 := by simpa [List.count_cons, e] using h
      rw [if_neg e, Nat.max_zero]
      have hf : (fun i u => if u = t then i + 1 + s else 0) = (fun (i : Nat) (u : CTy) => if u = t then i + (s + 1) else 0) := by
        funext i u; split <;> omega
      rw [hf, foldl_match t l (s + 1) a hc (by omega), List.idxOf_cons, show (u == t) = false by simpa using e, cond_false]
      congr 1; omega

theorem findType_eq (t : CTy) (l : List CTy) : findType t l = if l.count t = 1 then some (l.idxOf t) else none := by
  simp only [findType, sum_match]
  split
  · next h =>
    have := foldl_match t l 0 0 h (Nat.le_refl _)
    simp only [Nat.add_zero, Nat.zero_max] at this
    rw [this]
  · rfl

theorem findType_some {t : CTy} {l : List CTy} (hn : l.Nodup) (h : t ∈ l) : ∃ k, findType t l = some k ∧ l[k]? = some t := by
  refine ⟨l.idxOf t, ?_, ?_⟩
  · rw [findType_eq, if_pos]
    have h1 := List.nodup_iff_count.mp hn t
    have h2 := List.count_pos_iff.mpr h
    omega
  · have := List.idxOf_lt_length_of_mem h
    rw [List.getElem?_eq_getElem this, List.getElem_idxOf this]

theorem findType_get {t : CTy} {l : List CTy} {k : Nat} (h : findType t l = some k) : l[k]? = some t := by
  rw [findType_eq] at h
  split at h
  · next hc =>
    cases h
    have hm : t ∈ l := List.count_pos_iff.mp (by omega)
    have := List.idxOf_lt_length_of_mem hm
    rw [List.getElem?_eq_getElem this, List.getElem_idxOf this]
  · cases h

theorem findType_mem {t : CTy} {l : List CTy} {k : Nat} (h : findType t l = some k) : t ∈ l := List.mem_of_getElem? (findType_get h)

/-! ### Prototypes -/

theorem protoFields_names (F : List CTy) : ∀ (ns : List Name) (ts : List CTy) (p : Proto), protoFields F ns ts = some p → p.map (·.1) = ns
  | [], [], p, h => by simp [protoFields] at h; subst h; rfl
  | [], _ :: _, p, h => by simp [protoFields] at h
  | _ :: _, [], p, h => by simp [protoFields] at h
  | n :: ns, t :: ts, p, h => by
    simp only [protoFields] at h
    cases h1 : fieldType F t with
    | none => simp [h1] at h
    | some k =>
      cases h2 : protoFields F ns ts with
      | none => simp [h1, h2] at h
      | some q =>
        simp [h1, h2] at h; subst h
        simp [protoFields_names F ns ts q h2]

theorem isStruct_toTy (O : Orders) (SV : List CTy) (t : CTy) (h : Ok t) : isStruct (toTy O SV t) = isRefl t := by
  obtain ⟨k, args⟩ := t
  simp only [Ok] at h
  obtain ⟨hn, hr⟩ := h
  simp only [toTy]
  cases k
  case atomic =>
    rcases args with _ | ⟨a, _ | ⟨b, l⟩⟩ <;> simp [okNode] at hn
    obtain ⟨k, as⟩ := a
    simp only [toTys, ofKind, toTy]
    cases k <;> simp [isArith] at hn <;> simp [isStruct, isRefl]
  all_goals
    rcases args with _ | ⟨a, _ | ⟨b, _ | ⟨c, l⟩⟩⟩ <;> simp [okNode] at hn <;> simp [toTys, ofKind, isStruct, isRefl]

theorem protoFields_describes (O : Orders) (SV F : List CTy) (ps : List Proto) : ∀ (ns : List Name) (ts : List CTy) (p : Proto), OkAll ts →
    protoFields F ns ts = some p → DescribesFields ⟨F.map (toTy O SV), ps⟩ p (toTys O SV ts)
  | [], [], p, _, h => by simp [protoFields] at h; subst h; simp [toTys, DescribesFields]
  | [], _ :: _, p, _, h => by simp [protoFields] at h
  | _ :: _, [], p, _, h => by simp [protoFields] at h
  | n :: ns, t :: ts, p, ho, h => by
    simp only [OkAll] at ho
    simp only [protoFields] at h
    cases h1 : fieldType F t with
    | none => simp [h1] at h
    | some k =>
      cases h2 : protoFields F ns ts with
      | none => simp [h1, h2] at h
      | some q =>
        simp [h1, h2] at h; subst h
        simp only [toTys, DescribesFields]
        refine ⟨?_, protoFields_describes O SV F ps ns ts q ho.2 h2⟩
        simp only [fieldType] at h1
        rw [isStruct_toTy O SV t ho.1]
        split at h1
        · next hre => cases h1; exact hre
        · next hre =>
          cases hf : findType t F with
          | none => simp [hf] at h1
          | some j =>
            simp [hf] at h1; subst h1
            exact ⟨by simpa using hre, by rw [List.getElem?_map, findType_get hf]; rfl⟩

theorem protosOf_get (F : List CTy) : ∀ (l : List CTy) (ps : List Proto), protosOf F l = some ps → ∀ (i : Nat) (t : CTy), l[i]? = some t → ∃ p, ps[i]? = some p ∧ protoOf F t = some p
  | [], ps, h, i, t, ht => by simp at ht
  | u :: l, ps, h, i, t, ht => by
    simp only [protosOf] at h
    cases h1 : protoOf F u with
    | none => simp [h1] at h
    | some p =>
      cases h2 : protosOf F l with
      | none => simp [h1, h2] at h
      | some q =>
        simp [h1, h2] at h; subst h
        cases i with
        | zero => simp at ht; subst ht; exact ⟨p, rfl, h1⟩
        | succ i =>
          simp at ht
          obtain ⟨r, hr1, hr2⟩ := protosOf_get F l q h2 i t ht
          exact ⟨r, by simpa using hr1, hr2⟩

section
variable (O : Orders) (V : List CTy) (ps : List Proto)

/-- A structure of the program that is in the variant is described. -/
theorem describes_struct (hn : V.Nodup) (hl : (structV V).length ≤ 2 ^ 16) (hp : protosOf (fieldV V) (structV V) = some ps)
    (id : Nat) (names : List Name) (args : List CTy) (ho : OkAll args) (hm : CTy.node (.refl id names) args ∈ V) :
    ∃ idx, findType (.node (.refl id names) args) (structV V) = some idx ∧ idx < 2 ^ 16 ∧
      ∃ p, ps[idx]? = some p ∧ p.map (·.1) = names ∧
        DescribesFields ⟨(fieldV V).map (toTy O (structV V)), ps⟩ p (toTys O (structV V) args) := by
  have hm' : CTy.node (.refl id names) args ∈ structV V := by rw [structV_eq, List.mem_filter]; exact ⟨hm, rfl⟩
  have hn' : (structV V).Nodup := by rw [structV_eq]; exact hn.filter _
  obtain ⟨idx, h1, h2⟩ := findType_some hn' hm'
  obtain ⟨p, hp1, hp2⟩ := protosOf_get _ _ _ hp idx _ h2
  have := (List.getElem?_eq_some_iff.mp h2).1
  simp only [protoOf] at hp2
  exact ⟨idx, h1, by omega, p, hp1, protoFields_names _ _ _ _ hp2, protoFields_describes O _ _ ps _ _ _ ho hp2⟩

theorem describedAll_mem {S : Schema} : ∀ (ts : List Ty), (∀ t ∈ ts, Described S t) → DescribedAll S ts
  | [], _ => by simp [DescribedAll]
  | t :: ts, h => by
    simp only [DescribedAll]
    exact ⟨h t (by simp), describedAll_mem ts (fun u hu => h u (by simp [hu]))⟩

theorem described_arith {S : Schema} (SV : List CTy) (t : CTy) (h : isArith t = true) : Described S (toTy O SV t) := by
  obtain ⟨k, args⟩ := t
  cases k <;> simp [isArith] at h <;> simp [toTy, ofKind, Described]

mutual
theorem described_toTy (ex : Extra) (hn : V.Nodup) (hl : (structV V).length ≤ 2 ^ 16) (hp : protosOf (fieldV V) (structV V) = some ps) :
    ∀ (t : CTy), Ok t → (∀ s ∈ collect ex t, isRefl s = true → s ∈ V) →
      Described ⟨(fieldV V).map (toTy O (structV V)), ps⟩ (toTy O (structV V) t)
  | .node k args, ho, hc => by
    simp only [Ok] at ho
    by_cases hf : isFinal k args = true
    · simp only [toTy]
      cases k <;> simp only [isFinal] at hf <;> try (cases hf; done)
      all_goals
        rcases args with _ | ⟨a, _ | ⟨b, l⟩⟩ <;> simp at hf
        simp only [toTys, ofKind, Described]
        exact described_arith O _ a hf
    · simp only [collect, if_neg hf] at hc
      have ih := described_toTys ex hn hl hp args ho.2 (fun s hs hr => hc s (by simp [hs]) hr)
      simp only [toTy]
      cases k
      case refl id names =>
        have hm : CTy.node (.refl id names) args ∈ V := hc _ (by simp [selfTypes]) rfl
        obtain ⟨idx, h1, h2, p, h3, h4, h5⟩ := describes_struct O V ps hn hl hp id names args ho.2 hm
        simp only [ofKind, h1, Option.getD_some, Described]
        exact ⟨h2, ⟨p, h3, h4, h5⟩, ih⟩
      all_goals
        rcases args with _ | ⟨a, _ | ⟨b, _ | ⟨c, l⟩⟩⟩ <;> simp [toTys, DescribedAll] at ih <;> simp [toTys, ofKind, Described, DescribedAll, ih]
theorem described_toTys (ex : Extra) (hn : V.Nodup) (hl : (structV V).length ≤ 2 ^ 16) (hp : protosOf (fieldV V) (structV V) = some ps) :
    ∀ (ts : List CTy), OkAll ts → (∀ s ∈ collectAll ex ts, isRefl s = true → s ∈ V) →
      DescribedAll ⟨(fieldV V).map (toTy O (structV V)), ps⟩ (toTys O (structV V) ts)
  | [], _, _ => by simp [toTys, DescribedAll]
  | t :: ts, ho, hc => by
    simp only [OkAll] at ho
    simp only [collectAll, List.mem_append] at hc
    simp only [toTys, DescribedAll]
    exact ⟨described_toTy ex hn hl hp t ho.1 (fun s hs hr => hc s (.inl hs) hr),
      described_toTys ex hn hl hp ts ho.2 (fun s hs hr => hc s (.inr hs) hr)⟩
end

end

/-! ### Names of type codes -/

mutual
/-- The name of a type from its type code. -/
def nameTy : Ty → Name
  | .num n tag => if tag % 4 = 1 then fltName n else if tag % 4 = 2 then decName n (tag / 4) else intName n
  | .bool => intName 1
  | .enm n _ => intName n
  | .time _ _ => intName 8
  | .str c => seqName (intName c)
  | .vec t => seqName (nameTy t)
  | .coll _ t => seqName (nameTy t)
  | .map _ a b => seqName (pairName (nameTy a) (nameTy b))
  | .arr n t => nameOf (.arr n) [nameTy t]
  | .opt t false => nameOf .opt [nameTy t]
  | .opt t true => nameOf (.ptr true) [nameTy t]
  | .var ts => nameOf .var (nameTys ts)
  | .struct none ts => nameOf .pair (nameTys ts)
  | .struct (some _) _ => nameOf (.refl 0 []) []
def nameTys : List Ty → List Name
  | [] => []
  | t :: ts => nameTy t :: nameTys ts
end

mutual
theorem nameTy_toTy (O : Orders) (SV : List CTy) : ∀ (t : CTy), Ok t → nameTy (toTy O SV t) = typeName t
  | .node k args, h => by
    simp only [Ok] at h
    obtain ⟨hn, hr⟩ := h
    have ih := nameTys_toTys O SV args hr
    simp only [toTy, typeName]
    cases k
    case int n v => simp [ofKind, nameTy, nameOf, Nat.mul_mod_right]
    case flt n => simp [ofKind, nameTy, nameOf]
    case dec n e =>
      have h1 : (4 * e + 2) % 4 = 2 := by omega
      have h2 : (4 * e + 2) / 4 = e := by omega
      simp [ofKind, nameTy, nameOf, h1, h2]
    case enu n id =>
      have h1 : (4 * id + 3) % 4 = 3 := by omega
      simp [ofKind, nameTy, nameOf, h1]
    case var => simp only [ofKind, nameTy, ih]
    case refl id names => simp [ofKind, nameTy, nameOf]
    case pair => simp only [ofKind, nameTy, ih]
    all_goals
      rcases args with _ | ⟨a, _ | ⟨b, _ | ⟨c, l⟩⟩⟩ <;> simp [okNode] at hn <;>
        simp [toTys, nameTys, typeNames] at ih <;> simp [toTys, ofKind, nameTy, nameOf, typeNames, ih]
theorem nameTys_toTys (O : Orders) (SV : List CTy) : ∀ (ts : List CTy), OkAll ts → nameTys (toTys O SV ts) = typeNames ts
  | [], _ => rfl
  | t :: ts, h => by
    simp only [OkAll] at h
    simp only [toTys, nameTys, typeNames, nameTy_toTy O SV t h.1, nameTys_toTys O SV ts h.2]
end

end Verif.Mp
