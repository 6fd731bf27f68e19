import Verif.Mp.Tables

/-!
# Which types are collected, and when the tables can be built
-/

namespace Verif.Mp

open Verif.Serialize Verif.Vts

/-- No additional types. -/
def noExtra : Extra := fun _ => []

/-- `Part u t`: `u` is `t` or a type inside of it; a vector or an array of an arithmetic type has no parts. -/
inductive Part : CTy → CTy → Prop
  | self (t : CTy) : Part t t
  | arg {u a : CTy} {k : Kind} {args : List CTy} : a ∈ args → isFinal k args = false → Part u a → Part u (.node k args)

def isPair : CTy → Bool
  | .node .pair _ => true
  | _ => false

def isTime : CTy → Bool
  | .node (.time _ _ _) _ => true
  | _ => false

theorem mem_selfTypes {k : Kind} {args : List CTy} {u : CTy} :
    u ∈ selfTypes k args ↔ (u = .node k args ∧ isPair u = false) ∨ (u = int64 ∧ isTime (.node k args) = true) := by
  constructor
  · intro h
    cases k <;> simp [selfTypes] at h
    case time =>
      rcases h with rfl | rfl
      · exact .inl ⟨rfl, rfl⟩
      · exact .inr ⟨rfl, rfl⟩
    all_goals (subst h; exact .inl ⟨rfl, rfl⟩)
  · rintro (⟨rfl, h⟩ | ⟨rfl, h⟩) <;> cases k <;> simp_all [isPair, isTime, selfTypes]

mutual
theorem mem_collect : ∀ (t u : CTy), Ok t → (u ∈ collect noExtra t ↔ (Part u t ∧ isPair u = false) ∨ (u = int64 ∧ ∃ w, Part w t ∧ isTime w = true))
  | .node k args, u, ho => by
    simp only [Ok] at ho
    simp only [collect]
    by_cases hf : isFinal k args = true
    · rw [if_pos hf]
      have hs : ∀ w, Part w (.node k args) → w = .node k args := by
        intro w hw
        cases hw with
        | self => rfl
        | arg _ h _ => rw [hf] at h; cases h
      have hp : isPair (.node k args) = false := by cases k <;> simp_all [isFinal, isPair]
      have ht : isTime (.node k args) = false := by cases k <;> simp_all [isFinal, isTime]
      rw [List.mem_singleton]
      constructor
      · rintro rfl; exact .inl ⟨.self _, hp⟩
      · rintro (⟨h, _⟩ | ⟨_, w, h, h'⟩)
        · exact hs u h
        · rw [hs w h, ht] at h'; cases h'
    · rw [if_neg hf]
      have hf' : isFinal k args = false := by simpa using hf
      have hx : extraOf noExtra k = [] := by cases k <;> rfl
      rw [hx, List.append_nil, List.mem_append, mem_selfTypes, mem_collectAll args u ho.2]
      constructor
      · rintro ((⟨rfl, h⟩ | ⟨rfl, h⟩) | ⟨a, ha, (⟨h1, h2⟩ | ⟨h1, w, h2, h3⟩)⟩)
        · exact .inl ⟨.self _, h⟩
        · exact .inr ⟨rfl, _, .self _, h⟩
        · exact .inl ⟨.arg ha hf' h1, h2⟩
        · exact .inr ⟨h1, w, .arg ha hf' h2, h3⟩
      · rintro (⟨h1, h2⟩ | ⟨h1, w, h2, h3⟩)
        · cases h1 with
          | self => exact .inl (.inl ⟨rfl, h2⟩)
          | arg ha _ h => exact .inr ⟨_, ha, .inl ⟨h, h2⟩⟩
        · cases h2 with
          | self => exact .inl (.inr ⟨h1, h3⟩)
          | arg ha _ h => exact .inr ⟨_, ha, .inr ⟨h1, w, h, h3⟩⟩
theorem mem_collectAll : ∀ (ts : List CTy) (u : CTy), OkAll ts → (u ∈ collectAll noExtra ts ↔
    ∃ t ∈ ts, (Part u t ∧ isPair u = false) ∨ (u = int64 ∧ ∃ w, Part w t ∧ isTime w = true))
  | [], u, _ => by simp [collectAll]
  | t :: ts, u, ho => by
    simp only [OkAll] at ho
    simp only [collectAll, List.mem_append, mem_collect t u ho.1, mem_collectAll ts u ho.2, List.mem_cons, exists_eq_or_imp]
end

theorem okAll_mem : ∀ {ts : List CTy} {t : CTy}, OkAll ts → t ∈ ts → Ok t
  | _ :: ts, t, h, hm => by
    simp only [OkAll] at h
    rcases List.mem_cons.mp hm with rfl | hm
    · exact h.1
    · exact okAll_mem h.2 hm

theorem part_ok {u t : CTy} (h : Part u t) : Ok t → Ok u := by
  induction h with
  | self => exact id
  | arg ha _ _ ih => intro ho; simp only [Ok] at ho; exact ih (okAll_mem ho.2 ha)

theorem part_trans {u v t : CTy} (h1 : Part u v) (h2 : Part v t) : Part u t := by
  induction h2 with
  | self => exact h1
  | arg ha hf _ ih => exact .arg ha hf ih

/-- The variant has the collected types in the order they occur first. -/
theorem toVariant_eraseDups : ∀ (l acc : List CTy), toVariant acc l = acc ++ (l.filter (fun t => !acc.contains t)).eraseDups
  | [], acc => by simp [toVariant]
  | t :: ts, acc => by
    simp only [toVariant]
    by_cases hm : t ∈ acc
    · have : acc.any (· == t) = true := by simp; exact hm
      rw [if_pos this, toVariant_eraseDups ts acc, List.filter_cons_of_neg (by simpa using hm)]
    · have : ¬ acc.any (· == t) = true := by simpa using hm
      rw [if_neg this, toVariant_eraseDups ts (acc ++ [t]), List.filter_cons_of_pos (by simpa using hm), List.eraseDups_cons,
        List.filter_filter, List.append_assoc, List.singleton_append]
      congr 3
      apply List.filter_congr
      intro x _
      by_cases hx : x = t
      · subst hx; simp
      · by_cases hx' : x ∈ acc <;> simp [hx, hx']

theorem protoFields_isSome (F : List CTy) (hn : F.Nodup) : ∀ (ns : List Name) (ts : List CTy),
    ((protoFields F ns ts).isSome = true ↔ ns.length = ts.length ∧ ∀ t ∈ ts, isRefl t = true ∨ t ∈ F)
  | [], [] => by simp [protoFields]
  | [], _ :: _ => by simp [protoFields]
  | _ :: _, [] => by simp [protoFields]
  | n :: ns, t :: ts => by
    have ih := protoFields_isSome F hn ns ts
    have hf : (fieldType F t).isSome = true ↔ isRefl t = true ∨ t ∈ F := by
      simp only [fieldType]
      split
      · next h => simp [h]
      · next h =>
        cases hf : findType t F with
        | none =>
          simp only [Option.isSome_none, Bool.false_eq_true, false_iff, h, false_or]
          intro hm
          obtain ⟨k, hk, _⟩ := findType_some hn hm
          rw [hf] at hk; cases hk
        | some k => simp [findType_mem hf]
    simp only [protoFields, List.length_cons, List.mem_cons, forall_eq_or_imp, Nat.add_right_cancel_iff]
    cases h1 : fieldType F t <;> cases h2 : protoFields F ns ts <;> simp [h1, h2] at ih hf ⊢
    · intro h _ ; simp [hf.1, hf.2] at *
    · simp [hf]
    · intro a _; exact ih a
    · exact ⟨ih.1, hf, ih.2⟩

theorem protosOf_isSome (F : List CTy) : ∀ (l : List CTy), ((protosOf F l).isSome = true ↔ ∀ s ∈ l, (protoOf F s).isSome = true)
  | [] => by simp [protosOf]
  | t :: ts => by
    have ih := protosOf_isSome F ts
    simp only [protosOf, List.mem_cons, forall_eq_or_imp]
    cases h1 : protoOf F t <;> cases h2 : protosOf F ts <;> simp [h2] at ih ⊢ <;> exact ih

theorem refl_not_pair : ∀ {t : CTy}, isRefl t = true → isPair t = false
  | .node k args, h => by cases k <;> first | rfl | (simp [isRefl] at h)

theorem time_not_refl : ∀ {t : CTy}, isTime t = true → isRefl t = false ∧ isPair t = false
  | .node k args, h => by cases k <;> first | exact ⟨rfl, rfl⟩ | (simp [isTime] at h)

/-- When the tables of the variant of a type can be built. -/
theorem schemaOf_isSome (O : Orders) (t : CTy) (ho : Ok t) : (schemaOf O (variantOf noExtra t)).isSome = true ↔
    (∃ s, Part s t ∧ isRefl s = true) ∧ (∃ u, Part u t ∧ isRefl u = false ∧ isPair u = false) ∧
    ∀ id names args, Part (.node (.refl id names) args) t → ∀ a ∈ args, isPair a = false := by
  have hv := toVariant_spec (collect noExtra t) [] (by simp)
  have hmem : ∀ u, u ∈ variantOf noExtra t ↔ (Part u t ∧ isPair u = false) ∨ (u = int64 ∧ ∃ w, Part w t ∧ isTime w = true) := by
    intro u; rw [variantOf, hv.2.1, ← mem_collect t u ho]; simp
  have hnd : (variantOf noExtra t).Nodup := hv.1
  have hF : ∀ u, u ∈ fieldV (variantOf noExtra t) ↔ u ∈ variantOf noExtra t ∧ isRefl u = false := by
    intro u; rw [fieldV_eq, List.mem_filter]; simp
  have hS : ∀ s, s ∈ structV (variantOf noExtra t) ↔ Part s t ∧ isRefl s = true := by
    intro s; rw [structV_eq, List.mem_filter, hmem]
    constructor
    · rintro ⟨⟨h, _⟩ | ⟨rfl, _⟩, h2⟩
      · exact ⟨h, h2⟩
      · simp [int64, isRefl] at h2
    · rintro ⟨h1, h2⟩
      refine ⟨.inl ⟨h1, ?_⟩, h2⟩
      exact refl_not_pair h2
  have hFn : (fieldV (variantOf noExtra t)).Nodup := by rw [fieldV_eq]; exact hnd.filter _
  have hmain : (schemaOf O (variantOf noExtra t)).isSome = true ↔ (structV (variantOf noExtra t) ≠ [] ∧ fieldV (variantOf noExtra t) ≠ []) ∧
      (protosOf (fieldV (variantOf noExtra t)) (structV (variantOf noExtra t))).isSome = true := by
    simp only [schemaOf]
    by_cases h : structV (variantOf noExtra t) = [] ∨ fieldV (variantOf noExtra t) = []
    · rw [if_pos h]; simp; intro a b; rcases h with h | h <;> contradiction
    · rw [if_neg h]
      have : structV (variantOf noExtra t) ≠ [] ∧ fieldV (variantOf noExtra t) ≠ [] := ⟨fun e => h (.inl e), fun e => h (.inr e)⟩
      cases hp : protosOf (fieldV (variantOf noExtra t)) (structV (variantOf noExtra t)) <;> simp [this]
  rw [hmain, protosOf_isSome, and_assoc]
  have e1 : structV (variantOf noExtra t) ≠ [] ↔ ∃ s, Part s t ∧ isRefl s = true := by
    constructor
    · intro h
      obtain ⟨s, hs⟩ := List.exists_mem_of_ne_nil _ h
      exact ⟨s, (hS s).1 hs⟩
    · rintro ⟨s, hs⟩ e
      have := (hS s).2 hs
      rw [e] at this; simp at this
  have e2 : fieldV (variantOf noExtra t) ≠ [] ↔ ∃ u, Part u t ∧ isRefl u = false ∧ isPair u = false := by
    constructor
    · intro h
      obtain ⟨u, hu⟩ := List.exists_mem_of_ne_nil _ h
      rw [hF, hmem] at hu
      rcases hu with ⟨⟨h1, h2⟩ | ⟨_, w, h1, h2⟩, h3⟩
      · exact ⟨u, h1, h3, h2⟩
      · exact ⟨w, h1, time_not_refl h2⟩
    · rintro ⟨u, h1, h2, h3⟩ e
      have : u ∈ fieldV (variantOf noExtra t) := by rw [hF, hmem]; exact ⟨.inl ⟨h1, h3⟩, h2⟩
      rw [e] at this; simp at this
  rw [e1, e2]
  refine and_congr_right fun _ => and_congr_right fun _ => ?_
  constructor
  · intro h id names args hp a ha
    have := h _ ((hS _).2 ⟨hp, rfl⟩)
    simp only [protoOf] at this
    have := ((protoFields_isSome _ hFn _ _).1 this).2 a ha
    rcases this with h1 | h1
    · exact refl_not_pair h1
    · rw [hF, hmem] at h1
      rcases h1.1 with h2 | h2
      · exact h2.2
      · rw [h2.1]; rfl
  · intro h s hs
    obtain ⟨hp, hr⟩ := (hS s).1 hs
    obtain ⟨k, args⟩ := s
    cases k <;> simp [isRefl] at hr
    case refl id names =>
    simp only [protoOf]
    have hok := part_ok hp ho
    simp only [Ok, okNode, beq_iff_eq] at hok
    refine (protoFields_isSome _ hFn _ _).2 ⟨hok.1, fun a ha => ?_⟩
    by_cases hr' : isRefl a = true
    · exact .inl hr'
    · refine .inr ((hF a).2 ⟨(hmem a).2 (.inl ⟨?_, h id names args hp a ha⟩), by simpa using hr'⟩)
      exact part_trans (.arg ha rfl (.self a)) hp

/-- The collected types are types. -/
theorem collect_ok {t u : CTy} (ho : Ok t) (h : u ∈ collect noExtra t) : Ok u := by
  rcases (mem_collect t u ho).1 h with ⟨h, _⟩ | ⟨rfl, _⟩
  · exact part_ok h ho
  · simp [int64, Ok, OkAll, okNode]

end Verif.Mp
