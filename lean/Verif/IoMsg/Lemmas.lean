import Verif.IoMsg.Spec

namespace Verif.IoMsg

open Verif.Vts

@[simp] theorem Out.ok_bind {α β : Type} (a : α) (f : α → Out β) : (Out.ok a).bind f = f a := rfl
@[simp] theorem Out.throw_bind {α β : Type} (e : Err) (f : α → Out β) : (Out.throw e : Out α).bind f = .throw e := rfl
@[simp] theorem Out.ub_bind {α β : Type} (f : α → Out β) : (Out.ub : Out α).bind f = .ub := rfl

theorem erase_bind {α β : Type} (r : Out α) (f : α → Out β) (g : α → Res β) (h : ∀ a, (f a).erase = g a) :
    (r.bind f).erase = r.erase >>= g := by
  cases r
  · exact h _
  · rfl
  · rfl

theorem dec_digit {n : Nat} {c : Char} (h : c ∈ dec n) : c.isDigit = true :=
  Nat.isDigit_of_mem_toDigits (by decide) (by decide) h

theorem dec_inj {m n : Nat} (h : dec m = dec n) : m = n := by
  have h1 := Nat.ofDigitChars_toDigits (b := 10) (n := m) (by decide) (by decide)
  have h2 := Nat.ofDigitChars_toDigits (b := 10) (n := n) (by decide) (by decide)
  unfold dec at h
  rw [h] at h1
  omega

theorem dec_text (n : Nat) : dec n = (toString n).toList := by
  show _ = (String.ofList (Nat.toDigits 10 n)).toList
  rw [String.toList_ofList]
  rfl

/-- Two texts that start with characters of some kind and go on with another kind. -/
theorem split_at {p : Char → Prop} : ∀ (a b : List Char) {c d : Char} {r s : List Char}, (∀ x ∈ a, p x) →
    (∀ x ∈ b, p x) → ¬ p c → ¬ p d → a ++ c :: r = b ++ d :: s → a = b ∧ c :: r = d :: s
  | [], [], _, _, _, _, _, _, _, _, h => ⟨rfl, h⟩
  | [], b :: bs, _, _, _, _, _, hb, hc, _, h => by
    simp only [List.nil_append, List.cons_append, List.cons.injEq] at h
    exact absurd (h.1 ▸ hb b (by simp)) hc
  | a :: as, [], _, _, _, _, ha, _, _, hd, h => by
    simp only [List.nil_append, List.cons_append, List.cons.injEq] at h
    exact absurd (h.1 ▸ ha a (by simp)) hd
  | a :: as, b :: bs, _, _, _, _, ha, hb, hc, hd, h => by
    simp only [List.cons_append, List.cons.injEq] at h
    obtain ⟨h1, h2⟩ := split_at as bs (fun x hx => ha x (by simp [hx])) (fun x hx => hb x (by simp [hx])) hc hd h.2
    exact ⟨by rw [h.1, h1], h2⟩

theorem dec_split {m n : Nat} {c d : Char} {r s : List Char} (hc : c.isDigit = false) (hd : d.isDigit = false)
    (h : dec m ++ c :: r = dec n ++ d :: s) : m = n ∧ c :: r = d :: s := by
  obtain ⟨h1, h2⟩ := split_at (p := fun c => c.isDigit = true) _ _ (fun _ => dec_digit) (fun _ => dec_digit)
    (by simp [hc]) (by simp [hd]) h
  exact ⟨dec_inj h1, h2⟩

theorem quote_split {m n : List Char} {r s : List Char} (hm : '\'' ∉ m) (hn : '\'' ∉ n)
    (h : m ++ '\'' :: r = n ++ '\'' :: s) : m = n ∧ r = s := by
  obtain ⟨h1, h2⟩ := split_at (p := fun c => c ≠ '\'') m n (fun x hx he => hm (he ▸ hx)) (fun x hx he => hn (he ▸ hx))
    (by simp) (by simp) h
  exact ⟨h1, (List.cons.inj h2).2⟩

theorem findName_none {l : List Name} {n : Name} : findName l n = none ↔ n ∉ l := by
  unfold findName
  rw [List.findIdx?_eq_none_iff]
  constructor
  · intro h hn
    have := h n hn
    simp at this
  · intro h x hx
    simp only [beq_eq_false_iff_ne]
    intro e
    exact h (e ▸ hx)

theorem findName_some {l : List Name} {n : Name} : (∃ k, findName l n = some k) ↔ n ∈ l := by
  cases h : findName l n with
  | none => simp [findName_none.1 h]
  | some k =>
    simp only [Option.some.injEq, exists_eq', true_iff]
    apply Classical.byContradiction
    intro hn
    rw [findName_none.2 hn] at h
    cases h

theorem attachFields_erase (o n : List Name) : ∀ fs, (attachFields o n fs).erase = Vts.attachFields o n fs
  | [] => rfl
  | (m, ty) :: fs => by
    simp only [attachFields, Vts.attachFields]
    by_cases h : ty = 2 ^ 64 - 1
    · rw [if_pos h, if_pos h, ← attachFields_erase o n fs]
      exact erase_bind _ _ _ fun _ => rfl
    · rw [if_neg h, if_neg h]
      cases o[ty]? with
      | none => rfl
      | some tn =>
        dsimp only
        cases findName n tn with
        | none => rfl
        | some k =>
          dsimp only
          rw [← attachFields_erase o n fs]
          exact erase_bind _ _ _ fun _ => rfl

theorem attachMetadata_erase (o n : List Name) : ∀ ps, (attachMetadata o n ps).erase = Vts.attachMetadata o n ps
  | [] => rfl
  | p :: ps => by
    simp only [attachMetadata, Vts.attachMetadata]
    rw [← attachMetadata_erase o n ps, ← attachFields_erase o n p]
    exact erase_bind _ _ _ fun _ => erase_bind _ _ _ fun _ => rfl

theorem check_erase (names : List Name) (a b : Option Nat) :
    (checkTypesCompatible names a b).erase = Vts.checkTypesCompatible names a b := by
  unfold checkTypesCompatible Vts.checkTypesCompatible
  by_cases h : a = b
  · rw [if_pos h, if_pos h]; rfl
  · rw [if_neg h, if_neg h]
    cases a with
    | none => rfl
    | some a =>
      cases b with
      | none => rfl
      | some b =>
        dsimp only
        unfold areTypeNamesEqual Vts.areTypeNamesEqual
        cases names[a]? with
        | none => rfl
        | some x =>
          cases names[b]? with
          | none => rfl
          | some y =>
            simp only [Out.ok_bind, Res.ok_bind]
            cases (x == y) <;> rfl

theorem mapFields_erase (names : List Name) (rn : Name → Name) (right : Proto) : ∀ l,
    (mapFields names rn right l).erase = Vts.mapFields names rn right l
  | [] => rfl
  | (n, ty) :: fs => by
    simp only [mapFields, Vts.mapFields]
    cases right.findIdx? (fun f => f.1 == rn n) with
    | none =>
      dsimp only
      rw [← mapFields_erase names rn right fs]
      exact erase_bind _ _ _ fun _ => rfl
    | some j =>
      dsimp only
      cases right[j]? with
      | none => rfl
      | some f =>
        dsimp only
        rw [← mapFields_erase names rn right fs, ← check_erase]
        exact erase_bind _ _ _ fun _ => erase_bind _ _ _ fun _ => rfl

theorem mapPrototypes_erase (names : List Name) (rn : Name → Name) (l r : Proto) :
    (mapPrototypes names rn l r).erase = Vts.mapPrototypes names rn l r := by
  unfold mapPrototypes Vts.mapPrototypes
  rw [← mapFields_erase]
  apply erase_bind
  intro v
  split <;> rfl

/-- The fields of one prototype: what each outcome means. -/
theorem attachFields_cases (o n : List Name) : ∀ fs : List (Name × Nat),
    ((∃ r, attachFields o n fs = .ok r) ∧ ∀ f ∈ fs, KnownType o n f) ∨
    (∃ pre f post, fs = pre ++ f :: post ∧ (∀ g ∈ pre, KnownType o n g) ∧
      ((UnknownType o n f ∧ attachFields o n fs = .throw (.typeMismatch (text f.1) f.2 (2 ^ 64 - 1))) ∨
        (f.2 ≠ 2 ^ 64 - 1 ∧ o[f.2]? = none ∧ attachFields o n fs = .throw (.corruption (2 ^ 64 - 1)))))
  | [] => .inl ⟨⟨[], rfl⟩, by simp⟩
  | (m, ty) :: fs => by
    have step : ∀ x : Option Nat, KnownType o n (m, ty) →
        attachFields o n ((m, ty) :: fs) = (attachFields o n fs).bind (fun r => .ok ((m, x) :: r)) →
        ((∃ r, attachFields o n ((m, ty) :: fs) = .ok r) ∧ ∀ f ∈ (m, ty) :: fs, KnownType o n f) ∨
        (∃ pre f post, (m, ty) :: fs = pre ++ f :: post ∧ (∀ g ∈ pre, KnownType o n g) ∧
          ((UnknownType o n f ∧ attachFields o n ((m, ty) :: fs) =
              .throw (.typeMismatch (text f.1) f.2 (2 ^ 64 - 1))) ∨
            (f.2 ≠ 2 ^ 64 - 1 ∧ o[f.2]? = none ∧
              attachFields o n ((m, ty) :: fs) = .throw (.corruption (2 ^ 64 - 1))))) := by
      intro x hk e
      rw [e]
      rcases attachFields_cases o n fs with ⟨⟨r, hr⟩, hall⟩ | ⟨pre, f, post, h1, h2, h3⟩
      · left
        exact ⟨⟨_, by rw [hr]; rfl⟩, by
          intro f hf
          rcases List.mem_cons.1 hf with rfl | hf
          · exact hk
          · exact hall f hf⟩
      · right
        refine ⟨(m, ty) :: pre, f, post, by rw [h1]; rfl, ?_, ?_⟩
        · intro g hg
          rcases List.mem_cons.1 hg with rfl | hg
          · exact hk
          · exact h2 g hg
        · rcases h3 with ⟨h3, h4⟩ | ⟨h3, h4, h5⟩
          · exact .inl ⟨h3, by rw [h4]; rfl⟩
          · exact .inr ⟨h3, h4, by rw [h5]; rfl⟩
    by_cases h : ty = 2 ^ 64 - 1
    · exact step none (.inl h) (by simp only [attachFields]; rw [if_pos h])
    · cases ho : o[ty]? with
      | none =>
        right
        refine ⟨[], (m, ty), fs, rfl, by simp, .inr ⟨h, ho, ?_⟩⟩
        simp only [attachFields]
        rw [if_neg h, ho]
      | some tn =>
        cases hf : findName n tn with
        | none =>
          right
          refine ⟨[], (m, ty), fs, rfl, by simp, .inl ⟨⟨h, tn, ho, findName_none.1 hf⟩, ?_⟩⟩
          simp only [attachFields]
          rw [if_neg h, ho]
          dsimp only
          rw [hf]
        | some k =>
          refine step (some k) (.inr ⟨tn, ho, findName_some.1 ⟨k, hf⟩⟩) ?_
          simp only [attachFields]
          rw [if_neg h, ho]
          dsimp only
          rw [hf]

/-- All prototypes. -/
theorem attachMetadata_cases (o n : List Name) : ∀ ps : List (List (Name × Nat)),
    ((∃ r, attachMetadata o n ps = .ok r) ∧ ∀ f ∈ ps.flatten, KnownType o n f) ∨
    (∃ pre f post, ps.flatten = pre ++ f :: post ∧ (∀ g ∈ pre, KnownType o n g) ∧
      ((UnknownType o n f ∧ attachMetadata o n ps = .throw (.typeMismatch (text f.1) f.2 (2 ^ 64 - 1))) ∨
        (f.2 ≠ 2 ^ 64 - 1 ∧ o[f.2]? = none ∧ attachMetadata o n ps = .throw (.corruption (2 ^ 64 - 1)))))
  | [] => .inl ⟨⟨[], rfl⟩, by simp⟩
  | p :: ps => by
    simp only [attachMetadata, List.flatten_cons]
    rcases attachFields_cases o n p with ⟨⟨r, hr⟩, hall⟩ | ⟨pre, f, post, h1, h2, h3⟩
    · rw [hr]
      simp only [Out.ok_bind]
      rcases attachMetadata_cases o n ps with ⟨⟨r', hr'⟩, hall'⟩ | ⟨pre, f, post, h1, h2, h3⟩
      · left
        refine ⟨⟨_, by rw [hr']; rfl⟩, fun f hf => ?_⟩
        rcases List.mem_append.1 hf with hf | hf
        · exact hall f hf
        · exact hall' f hf
      · right
        refine ⟨p ++ pre, f, post, by rw [h1, List.append_assoc], ?_, ?_⟩
        · intro g hg
          rcases List.mem_append.1 hg with hg | hg
          · exact hall g hg
          · exact h2 g hg
        · rcases h3 with ⟨h3, h4⟩ | ⟨h3, h4, h5⟩
          · exact .inl ⟨h3, by rw [h4]; rfl⟩
          · exact .inr ⟨h3, h4, by rw [h5]; rfl⟩
    · right
      refine ⟨pre, f, post ++ ps.flatten, by rw [h1]; simp, h2, ?_⟩
      rcases h3 with ⟨h3, h4⟩ | ⟨h3, h4, h5⟩
      · exact .inl ⟨h3, by rw [h4]; rfl⟩
      · exact .inr ⟨h3, h4, by rw [h5]; rfl⟩

/-- A text cannot be cut in two ways. -/
theorem first_unique {α : Type} {P : α → Prop} : ∀ {a b : List α} {x y : α} {r s : List α},
    (∀ z ∈ a, P z) → (∀ z ∈ b, P z) → ¬ P x → ¬ P y → a ++ x :: r = b ++ y :: s → a = b ∧ x = y ∧ r = s
  | [], [], _, _, _, _, _, _, _, _, h => by simpa using h
  | [], b :: bs, _, _, _, _, _, hb, hx, _, h => by
    simp only [List.nil_append, List.cons_append, List.cons.injEq] at h
    exact absurd (h.1 ▸ hb b (by simp)) hx
  | a :: as, [], _, _, _, _, ha, _, _, hy, h => by
    simp only [List.nil_append, List.cons_append, List.cons.injEq] at h
    exact absurd (h.1 ▸ ha a (by simp)) hy
  | a :: as, b :: bs, _, _, _, _, ha, hb, hx, hy, h => by
    simp only [List.cons_append, List.cons.injEq] at h
    obtain ⟨h1, h2, h3⟩ := first_unique (fun z hz => ha z (by simp [hz])) (fun z hz => hb z (by simp [hz])) hx hy h.2
    exact ⟨by rw [h.1, h1], h2, h3⟩

theorem unknown_not_known {o n : List Name} {f : Name × Nat} (h : UnknownType o n f) : ¬ KnownType o n f := by
  obtain ⟨h1, tn, h2, h3⟩ := h
  rintro (h | ⟨t, h4, h5⟩)
  · exact h1 h
  · rw [h2] at h4
    cases h4
    exact h3 h5

theorem bad_not_known {o n : List Name} {f : Name × Nat} (h1 : f.2 ≠ 2 ^ 64 - 1) (h2 : o[f.2]? = none) :
    ¬ KnownType o n f := by
  rintro (h | ⟨t, h4, _⟩)
  · exact h1 h
  · rw [h2] at h4
    cases h4

theorem check_ok {names : List Name} {a b : Option Nat} (h : checkTypesCompatible names a b = .ok ()) :
    SameType names a b := by
  unfold checkTypesCompatible at h
  by_cases e : a = b
  · exact .inl e
  · rw [if_neg e] at h
    cases a with
    | none => cases b <;> cases h
    | some a =>
      cases b with
      | none => cases h
      | some b =>
        dsimp only at h
        unfold areTypeNamesEqual at h
        cases hx : names[a]? with
        | none => rw [hx] at h; cases h
        | some x =>
          cases hy : names[b]? with
          | none => rw [hx, hy] at h; cases h
          | some y =>
            rw [hx, hy] at h
            simp only [Out.ok_bind] at h
            by_cases he : x = y
            · subst he
              exact .inr ⟨a, b, x, rfl, rfl, hx, hy⟩
            · rw [if_neg (by simpa using he)] at h
              cases h

theorem check_same {names : List Name} {a b : Option Nat} (h : SameType names a b) :
    checkTypesCompatible names a b = .ok () := by
  unfold checkTypesCompatible
  by_cases e : a = b
  · rw [if_pos e]
  · rw [if_neg e]
    rcases h with h | ⟨x, y, z, rfl, rfl, h1, h2⟩
    · exact absurd h e
    · have hb : (z == z) = true := by simp
      simp only [areTypeNamesEqual, h1, h2, Out.ok_bind, hb, if_true]

theorem equal_same {names : List Name} {a b : Option Nat} (h : SameType names a b) :
    areTypesEqual names a b = .ok true := by
  unfold areTypesEqual
  by_cases e : a = b
  · rw [if_pos e]
  · rw [if_neg e]
    rcases h with h | ⟨x, y, z, rfl, rfl, h1, h2⟩
    · exact absurd h e
    · have hb : (z == z) = true := by simp
      simp only [areTypeNamesEqual, h1, h2, hb]

theorem check_throw {names : List Name} {a b : Option Nat} {e : Err} (h : checkTypesCompatible names a b = .throw e) :
    e = .ioError "Type mismatch.".toList ∨ e = .ioError "A structure can't map to a scalar type.".toList := by
  unfold checkTypesCompatible at h
  by_cases e' : a = b
  · rw [if_pos e'] at h; cases h
  · rw [if_neg e'] at h
    cases a with
    | none => cases b <;> (cases h; exact .inr rfl)
    | some a =>
      cases b with
      | none => cases h; exact .inr rfl
      | some b =>
        dsimp only at h
        unfold areTypeNamesEqual at h
        cases hx : names[a]? with
        | none => rw [hx] at h; cases h
        | some x =>
          cases hy : names[b]? with
          | none => rw [hx, hy] at h; cases h
          | some y =>
            rw [hx, hy] at h
            simp only [Out.ok_bind] at h
            by_cases he : (x == y) = true
            · rw [if_pos he] at h; cases h
            · rw [if_neg he] at h
              cases h
              exact .inl rfl

theorem check_other {names : List Name} {a b : Option Nat} (h : OtherType names a b) :
    ∃ e, checkTypesCompatible names a b = .throw e := by
  unfold checkTypesCompatible
  rcases h with ⟨x, y, u, v, rfl, rfl, h1, h2, h3⟩ | ⟨rfl, h⟩ | ⟨h, rfl⟩
  · have : ¬ (some x = some y) := by
      intro h
      cases h
      rw [h1] at h2
      cases h2
      exact h3 rfl
    rw [if_neg this]
    refine ⟨.ioError "Type mismatch.".toList, ?_⟩
    dsimp only
    unfold areTypeNamesEqual
    rw [h1, h2]
    simp only [Out.ok_bind]
    rw [if_neg (by simpa using h3)]
  · rw [if_neg (Ne.symm h)]
    cases b with
    | none => exact absurd rfl h
    | some b => exact ⟨_, rfl⟩
  · rw [if_neg h]
    cases a with
    | none => exact absurd rfl h
    | some a => exact ⟨_, rfl⟩

theorem mapFields_throw (names : List Name) (rn : Name → Name) (right : Proto) (e : Err) : ∀ l,
    mapFields names rn right l = .throw e →
      e = .ioError "Type mismatch.".toList ∨ e = .ioError "A structure can't map to a scalar type.".toList
  | [], h => by cases h
  | (n, ty) :: fs, h => by
    simp only [mapFields] at h
    have rest : ∀ x, (mapFields names rn right fs).bind (fun r => .ok (x :: r)) = .throw e →
        mapFields names rn right fs = .throw e := by
      intro x h
      cases hm : mapFields names rn right fs with
      | ok r => rw [hm] at h; cases h
      | throw e' => rw [hm] at h; cases h; rfl
      | ub => rw [hm] at h; cases h
    cases hi : right.findIdx? (fun f => f.1 == rn n) with
    | none =>
      rw [hi] at h
      exact mapFields_throw names rn right e fs (rest _ h)
    | some j =>
      rw [hi] at h
      dsimp only at h
      cases hj : right[j]? with
      | none => rw [hj] at h; cases h
      | some f =>
        rw [hj] at h
        dsimp only at h
        cases hc : checkTypesCompatible names ty f.2 with
        | ok u => rw [hc] at h; exact mapFields_throw names rn right e fs (rest _ h)
        | throw e' => rw [hc] at h; cases h; exact check_throw hc
        | ub => rw [hc] at h; cases h

theorem mapPrototypes_throw {names : List Name} {rn : Name → Name} {l r : Proto} {e : Err}
    (h : mapPrototypes names rn l r = .throw e) :
    e = .ioError "Type mismatch.".toList ∨ e = .ioError "A structure can't map to a scalar type.".toList := by
  unfold mapPrototypes at h
  cases hm : mapFields names rn r l with
  | ok v =>
    rw [hm] at h
    simp only [Out.ok_bind] at h
    split at h <;> cases h
  | throw e' => rw [hm] at h; cases h; exact mapFields_throw _ _ _ _ _ hm
  | ub => rw [hm] at h; cases h

/-- What a map of fields says. -/
def Sound (names : List Name) (rn : Name → Name) (right : Proto) : List ((Name × Option Nat) × Option Nat) → Prop
  | [] => True
  | (f, none) :: ps => Removed rn right f ∧ Sound names rn right ps
  | (f, some j) :: ps => Kept names rn right f j ∧ Sound names rn right ps

theorem mapFields_sound (names : List Name) (rn : Name → Name) (right : Proto) : ∀ l m,
    mapFields names rn right l = .ok m → m.length = l.length ∧ Sound names rn right (l.zip m)
  | [], m, h => by cases h; exact ⟨rfl, trivial⟩
  | (n, ty) :: fs, m, h => by
    simp only [mapFields] at h
    have rest : ∀ x, (mapFields names rn right fs).bind (fun r => .ok (x :: r)) = .ok m →
        ∃ m', mapFields names rn right fs = .ok m' ∧ m = x :: m' := by
      intro x h
      cases hm : mapFields names rn right fs with
      | ok r => rw [hm] at h; cases h; exact ⟨r, rfl, rfl⟩
      | throw e' => rw [hm] at h; cases h
      | ub => rw [hm] at h; cases h
    cases hi : right.findIdx? (fun f => f.1 == rn n) with
    | none =>
      rw [hi] at h
      obtain ⟨m', h1, rfl⟩ := rest _ h
      obtain ⟨h2, h3⟩ := mapFields_sound names rn right fs m' h1
      refine ⟨by simp [h2], ?_, h3⟩
      intro g hg
      have := List.findIdx?_eq_none_iff.1 hi g hg
      simpa using this
    | some j =>
      rw [hi] at h
      dsimp only at h
      cases hj : right[j]? with
      | none => rw [hj] at h; cases h
      | some f =>
        rw [hj] at h
        dsimp only at h
        cases hc : checkTypesCompatible names ty f.2 with
        | ok u =>
          rw [hc] at h
          obtain ⟨m', h1, rfl⟩ := rest _ h
          obtain ⟨h2, h3⟩ := mapFields_sound names rn right fs m' h1
          refine ⟨by simp [h2], ⟨f, hj, ?_, check_ok hc⟩, h3⟩
          obtain ⟨hlt, hp, _⟩ := List.findIdx?_eq_some_iff_getElem.1 hi
          rw [List.getElem?_eq_getElem hlt] at hj
          cases hj
          simpa using hp
        | throw e' => rw [hc] at h; cases h
        | ub => rw [hc] at h; cases h

theorem mapPrototypes_sound {names : List Name} {rn : Name → Name} {l r : Proto} {m : List (Option Nat)}
    (h : mapPrototypes names rn l r = .ok m) :
    m = [] ∨ (m.length = l.length ∧ Sound names rn r (l.zip m)) := by
  unfold mapPrototypes at h
  cases hm : mapFields names rn r l with
  | ok v =>
    rw [hm] at h
    simp only [Out.ok_bind] at h
    split at h
    · cases h; exact .inl rfl
    · cases h; exact .inr (mapFields_sound _ _ _ _ _ hm)
  | throw e' => rw [hm] at h; cases h
  | ub => rw [hm] at h; cases h

end Verif.IoMsg
