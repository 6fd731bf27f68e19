import Verif.IoMsg.Lemmas

/-!
# C182: what I/O exceptions say
-/

namespace Verif.IoMsg

open Verif.Vts

/-- The functions modelled here with the data of their exceptions are those of the model of version tolerant reading. -/
theorem c182_same_functions (names : List Name) (rn : Name → Name) (l r : Proto) (o n : List Name)
    (ps : List (List (Name × Nat))) :
    (attachMetadata o n ps).erase = Vts.attachMetadata o n ps ∧
      (mapPrototypes names rn l r).erase = Vts.mapPrototypes names rn l r :=
  ⟨attachMetadata_erase o n ps, mapPrototypes_erase names rn l r⟩

/-- **C182.**  A read gives exactly the bytes asked for, or throws when there are fewer, and then the text has the
number of bytes asked for and the number of bytes there were. -/
theorem c182_end_of_data (s : List UInt8) (count : Nat) :
    (count ≤ s.length → readRaw s count = .ok (s.take count, s.drop count)) ∧
      (s.length < count → readRaw s count = .throw (.eof count s.length) ∧
        what (.eof count s.length) =
          "Requested ".toList ++ (toString count).toList ++ " actually read ".toList ++ (toString s.length).toList ++
            " .".toList) := by
  constructor
  · intro h
    simp only [readRaw, Nat.min_eq_left h]
    rw [if_neg (by omega)]
  · intro h
    refine ⟨?_, ?_⟩
    · simp only [readRaw, Nat.min_eq_right (Nat.le_of_lt h)]
      rw [if_pos h]
    · rw [← dec_text, ← dec_text]
      unfold what
      simp only [List.append_assoc]

example : readRaw [1, 2, 3] 5 = .throw (.eof 5 3) := by decide
example : String.ofList (what (.eof 500 33)) = "Requested 500 actually read 33 ." := by decide +kernel

/-- The first character tells the exceptions apart; the numbers and the names can be read off the text. -/
theorem c182_tells (a b : Err) (ha : Plain a) (hb : Plain b) (h : what a = what b) : a = b := by
  cases a with
  | ioError m => exact absurd ha id
  | eof r x =>
    cases b with
    | ioError m => exact absurd hb id
    | eof r' x' =>
      obtain ⟨rfl, h2⟩ := dec_split (c := ' ') (d := ' ') (by decide) (by decide) (List.append_cancel_left h)
      have h3 : dec x ++ " .".toList = dec x' ++ " .".toList := List.append_cancel_left (as := " actually read ".toList) h2
      obtain ⟨rfl, _⟩ := dec_split (c := ' ') (d := ' ') (by decide) (by decide) h3
      rfl
    | corruption p => exact absurd (List.cons.inj h).1 (by decide)
    | fieldNotFound n => exact absurd (List.cons.inj h).1 (by decide)
    | typeMismatch n x y => exact absurd (List.cons.inj h).1 (by decide)
  | corruption p =>
    cases b with
    | ioError m => exact absurd hb id
    | eof r' x' => exact absurd (List.cons.inj h).1 (by decide)
    | corruption q =>
      have h1 := List.append_cancel_left (as := "The stream is corrupted".toList) h
      by_cases hp : p ≠ 2 ^ 64 - 1
      · by_cases hq : q ≠ 2 ^ 64 - 1
        · rw [if_pos hp, if_pos hq, List.append_assoc, List.append_assoc] at h1
          obtain ⟨rfl, _⟩ := dec_split (c := ' ') (d := ' ') (by decide) (by decide) (List.append_cancel_left h1)
          rfl
        · rw [if_pos hp, if_neg hq] at h1
          exact absurd (List.cons.inj (List.cons.inj h1).2).1 (by decide)
      · by_cases hq : q ≠ 2 ^ 64 - 1
        · rw [if_neg hp, if_pos hq] at h1
          exact absurd (List.cons.inj (List.cons.inj h1).2).1 (by decide)
        · rw [Classical.not_not.1 hp, Classical.not_not.1 hq]
    | fieldNotFound n => exact absurd (List.cons.inj h).1 (by decide)
    | typeMismatch n x y => exact absurd (List.cons.inj h).1 (by decide)
  | fieldNotFound n =>
    cases b with
    | ioError m => exact absurd hb id
    | eof r' x' => exact absurd (List.cons.inj h).1 (by decide)
    | corruption q => exact absurd (List.cons.inj h).1 (by decide)
    | fieldNotFound n' =>
      obtain ⟨rfl, _⟩ := quote_split ha hb (List.append_cancel_left (as := "Field '".toList) h)
      rfl
    | typeMismatch n' x y => exact absurd (List.cons.inj h).1 (by decide)
  | typeMismatch n x y =>
    cases b with
    | ioError m => exact absurd hb id
    | eof r' x' => exact absurd (List.cons.inj h).1 (by decide)
    | corruption q => exact absurd (List.cons.inj h).1 (by decide)
    | fieldNotFound n' => exact absurd (List.cons.inj h).1 (by decide)
    | typeMismatch n' x' y' =>
      obtain ⟨rfl, h2⟩ := quote_split ha hb (List.append_cancel_left (as := "Expected '".toList) h)
      have h3 : dec y ++ (" actually read type: ".toList ++ (dec x ++ " .".toList)) =
          dec y' ++ (" actually read type: ".toList ++ (dec x' ++ " .".toList)) :=
        List.append_cancel_left (as := " type: ".toList) h2
      obtain ⟨rfl, h4⟩ := dec_split (c := ' ') (d := ' ') (by decide) (by decide) h3
      have h5 : dec x ++ " .".toList = dec x' ++ " .".toList :=
        List.append_cancel_left (as := " actually read type: ".toList) h4
      obtain ⟨rfl, _⟩ := dec_split (c := ' ') (d := ' ') (by decide) (by decide) h5
      rfl

example : Plain (.typeMismatch "width".toList 3 (2 ^ 64 - 1)) ∧ Plain (.eof 10 1) :=
  ⟨show '\'' ∉ "width".toList by decide +kernel, trivial⟩

/-- **C182.**  If a field in the tables of the stream has a type that the program does not have, and all fields before
it are well described, the text names this field and the number of its type in the stream, and only then.
Partial: the number of the expected type is always `size_t(-1)`, and a field whose type has changed to another type that
the program has is not named (`c182_changed_violated`). -/
theorem c182_unknown_type_partial (o n : List Name) (ps : List (List (Name × Nat))) (m : List Char) (a e : Nat) :
    attachMetadata o n ps = .throw (.typeMismatch m a e) ↔
      ∃ pre f post, ps.flatten = pre ++ f :: post ∧ (∀ g ∈ pre, KnownType o n g) ∧ UnknownType o n f ∧
        m = text f.1 ∧ a = f.2 ∧ e = 2 ^ 64 - 1 := by
  constructor
  · intro h
    rcases attachMetadata_cases o n ps with ⟨⟨r, hr⟩, _⟩ | ⟨pre, f, post, h1, h2, ⟨h3, h4⟩ | ⟨_, _, h5⟩⟩
    · rw [hr] at h; cases h
    · rw [h4] at h
      cases h
      exact ⟨pre, f, post, h1, h2, h3, rfl, rfl, rfl⟩
    · rw [h5] at h; cases h
  · rintro ⟨pre, f, post, h1, h2, h3, rfl, rfl, rfl⟩
    rcases attachMetadata_cases o n ps with ⟨_, hall⟩ | ⟨pre', f', post', h1', h2', ⟨h3', h4⟩ | ⟨h5, h6, _⟩⟩
    · exact absurd (hall f (by rw [h1]; simp)) (unknown_not_known h3)
    · obtain ⟨_, rfl, _⟩ := first_unique h2 h2' (unknown_not_known h3) (unknown_not_known h3') (h1 ▸ h1')
      exact h4
    · obtain ⟨_, rfl, _⟩ := first_unique h2 h2' (unknown_not_known h3) (bad_not_known h5 h6) (h1 ▸ h1')
      obtain ⟨_, tn, h7, _⟩ := h3
      rw [h6] at h7
      cases h7

/-- **C182.**  The line in the log of a storage then has this text and the advice to include removed types, and no
other exception of a reader makes such a line. -/
theorem c182_logged (file m : List Char) (a e : Nat) :
    logLine file (.typeMismatch m a e) = "Type mismatch error Expected '".toList ++ m ++ "' type: ".toList ++ dec e ++
      " actually read type: ".toList ++ dec a ++ " . in the settings file '".toList ++ file ++
        "' Did you include all the types including those that were removed ? .".toList ∧
      ∀ x, ("Type mismatch error ".toList <+: logLine file x) ↔ ∃ m a e, x = .typeMismatch m a e := by
  constructor
  · have e1 : "Type mismatch error Expected '".toList = "Type mismatch error ".toList ++ "Expected '".toList := by
      decide +kernel
    have e2 : " . in the settings file '".toList = " .".toList ++ " in the settings file '".toList := by decide +kernel
    rw [e1, e2]
    unfold logLine what
    simp only [List.append_assoc]
  · intro x
    constructor
    · intro h
      cases x with
      | typeMismatch m a e => exact ⟨m, a, e, rfl⟩
      | eof r x => obtain ⟨t, ht⟩ := h; exact absurd (List.cons.inj ht).1 (by decide)
      | corruption p => obtain ⟨t, ht⟩ := h; exact absurd (List.cons.inj ht).1 (by decide)
      | fieldNotFound n => obtain ⟨t, ht⟩ := h; exact absurd (List.cons.inj ht).1 (by decide)
      | ioError s => obtain ⟨t, ht⟩ := h; exact absurd (List.cons.inj ht).1 (by decide)
    · rintro ⟨m, a, e, rfl⟩
      exact List.prefix_append _ _

/-- **C182.**  If the text says that a field is not found, the program does not have it, it is the first such field of
the structure in the stream, and the reader does not allow removed fields. -/
theorem c182_removed {σ : Type} (names : List Name) (rn : Name → Name) (allowDelete : Bool) (left right : Proto)
    (skip : Option Nat → σ → Out σ) (all : σ → Out σ) (rd : Nat → σ → Out σ) (s : σ) (x : List Char)
    (hall : ∀ s, all s ≠ .throw (.fieldNotFound x)) (hrd : ∀ j s, rd j s ≠ .throw (.fieldNotFound x))
    (hskip : ∀ t s, skip t s ≠ .throw (.fieldNotFound x))
    (h : readStruct names rn allowDelete left right skip all rd s = .throw (.fieldNotFound x)) :
    allowDelete = false ∧ ∃ pre f post, left = pre ++ f :: post ∧ (∀ g ∈ pre, ¬ Removed rn right g) ∧
      Removed rn right f ∧ x = text f.1 := by
  have loop : ∀ (l : Proto) (m : List (Option Nat)) (s : σ), m.length = l.length → Sound names rn right (l.zip m) →
      readMapped names allowDelete skip right rd (l.zip m) s = .throw (.fieldNotFound x) →
      allowDelete = false ∧ ∃ pre f post, l = pre ++ f :: post ∧ (∀ g ∈ pre, ¬ Removed rn right g) ∧
        Removed rn right f ∧ x = text f.1 := by
    intro l
    induction l with
    | nil => intro m s _ _ h; cases h
    | cons f l ih =>
      intro m s hl hs h
      cases m with
      | nil => cases hl
      | cons i m =>
        cases i with
        | none =>
          simp only [List.zip_cons_cons, readMapped] at h
          by_cases hd : allowDelete = true
          · rw [if_pos hd] at h
            cases hk : skip f.2 s with
            | ok s' =>
              rw [hk] at h
              obtain ⟨h1, _⟩ := ih m s' (by simpa using hl) hs.2 h
              rw [hd] at h1
              cases h1
            | throw e => rw [hk] at h; cases h; exact absurd hk (hskip _ _)
            | ub => rw [hk] at h; cases h
          · rw [if_neg hd] at h
            cases h
            exact ⟨by simpa using hd, [], f, l, rfl, by simp, hs.1, rfl⟩
        | some j =>
          simp only [List.zip_cons_cons, readMapped] at h
          obtain ⟨g, hg, hn, ht⟩ := hs.1
          rw [hg] at h
          dsimp only at h
          rw [equal_same ht] at h
          simp only [Out.ok_bind, if_true] at h
          cases hr : rd j s with
          | ok s' =>
            rw [hr] at h
            obtain ⟨h1, pre, f', post, h2, h3, h4, h5⟩ := ih m s' (by simpa using hl) hs.2 h
            refine ⟨h1, f :: pre, f', post, by rw [h2]; rfl, ?_, h4, h5⟩
            intro g' hg'
            rcases List.mem_cons.1 hg' with rfl | hg'
            · exact fun hr => hr g (List.mem_of_getElem? hg) hn
            · exact h3 g' hg'
          | throw e => rw [hr] at h; cases h; exact absurd hr (hrd _ _)
          | ub => rw [hr] at h; cases h
  unfold readStruct at h
  cases hm : mapPrototypes names rn left right with
  | ok m =>
    rw [hm] at h
    simp only [Out.ok_bind] at h
    by_cases he : m.isEmpty = true
    · rw [if_pos he] at h
      exact absurd h (hall s)
    · rw [if_neg he] at h
      rcases mapPrototypes_sound hm with rfl | ⟨h1, h2⟩
      · exact absurd rfl he
      · exact loop left m s h1 h2 h
  | throw e =>
    rw [hm] at h
    cases h
    rcases mapPrototypes_throw hm with h | h <;> cases h
  | ub => rw [hm] at h; cases h

/-- **C182.**  If the reader does not allow removed fields, the program does not have a field of the stream, the types
of the fields before have not changed and neither have those after, and the fields before can be read, the text names
the first field of the stream that the program does not have. -/
theorem c182_removed_reported {σ : Type} (names : List Name) (rn : Name → Name) (right : Proto)
    (skip : Option Nat → σ → Out σ) (all : σ → Out σ) (rd : Nat → σ → Out σ) (s : σ) (pre post : Proto)
    (f : Name × Option Nat) (hpre : ∀ g ∈ pre, ¬ Removed rn right g) (hf : Removed rn right f)
    (hsame : ∀ x ∈ pre ++ f :: post, ∀ y ∈ right, y.1 = rn x.1 → SameType names x.2 y.2)
    (hrd : ∀ j s, ∃ s', rd j s = .ok s') :
    readStruct names rn false (pre ++ f :: post) right skip all rd s = .throw (.fieldNotFound (text f.1)) ∧
      what (.fieldNotFound (text f.1)) = "Field '".toList ++ text f.1 ++ "' not found. .".toList := by
  have hmap : ∀ l : Proto, (∀ x ∈ l, ∀ y ∈ right, y.1 = rn x.1 → SameType names x.2 y.2) →
      ∃ m, mapFields names rn right l = .ok m := by
    intro l
    induction l with
    | nil => exact fun _ => ⟨[], rfl⟩
    | cons x l ih =>
      intro h
      obtain ⟨n, ty⟩ := x
      obtain ⟨m, hm⟩ := ih fun x hx => h x (List.mem_cons_of_mem _ hx)
      simp only [mapFields]
      cases hi : right.findIdx? (fun f => f.1 == rn n) with
      | none => exact ⟨_, by rw [hm]; rfl⟩
      | some j =>
        obtain ⟨hlt, hp, _⟩ := List.findIdx?_eq_some_iff_getElem.1 hi
        dsimp only
        rw [List.getElem?_eq_getElem hlt]
        dsimp only
        rw [check_same (h (n, ty) List.mem_cons_self _ (List.getElem_mem hlt) (by simpa using hp)), hm]
        exact ⟨_, rfl⟩
  obtain ⟨m, hm⟩ := hmap _ hsame
  have loop : ∀ (pre : Proto) (m : List (Option Nat)) (s : σ), (∀ g ∈ pre, ¬ Removed rn right g) →
      m.length = (pre ++ f :: post).length → Sound names rn right ((pre ++ f :: post).zip m) → none ∈ m ∧
      readMapped names false skip right rd ((pre ++ f :: post).zip m) s = .throw (.fieldNotFound (text f.1)) := by
    intro pre
    induction pre with
    | nil =>
      intro m s _ hl hs
      cases m with
      | nil => cases hl
      | cons i m =>
        cases i with
        | none => exact ⟨List.mem_cons_self, rfl⟩
        | some j =>
          obtain ⟨g, hg, hn, _⟩ := hs.1
          exact absurd hn (hf g (List.mem_of_getElem? hg))
    | cons x pre ih =>
      intro m s hp hl hs
      cases m with
      | nil => cases hl
      | cons i m =>
        cases i with
        | none => exact absurd hs.1 (hp x List.mem_cons_self)
        | some j =>
          obtain ⟨g, hg, hn, ht⟩ := hs.1
          obtain ⟨s', hs'⟩ := hrd j s
          obtain ⟨h1, h2⟩ := ih m s' (fun g hg => hp g (List.mem_cons_of_mem _ hg)) (by simpa using hl) hs.2
          refine ⟨List.mem_cons_of_mem _ h1, ?_⟩
          simp only [List.cons_append, List.zip_cons_cons, readMapped]
          rw [hg]
          dsimp only
          rw [equal_same ht]
          simp only [Out.ok_bind, if_true]
          rw [hs']
          exact h2
  obtain ⟨h1, h2⟩ := mapFields_sound _ _ _ _ _ hm
  obtain ⟨h3, h4⟩ := loop pre m s hpre h1 h2
  refine ⟨?_, ?_⟩
  · unfold readStruct mapPrototypes
    rw [hm]
    simp only [Out.ok_bind]
    rw [if_neg]
    · simp only [Out.ok_bind]
      rw [if_neg]
      · exact h4
      · intro he
        rw [List.isEmpty_iff.1 he] at h3
        cases h3
    · rintro ⟨_, he⟩
      rw [he] at h3
      simp at h3
  · unfold what
    simp only [List.append_assoc]

/-- **C182 is violated.**  If the type of a field has changed, which the exception with the name of the field and both
types is made for, an exception is thrown with one of two texts, whatever the field and whatever the types are: the
name of the field and its types are not in it, and the line in the log calls it a general exception. -/
theorem c182_changed_violated {σ : Type} (names : List Name) (rn : Name → Name) (allowDelete : Bool)
    (left right : Proto) (skip : Option Nat → σ → Out σ) (all : σ → Out σ) (rd : Nat → σ → Out σ) (s : σ)
    (file : List Char) (f g : Name × Option Nat)
    (hl : ∀ x ∈ left, ∀ k, x.2 = some k → k < names.length) (hr : ∀ x ∈ right, ∀ k, x.2 = some k → k < names.length)
    (hf : f ∈ left) (hg : right.find? (fun x => x.1 == rn f.1) = some g) (ht : OtherType names f.2 g.2) :
    ∃ t ∈ ["Type mismatch.".toList, "A structure can't map to a scalar type.".toList],
      readStruct names rn allowDelete left right skip all rd s = .throw (.ioError t) ∧
        logLine file (.ioError t) = "General IO exception in '".toList ++ (file ++ ("': ".toList ++ t)) := by
  have noub : ∀ a b : Option Nat, (∀ k, a = some k → k < names.length) → (∀ k, b = some k → k < names.length) →
      checkTypesCompatible names a b ≠ .ub := by
    intro a b ha hb
    unfold checkTypesCompatible
    by_cases e : a = b
    · rw [if_pos e]; exact fun h => by cases h
    · rw [if_neg e]
      cases a with
      | none => intro h; cases h
      | some a =>
        cases b with
        | none => intro h; cases h
        | some b =>
          dsimp only
          unfold areTypeNamesEqual
          rw [List.getElem?_eq_getElem (ha a rfl), List.getElem?_eq_getElem (hb b rfl)]
          simp only [Out.ok_bind]
          split <;> exact fun h => by cases h
  have main : ∀ l : Proto, (∀ x ∈ l, ∀ k, x.2 = some k → k < names.length) → f ∈ l →
      ∃ e, mapFields names rn right l = .throw e := by
    intro l
    induction l with
    | nil => intro _ h; cases h
    | cons x l ih =>
      intro hl hf
      obtain ⟨n, ty⟩ := x
      simp only [mapFields]
      have hl' : ∀ x ∈ l, ∀ k, x.2 = some k → k < names.length := fun x hx => hl x (List.mem_cons_of_mem _ hx)
      cases hi : right.findIdx? (fun f => f.1 == rn n) with
      | none =>
        have hne : f ∈ l := by
          rcases List.mem_cons.1 hf with rfl | hf
          · have h1 := List.findIdx?_eq_none_iff.1 hi g (List.mem_of_find?_eq_some hg)
            have h2 := List.find?_some hg
            rw [h1] at h2
            cases h2
          · exact hf
        obtain ⟨e, he⟩ := ih hl' hne
        exact ⟨e, by rw [he]; rfl⟩
      | some j =>
        obtain ⟨hlt, hp, hmin⟩ := List.findIdx?_eq_some_iff_getElem.1 hi
        dsimp only
        rw [List.getElem?_eq_getElem hlt]
        dsimp only
        cases hc : checkTypesCompatible names ty right[j].2 with
        | throw e => exact ⟨e, rfl⟩
        | ub => exact absurd hc (noub _ _ (hl (n, ty) (by simp)) (hr _ (List.getElem_mem hlt)))
        | ok u =>
          have hne : f ∈ l := by
            rcases List.mem_cons.1 hf with rfl | hf
            · obtain ⟨hpg, i, hilt, hig, himin⟩ := List.find?_eq_some_iff_getElem.1 hg
              have hij : i = j := by
                rcases Nat.lt_trichotomy i j with h | h | h
                · have := hmin i h
                  rw [hig] at this
                  exact absurd hpg this
                · exact h
                · have := himin j h
                  simp only [Bool.not_eq_true'] at this
                  rw [hp] at this
                  cases this
              subst hij
              rw [hig] at hc
              obtain ⟨e, he⟩ := check_other ht
              rw [he] at hc
              cases hc
            · exact hf
          obtain ⟨e, he⟩ := ih hl' hne
          exact ⟨e, by rw [he]; rfl⟩
  obtain ⟨e, he⟩ := main left hl hf
  rcases mapFields_throw _ _ _ _ _ he with rfl | rfl
  · exact ⟨_, List.mem_cons_self, by unfold readStruct mapPrototypes; rw [he]; rfl, rfl⟩
  · exact ⟨_, List.mem_cons_of_mem _ List.mem_cons_self, by unfold readStruct mapPrototypes; rw [he]; rfl, rfl⟩

/-- **C182 is violated.**  The exception with the name of a field and both types is not thrown for a structure of the
stream at all, unless one of its fields throws it. -/
theorem c182_never_thrown_violated {σ : Type} (names : List Name) (rn : Name → Name) (allowDelete : Bool)
    (left right : Proto) (skip : Option Nat → σ → Out σ) (all : σ → Out σ) (rd : Nat → σ → Out σ) (s : σ)
    (x : List Char) (a e : Nat) (hall : ∀ s, all s ≠ .throw (.typeMismatch x a e))
    (hrd : ∀ j s, rd j s ≠ .throw (.typeMismatch x a e)) (hskip : ∀ t s, skip t s ≠ .throw (.typeMismatch x a e)) :
    readStruct names rn allowDelete left right skip all rd s ≠ .throw (.typeMismatch x a e) := by
  have loop : ∀ (l : Proto) (m : List (Option Nat)) (s : σ), m.length = l.length → Sound names rn right (l.zip m) →
      readMapped names allowDelete skip right rd (l.zip m) s ≠ .throw (.typeMismatch x a e) := by
    intro l
    induction l with
    | nil => intro m s _ _ h; cases h
    | cons f l ih =>
      intro m s hl hs h
      cases m with
      | nil => cases hl
      | cons i m =>
        cases i with
        | none =>
          simp only [List.zip_cons_cons, readMapped] at h
          by_cases hd : allowDelete = true
          · rw [if_pos hd] at h
            cases hk : skip f.2 s with
            | ok s' => rw [hk] at h; exact ih m s' (by simpa using hl) hs.2 h
            | throw e => rw [hk] at h; cases h; exact hskip _ _ hk
            | ub => rw [hk] at h; cases h
          · rw [if_neg hd] at h
            cases h
        | some j =>
          simp only [List.zip_cons_cons, readMapped] at h
          obtain ⟨g, hg, hn, ht⟩ := hs.1
          rw [hg] at h
          dsimp only at h
          rw [equal_same ht] at h
          simp only [Out.ok_bind, if_true] at h
          cases hr : rd j s with
          | ok s' => rw [hr] at h; exact ih m s' (by simpa using hl) hs.2 h
          | throw e => rw [hr] at h; cases h; exact hrd _ _ hr
          | ub => rw [hr] at h; cases h
  intro h
  unfold readStruct at h
  cases hm : mapPrototypes names rn left right with
  | ok m =>
    rw [hm] at h
    simp only [Out.ok_bind] at h
    by_cases he : m.isEmpty = true
    · rw [if_pos he] at h
      exact hall s h
    · rw [if_neg he] at h
      rcases mapPrototypes_sound hm with rfl | ⟨h1, h2⟩
      · exact he rfl
      · exact loop left m s h1 h2 h
  | throw e =>
    rw [hm] at h
    cases h
    rcases mapPrototypes_throw hm with h | h <;> cases h
  | ub => rw [hm] at h; cases h

/-! ### A case -/

/-- The characters of a word. -/
def w (s : String) : Name := s.toUTF8.toList

/-- The types of the program. -/
def sampleNames : List Name := [w "int", w "string"]

/-- In the stream: `id`, `width` and `title`. -/
def sampleLeft : Proto := [(w "id", some 0), (w "width", some 0), (w "title", some 1)]

/-- In the program `width` is a string and `title` has been removed. -/
def sampleRight : Proto := [(w "id", some 0), (w "width", some 1)]

/-- In the program `width` has been removed. -/
def sampleRight' : Proto := [(w "title", some 1), (w "id", some 0)]

/-- The state is the list of the fields that have been read. -/
def sampleRd (j : Nat) (s : List Nat) : Out (List Nat) := .ok (s ++ [j])

example : readStruct sampleNames id false sampleLeft sampleRight' (fun _ s => .ok s) .ok sampleRd [] =
    .throw (.fieldNotFound "width".toList) := by decide +kernel

example : readStruct sampleNames id true sampleLeft sampleRight' (fun _ s => .ok s) .ok sampleRd [] = .ok [1, 0] := by
  decide +kernel

example : readStruct sampleNames id true sampleLeft sampleRight (fun _ s => .ok s) .ok sampleRd [] =
    .throw (.ioError "Type mismatch.".toList) := by decide +kernel

example : attachMetadata [w "int", w "float"] sampleNames
    [[(w "id", 0), (w "next", 2 ^ 64 - 1)], [(w "x", 0), (w "y", 1), (w "z", 1)]] =
    .throw (.typeMismatch "y".toList 1 (2 ^ 64 - 1)) := by decide +kernel

example : (∀ g ∈ [(w "id", some 0)], ¬ Removed id sampleRight' g) ∧ Removed id sampleRight' (w "width", some 0) ∧
    (∀ x ∈ sampleLeft, ∀ y ∈ sampleRight', y.1 = id x.1 → x.2 = y.2) := by
  refine ⟨?_, ?_, by decide +kernel⟩
  · intro g hg
    cases List.mem_singleton.1 hg
    exact fun h => h (w "id", some 0) (by decide +kernel) rfl
  · show ∀ g ∈ sampleRight', g.1 ≠ w "width"
    decide +kernel

example : (w "width", some 0) ∈ sampleLeft ∧
    sampleRight.find? (fun x => x.1 == id (w "width")) = some (w "width", some 1) ∧
    OtherType sampleNames (some 0) (some 1) :=
  ⟨by decide +kernel, by decide +kernel, .inl ⟨0, 1, w "int", w "string", rfl, rfl, rfl, rfl, by decide +kernel⟩⟩

end Verif.IoMsg
