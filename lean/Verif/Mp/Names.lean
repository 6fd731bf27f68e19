import Verif.Mp.Model

/-!
# Names of types: what they tell apart
-/

namespace Verif.Mp

open Verif.Serialize Verif.Vts

/-- What a type is to a reader of its name: not whether an integer is signed, `bool`, an enumeration, a time point or atomic, not which container, not
which structure. -/
inductive Shape where
  | int (n : Nat)
  | flt (n : Nat)
  | dec (n e : Nat)
  | seq (s : Shape)
  | pair (s t : Shape)
  | arr (n : Nat) (s : Shape)
  | opt (s : Shape)
  | ptr (s : Shape)
  | var (ss : List Shape)
  | struct

/-- The outermost part of the shape. -/
def shapeOf : Kind → List Shape → Shape
  | .int n _, _ => .int n
  | .bool, _ => .int 1
  | .flt n, _ => .flt n
  | .dec n e, _ => .dec n e
  | .enu n _, _ => .int n
  | .enm n _ _, _ => .int n
  | .time _ _ _, _ => .int 8
  | .str c, _ => .seq (.int c)
  | .vec, [a] | .deque, [a] | .ring _, [a] | .set _, [a] | .uset _, [a] => .seq a
  | .map _, [a, b] | .umap _, [a, b] => .seq (.pair a b)
  | .pair, [a, b] => .pair a b
  | .arr n, [a] => .arr n a
  | .opt, [a] => .opt a
  | .ptr _, [a] => .ptr a
  | .atomic, [a] => a
  | .var, as => .var as
  | .refl _ _, _ => .struct
  | _, _ => .struct

mutual
/-- The shape of a type. -/
def shape : CTy → Shape
  | .node k args => shapeOf k (shapes args)
def shapes : List CTy → List Shape
  | [] => []
  | t :: ts => shape t :: shapes ts
end

/-- The number of arguments is right; an atomic type is arithmetic inside; a structure has a name for each field. -/
def okNode : Kind → List CTy → Bool
  | .vec, [_] | .deque, [_] | .ring _, [_] | .set _, [_] | .uset _, [_] | .arr _, [_] | .opt, [_] | .ptr _, [_] => true
  | .map _, [_, _] | .umap _, [_, _] | .pair, [_, _] => true
  | .atomic, [t] => isArith t
  | .var, _ => true
  | .refl _ names, args => names.length == args.length
  | .int _ _, [] | .bool, [] | .flt _, [] | .dec _ _, [] | .enu _ _, [] | .enm _ _ _, [] | .time _ _ _, [] | .str _, [] => true
  | _, _ => false

mutual
/-- The tree is a type. -/
def Ok : CTy → Prop
  | .node k args => okNode k args = true ∧ OkAll args
def OkAll : List CTy → Prop
  | [] => True
  | t :: ts => Ok t ∧ OkAll ts
end

mutual
/-- The name of a shape. -/
def Shape.name : Shape → Name
  | .int n => intName n
  | .flt n => fltName n
  | .dec n e => decName n e
  | .seq s => seqName s.name
  | .pair s t => pairName s.name t.name
  | .arr n s => nameOf (.arr n) [s.name]
  | .opt s => nameOf .opt [s.name]
  | .ptr s => nameOf (.ptr true) [s.name]
  | .var ss => nameOf .var (Shape.names ss)
  | .struct => nameOf (.refl 0 []) []
def Shape.names : List Shape → List Name
  | [] => []
  | s :: ss => s.name :: Shape.names ss
end

mutual
theorem typeName_shape : ∀ (t : CTy), Ok t → typeName t = (shape t).name
  | .node k args, h => by
    simp only [Ok] at h
    obtain ⟨hn, hr⟩ := h
    have ih := typeNames_shapes args hr
    simp only [typeName, shape, ih]
    cases k <;> simp only [nameOf, shapeOf, Shape.name]
    all_goals
      rcases args with _ | ⟨a, _ | ⟨b, _ | ⟨c, l⟩⟩⟩ <;> simp [okNode] at hn <;> simp [shapes, Shape.names, Shape.name, nameOf]
theorem typeNames_shapes : ∀ (ts : List CTy), OkAll ts → typeNames ts = Shape.names (shapes ts)
  | [], _ => rfl
  | t :: ts, h => by
    simp only [OkAll] at h
    simp only [typeNames, shapes, Shape.names, typeName_shape t h.1, typeNames_shapes ts h.2]
end

/-! ### Numbers -/

def isDigit (b : UInt8) : Bool := 48 ≤ b.toNat && b.toNat ≤ 57

theorem digits_digit : ∀ (f n : Nat), ∀ b ∈ digits f n, isDigit b = true
  | 0, _, b, h => by simp [digits] at h
  | f + 1, n, b, h => by
    simp only [digits] at h
    split at h
    · simp at h
    · simp only [List.mem_append, List.mem_singleton] at h
      rcases h with h | h
      · exact digits_digit f _ b h
      · subst h
        have : (n % 10 + 48) % 256 = n % 10 + 48 := by omega
        simp [isDigit]
        omega

def value (l : Name) : Nat := l.foldl (fun a b => a * 10 + (b.toNat - 48)) 0

theorem digits_value : ∀ (f n : Nat), n ≤ f → value (digits f n) = n
  | 0, n, h => by simp [digits, value]; omega
  | f + 1, n, h => by
    simp only [digits]
    split
    · next e => subst e; rfl
    · next e =>
      have ih := digits_value f (n / 10) (by omega)
      simp only [value, List.foldl_append, List.foldl_cons, List.foldl_nil] at ih ⊢
      rw [ih]
      have : (UInt8.ofNat (n % 10 + 48)).toNat = n % 10 + 48 := by simp; omega
      rw [this]; omega

theorem format_digit (n : Nat) : ∀ b ∈ formatNumber n, isDigit b = true := by
  intro b h
  simp only [formatNumber] at h
  split at h
  · simp [chars] at h; subst h; decide
  · exact digits_digit _ _ b h

theorem format_value (n : Nat) : value (formatNumber n) = n := by
  simp only [formatNumber]
  split
  · next e => subst e; decide
  · exact digits_value n n (Nat.le_refl _)

/-- The next character is not a digit. -/
def Stop (r : Name) : Prop := ∀ b, r.head? = some b → isDigit b = false

theorem split_digits : ∀ (a b r r' : Name), (∀ x ∈ a, isDigit x = true) → (∀ x ∈ b, isDigit x = true) → Stop r → Stop r' →
    a ++ r = b ++ r' → a = b ∧ r = r'
  | [], [], r, r', _, _, _, _, h => ⟨rfl, h⟩
  | [], y :: b, r, r', _, hb, hr, _, h => by
    simp at h; subst h
    have := hr y rfl
    rw [hb y (by simp)] at this; cases this
  | x :: a, [], r, r', ha, _, _, hr', h => by
    simp at h; subst h
    have := hr' x rfl
    rw [ha x (by simp)] at this; cases this
  | x :: a, y :: b, r, r', ha, hb, hr, hr', h => by
    simp at h
    obtain ⟨h1, h2⟩ := split_digits a b r r' (fun z hz => ha z (by simp [hz])) (fun z hz => hb z (by simp [hz])) hr hr' h.2
    exact ⟨by rw [h.1, h1], h2⟩

theorem format_inj {n m : Nat} {r r' : Name} (hr : Stop r) (hr' : Stop r') (h : formatNumber n ++ r = formatNumber m ++ r') : n = m ∧ r = r' := by
  obtain ⟨h1, h2⟩ := split_digits _ _ r r' (format_digit n) (format_digit m) hr hr' h
  refine ⟨?_, h2⟩
  rw [← format_value n, h1, format_value]

/-! ### Unique readability -/

/-- What may follow a name: nothing, a comma or a bracket. -/
def Delim (r : Name) : Prop := ∀ b, r.head? = some b → b = 44 ∨ b = 62

theorem delim_stop {r : Name} (h : Delim r) : Stop r := fun b hb => by
  rcases h b hb with rfl | rfl <;> decide

theorem stop_cons {b : UInt8} {r : Name} (h : isDigit b = false) : Stop (b :: r) := fun c hc => by
  simp at hc; exact hc ▸ h

theorem delim_comma {r : Name} : Delim (44 :: r) := fun c hc => by simp at hc; exact .inl hc.symm
theorem delim_gt {r : Name} : Delim (62 :: r) := fun c hc => by simp at hc; exact .inr hc.symm

theorem intName_inj {n m : Nat} {r r' : Name} (h : intName n ++ r = intName m ++ r') : n = m ∧ r = r' := by
  simp only [intName, chars, List.map, List.append_assoc, List.cons_append, List.nil_append, List.cons.injEq, true_and] at h
  obtain ⟨h1, h2⟩ := format_inj (stop_cons (by decide)) (stop_cons (by decide)) h
  simp at h2
  exact ⟨by omega, h2⟩

theorem fltName_inj {n m : Nat} {r r' : Name} (h : fltName n ++ r = fltName m ++ r') : n = m ∧ r = r' := by
  simp only [fltName, chars, List.map, List.append_assoc, List.cons_append, List.nil_append, List.cons.injEq, true_and] at h
  obtain ⟨h1, h2⟩ := format_inj (stop_cons (by decide)) (stop_cons (by decide)) h
  simp at h2
  exact ⟨by omega, h2⟩

theorem decName_inj {n m e f : Nat} {r r' : Name} (hr : Delim r) (hr' : Delim r') (h : decName n e ++ r = decName m f ++ r') :
    (n = m ∧ e = f) ∧ r = r' := by
  simp only [decName] at h
  split at h <;> split at h
  · simp [chars] at h; exact ⟨by omega, h⟩
  · simp [chars] at h
    have := hr 60 (by rw [h]; rfl); simp at this
  · simp [chars] at h
    have := hr' 60 (by rw [← h]; rfl); simp at this
  · simp only [chars, List.map, List.append_assoc, List.cons_append, List.nil_append, List.cons.injEq, true_and] at h
    obtain ⟨h1, h2⟩ := intName_inj h
    simp only [List.cons.injEq, true_and] at h2
    obtain ⟨h3, h4⟩ := format_inj (stop_cons (by decide)) (stop_cons (by decide)) h2
    simp at h4
    exact ⟨⟨h1, h3⟩, h4⟩

/-- A name begins with a letter. -/
theorem name_head (s : Shape) : ∃ b l, s.name = b :: l ∧ b ≠ 62 := by
  cases s <;> simp only [Shape.name, intName, fltName, decName, seqName, pairName, nameOf, chars] <;> try split
  all_goals exact ⟨_, _, rfl, by decide⟩

mutual
theorem name_inj : ∀ (s s' : Shape) (r r' : Name), Delim r → Delim r' → s.name ++ r = s'.name ++ r' → s = s' ∧ r = r'
  | .int n, s', r, r', hr, hr', h => by
    cases s' <;> simp only [Shape.name] at h
    case int m => obtain ⟨h1, h2⟩ := intName_inj h; exact ⟨by rw [h1], h2⟩
    case dec => simp only [decName] at h; split at h <;> simp [intName, chars] at h
    all_goals simp [intName, fltName, seqName, pairName, nameOf, chars] at h
  | .flt n, s', r, r', hr, hr', h => by
    cases s' <;> simp only [Shape.name] at h
    case flt m => obtain ⟨h1, h2⟩ := fltName_inj h; exact ⟨by rw [h1], h2⟩
    case dec => simp only [decName] at h; split at h <;> simp [fltName, chars] at h
    all_goals simp [intName, fltName, seqName, pairName, nameOf, chars] at h
  | .dec n e, s', r, r', hr, hr', h => by
    cases s' <;> simp only [Shape.name] at h
    case dec m f => obtain ⟨h1, h2⟩ := decName_inj hr hr' h; exact ⟨by rw [h1.1, h1.2], h2⟩
    all_goals simp only [decName] at h; split at h <;> simp [intName, fltName, seqName, pairName, nameOf, chars] at h
  | .seq s, s', r, r', hr, hr', h => by
    cases s' <;> simp only [Shape.name] at h
    case seq t =>
      simp only [seqName, chars, List.map, List.append_assoc, List.cons_append, List.nil_append, List.cons.injEq, true_and] at h
      obtain ⟨h1, h2⟩ := name_inj s t _ _ delim_gt delim_gt h
      simp at h2
      exact ⟨by rw [h1], h2⟩
    case dec => simp only [decName] at h; split at h <;> simp [seqName, chars] at h
    all_goals simp [intName, fltName, seqName, pairName, nameOf, chars] at h
  | .pair s t, s', r, r', hr, hr', h => by
    cases s' <;> simp only [Shape.name] at h
    case pair u w =>
      simp only [pairName, chars, List.map, List.append_assoc, List.cons_append, List.nil_append, List.cons.injEq, true_and] at h
      obtain ⟨h1, h2⟩ := name_inj s u _ _ delim_comma delim_comma h
      simp only [List.cons.injEq, true_and] at h2
      obtain ⟨h3, h4⟩ := name_inj t w _ _ delim_gt delim_gt h2
      simp at h4
      exact ⟨by rw [h1, h3], h4⟩
    case dec => simp only [decName] at h; split at h <;> simp [pairName, chars] at h
    all_goals simp [intName, fltName, seqName, pairName, nameOf, chars] at h
  | .arr n s, s', r, r', hr, hr', h => by
    cases s' <;> simp only [Shape.name] at h
    case arr m t =>
      simp only [nameOf, chars, List.map, List.append_assoc, List.cons_append, List.nil_append, List.cons.injEq, true_and] at h
      obtain ⟨h1, h2⟩ := name_inj s t _ _ delim_comma delim_comma h
      simp only [List.cons.injEq, true_and] at h2
      obtain ⟨h3, h4⟩ := format_inj (stop_cons (by decide)) (stop_cons (by decide)) h2
      simp at h4
      exact ⟨by rw [h1, h3], h4⟩
    case dec => simp only [decName] at h; split at h <;> simp [nameOf, chars] at h
    all_goals simp [intName, fltName, seqName, pairName, nameOf, chars] at h
  | .opt s, s', r, r', hr, hr', h => by
    cases s' <;> simp only [Shape.name] at h
    case opt t =>
      simp only [nameOf, chars, List.map, List.append_assoc, List.cons_append, List.nil_append, List.cons.injEq, true_and] at h
      obtain ⟨h1, h2⟩ := name_inj s t _ _ delim_gt delim_gt h
      simp at h2
      exact ⟨by rw [h1], h2⟩
    case dec => simp only [decName] at h; split at h <;> simp [nameOf, chars] at h
    all_goals simp [intName, fltName, seqName, pairName, nameOf, chars] at h
  | .ptr s, s', r, r', hr, hr', h => by
    cases s' <;> simp only [Shape.name] at h
    case ptr t =>
      simp only [nameOf, chars, List.map, List.append_assoc, List.cons_append, List.nil_append, List.cons.injEq, true_and] at h
      obtain ⟨h1, h2⟩ := name_inj s t _ _ delim_gt delim_gt h
      simp at h2
      exact ⟨by rw [h1], h2⟩
    case dec => simp only [decName] at h; split at h <;> simp [nameOf, chars] at h
    all_goals simp [intName, fltName, seqName, pairName, nameOf, chars] at h
  | .var ss, s', r, r', hr, hr', h => by
    cases s' <;> simp only [Shape.name] at h
    case var tt =>
      simp only [nameOf, chars, List.map, List.append_assoc, List.cons_append, List.nil_append, List.cons.injEq, true_and] at h
      obtain ⟨h1, h2⟩ := names_inj ss tt r r' h
      exact ⟨by rw [h1], h2⟩
    case dec => simp only [decName] at h; split at h <;> simp [nameOf, chars] at h
    all_goals simp [intName, fltName, seqName, pairName, nameOf, chars] at h
  | .struct, s', r, r', hr, hr', h => by
    cases s' <;> simp only [Shape.name] at h
    case struct => simp [nameOf, chars] at h; exact ⟨rfl, h⟩
    case dec => simp only [decName] at h; split at h <;> simp [nameOf, chars] at h
    all_goals simp [intName, fltName, seqName, pairName, nameOf, chars] at h
theorem names_inj : ∀ (ss ss' : List Shape) (r r' : Name),
    (Shape.names ss).flatMap (fun x => x ++ [44, 32]) ++ 62 :: r = (Shape.names ss').flatMap (fun x => x ++ [44, 32]) ++ 62 :: r' → ss = ss' ∧ r = r'
  | [], [], r, r', h => by simp [Shape.names] at h; exact ⟨rfl, h⟩
  | [], t :: ts, r, r', h => by
    obtain ⟨b, l, e, hb⟩ := name_head t
    simp [Shape.names, e] at h
    exact absurd h.1.symm hb
  | s :: ss, [], r, r', h => by
    obtain ⟨b, l, e, hb⟩ := name_head s
    simp [Shape.names, e] at h
    exact absurd h.1 hb
  | s :: ss, t :: ts, r, r', h => by
    simp only [Shape.names, List.flatMap_cons, List.append_assoc, List.cons_append, List.nil_append] at h
    obtain ⟨h1, h2⟩ := name_inj s t _ _ delim_comma delim_comma h
    simp only [List.cons.injEq, true_and] at h2
    obtain ⟨h3, h4⟩ := names_inj ss ts r r' h2
    exact ⟨by rw [h1, h3], h4⟩
end

end Verif.Mp
