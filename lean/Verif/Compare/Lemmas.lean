import Verif.Compare.Spec

/-! # Lemmas on orders -/

namespace Verif.Compare

variable {α : Type}

theorem StrictWeak.of_map {β : Type} {lt : β → β → Bool} (h : StrictWeak lt) (f : α → β) :
    StrictWeak (fun a b => lt (f a) (f b)) :=
  ⟨fun _ => h.irrefl _, fun _ _ _ => h.trans _ _ _, fun _ _ _ => h.incompTrans _ _ _⟩

theorem reverse_sw {c : α → α → Bool} (h : StrictWeak c) : StrictWeak (reverse c) :=
  ⟨fun a => h.irrefl a, fun a b d h1 h2 => h.trans d b a h2 h1,
    fun a b d h1 h2 h3 h4 => (h.incompTrans a b d h2 h1 h4 h3).symm⟩

theorem empty_sw : StrictWeak (fun _ _ : α => false) :=
  ⟨fun _ => rfl, fun _ _ _ h => (by cases h), fun _ _ _ _ _ _ _ => ⟨rfl, rfl⟩⟩

/-- First `c`, and then `d`. -/
def thenBy (c d : α → α → Bool) : α → α → Bool := fun l r => if c l r then true else if c r l then false else d l r

theorem thenBy_true {c d : α → α → Bool} {a b : α} :
    thenBy c d a b = true ↔ c a b = true ∨ (c a b = false ∧ c b a = false ∧ d a b = true) := by
  simp only [thenBy]
  cases c a b <;> cases c b a <;> simp

theorem thenBy_false {c d : α → α → Bool} {a b : α} :
    (thenBy c d a b = false ∧ thenBy c d b a = false) ↔
      (c a b = false ∧ c b a = false ∧ d a b = false ∧ d b a = false) := by
  simp only [thenBy]
  cases h1 : c a b <;> cases h2 : c b a <;> simp

theorem thenBy_sw {c d : α → α → Bool} (hc : StrictWeak c) (hd : StrictWeak d) : StrictWeak (thenBy c d) := by
  refine ⟨?_, ?_, ?_⟩
  · intro a; simp [thenBy, hc.irrefl, hd.irrefl]
  · intro a b e h1 h2
    rw [thenBy_true] at h1 h2 ⊢
    rcases h1 with h1 | ⟨h1, h1', h1''⟩ <;> rcases h2 with h2 | ⟨h2, h2', h2''⟩
    · exact .inl (hc.trans _ _ _ h1 h2)
    · exact .inl (hc.lt_of_lt_of_eqv h1 h2 h2')
    · exact .inl (hc.lt_of_eqv_of_lt h1 h1' h2)
    · have := hc.incompTrans _ _ _ h1 h1' h2 h2'
      exact .inr ⟨this.1, this.2, hd.trans _ _ _ h1'' h2''⟩
  · intro a b e h1 h2 h3 h4
    obtain ⟨x1, x2, x3, x4⟩ := thenBy_false.1 ⟨h1, h2⟩
    obtain ⟨y1, y2, y3, y4⟩ := thenBy_false.1 ⟨h3, h4⟩
    have z := hc.incompTrans _ _ _ x1 x2 y1 y2
    have w := hd.incompTrans _ _ _ x3 x4 y3 y4
    exact thenBy_false.2 ⟨z.1, z.2, w.1, w.2⟩

theorem composite_cons (c : α → α → Bool) (cs : List (α → α → Bool)) :
    composite (c :: cs) = thenBy c (composite cs) := rfl

/-- The composite of consistent comparators, one step. -/
theorem transparent_cons {c : Comp α} {cs : List (Comp α)} (hc : Consistent c) (hcs : Consistent (transparent cs)) :
    Consistent (transparent (c :: cs)) := by
  obtain ⟨k1, h1⟩ := hc
  obtain ⟨k2, h2⟩ := hcs
  have f1 := StrictWeak.of_map h1 (fun x : α ⊕ KeyTuple (c :: cs) =>
    (match x with | .inl a => .inl a | .inr k => .inr k.1 : α ⊕ c.Key))
  have f2 := StrictWeak.of_map h2 (fun x : α ⊕ KeyTuple (c :: cs) =>
    (match x with | .inl a => .inl a | .inr k => .inr k.2 : α ⊕ (transparent cs).Key))
  refine ⟨thenBy (fun a b => k1 a.1 b.1) (fun a b => k2 a.2 b.2), ?_⟩
  have := thenBy_sw f1 f2
  have e : mixed (transparent (c :: cs)) (thenBy (fun a b => k1 a.1 b.1) (fun a b => k2 a.2 b.2)) =
      thenBy (fun a b => mixed c k1 (match a with | .inl a => .inl a | .inr k => .inr k.1 : α ⊕ c.Key)
            (match b with | .inl a => .inl a | .inr k => .inr k.1 : α ⊕ c.Key))
        (fun a b => mixed (transparent cs) k2 (match a with | .inl a => .inl a | .inr k => .inr k.2 : α ⊕ (transparent cs).Key)
            (match b with | .inl a => .inl a | .inr k => .inr k.2 : α ⊕ (transparent cs).Key)) := by
    funext x y
    cases x <;> cases y <;> rfl
  rw [e]; exact this

end Verif.Compare
