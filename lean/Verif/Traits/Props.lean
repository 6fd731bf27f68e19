import Verif.Traits.Model

/-! # C167: the traits tell what a value stands for -/

namespace Verif.Traits

/-! ## Specification -/

/-- The type is that of a pointer or a smart pointer, whatever its qualifiers; `some t` if it points to a `t`. -/
def pointee : Ty → Option Ty
  | .cv _ _ (.ptr t) => some t
  | .cv _ _ (.shared t) => some t
  | .cv _ _ (.unique t _) => some t
  | _ => none

/-- An array. -/
def IsArray : Ty → Prop
  | .cv _ _ (.array _ _) => True
  | _ => False

/-- No qualifiers, as the type of the elements of a container. -/
def Unqualified : Ty → Prop
  | .cv c v _ => c = false ∧ v = false

/-- The type of the object that a value of type `t` stands for: what a pointer or a smart pointer points to, and the value itself otherwise. -/
def standsFor (t : Ty) : Ty := (pointee t).getD t

/-! ## Theorems -/

theorem element_eq {t : Ty} (h : ¬ IsArray t) : element t = t := by
  obtain ⟨c, v, k⟩ := t
  cases k <;> first | rfl | exact (h trivial).elim

/-- **C167.**  For every type, with any qualifiers, `object_address` gives the address of the object the value stands for, with its type: that held by a pointer or smart pointer, and
that of the variable otherwise.  Missing: arrays, see `c167_array_violated`. -/
theorem c167_object_address_partial (t : Ty) (x : Var) (h1 : ¬ IsArray t) (h2 : ∀ p, pointee t = some p → ¬ IsArray p) :
    objectAddress t x = (standsFor t, if (pointee t).isSome then x.held else x.addr) := by
  obtain ⟨c, v, k⟩ := t
  cases k with
  | named n => rfl
  | ptr p => rfl
  | array e n => exact (h1 trivial).elim
  | shared p => simp only [objectAddress, decay, isPlainPointer, isSmartPointer, isShared, standsFor, pointee]; simp [element_eq (h2 p rfl)]
  | unique p d => simp only [objectAddress, decay, isPlainPointer, isSmartPointer, isShared, isUnique, standsFor, pointee]; simp [element_eq (h2 p rfl)]

/-- A constant smart pointer: `const std::shared_ptr<A>`. -/
example : objectAddress (.cv true false (.shared (.cv false false (.named 1)))) ⟨100, 200⟩ = (.cv false false (.named 1), 200) := rfl

/-- **C167.**  For types without qualifiers (all that a container can hold), `is_pointer_v` tells whether it is a pointer or smart pointer, and `remove_pointer_t` is the type
of the object the value stands for.  Missing: qualified types, see `c167_qualified_violated`. -/
theorem c167_traits_partial (t : Ty) (h : Unqualified t) :
    isPointer t = (pointee t).isSome ∧ removePointer t = standsFor t ∧
    (isCopyablePointer t = true ↔ isPointer t = true ∧ isUnique t = false) ∧
    (isPlainPointer t = true → isSmartPointer t = false) := by
  obtain ⟨c, v, k⟩ := t
  obtain ⟨rfl, rfl⟩ := h
  cases k <;> refine ⟨rfl, rfl, ?_, ?_⟩ <;> simp [isCopyablePointer, isPointer, isPlainPointer, isSmartPointer, isShared, isUnique]

/-- **C167.**  `remove_pointer_t` of a plain pointer is what it points to, whatever qualifiers the pointer has. -/
theorem c167_remove_plain (c v : Bool) (t : Ty) : removePointer (.cv c v (.ptr t)) = t := by
  cases c <;> cases v <;> rfl

/-- **C167.**  What a group of a foreign set holds for a value is a pointer to the object the value stands for, through which it cannot be changed if the value is not a copyable pointer
itself: for every type of elements. -/
theorem c167_group_pointer (t : Ty) (h : Unqualified t) (h1 : ¬ IsArray t) (h2 : ∀ p, pointee t = some p → ¬ IsArray p) (x : Var) (a : Nat) :
    ∃ y, valueToPointer t x a = some y ∧ y.addr = a ∧ (objectAddress (groupPointer t) y).2 = (objectAddress t x).2 ∧
      ((objectAddress (groupPointer t) y).1 = (objectAddress t x).1 ∨ (objectAddress (groupPointer t) y).1 = addConst (objectAddress t x).1) := by
  have ho := c167_object_address_partial t x h1 h2
  obtain ⟨c, v, k⟩ := t
  obtain ⟨rfl, rfl⟩ := h
  rw [ho]
  cases k with
  | named n => exact ⟨_, rfl, rfl, rfl, .inr rfl⟩
  | ptr p => exact ⟨_, rfl, rfl, rfl, .inl rfl⟩
  | array e n => exact (h1 trivial).elim
  | shared p =>
    refine ⟨⟨a, x.held⟩, rfl, rfl, ?_⟩
    have := c167_object_address_partial (.cv false false (.shared p)) ⟨a, x.held⟩ nofun h2
    simp only [groupPointer, isCopyablePointer, isPlainPointer, isShared, Bool.or_true, if_true]
    rw [this]
    exact ⟨rfl, .inl rfl⟩
  | unique p d =>
    obtain ⟨pc, pv, pk⟩ := p
    refine ⟨⟨a, x.held⟩, ?_, rfl, rfl, .inr rfl⟩
    cases pk with
    | array e n => exact (h2 _ rfl trivial).elim
    | _ => rfl

/-- A unique pointer. -/
example : groupPointer (.cv false false (.unique (.cv false false (.named 1)) (.cv false false (.named 2)))) = .cv false false (.ptr (.cv true false (.named 1))) ∧
    valueToPointer (.cv false false (.unique (.cv false false (.named 1)) (.cv false false (.named 2)))) ⟨100, 200⟩ 300 = some ⟨300, 200⟩ := ⟨rfl, rfl⟩

/-- **C167 is violated** for qualified types: `A* const` is not a pointer for `is_pointer_v` though `remove_pointer_t` removes it; a `const std::shared_ptr<A>` or
`const std::unique_ptr<A>` is neither a pointer nor changed by `remove_pointer_t`. -/
theorem c167_qualified_violated (c v : Bool) (h : ¬ (c = false ∧ v = false)) (t d : Ty) :
    (isPointer (.cv c v (.ptr t)) = false ∧ removePointer (.cv c v (.ptr t)) = t) ∧
    (isPointer (.cv c v (.shared t)) = false ∧ removePointer (.cv c v (.shared t)) = .cv c v (.shared t)) ∧
    (isPointer (.cv c v (.unique t d)) = false ∧ removePointer (.cv c v (.unique t d)) = .cv c v (.unique t d)) := by
  cases c <;> cases v <;> first | exact (h ⟨rfl, rfl⟩).elim | exact ⟨⟨rfl, rfl⟩, ⟨rfl, rfl⟩, ⟨rfl, rfl⟩⟩

/-- **C167 is violated** for arrays: `object_address` of an array points to its first element, not to the array; a smart pointer to an array points to its first element, but
`remove_pointer_t` is the array; and the groups of a set of such unique pointers do not compile. -/
theorem c167_array_violated (e d : Ty) (n : Option Nat) (x : Var) (a : Nat) :
    (objectAddress (.cv false false (.array e n)) x = (e, x.addr)) ∧
    ((objectAddress (.cv false false (.unique (.cv false false (.array e n)) d)) x).1 = e ∧
      removePointer (.cv false false (.unique (.cv false false (.array e n)) d)) = .cv false false (.array e n)) ∧
    valueToPointer (.cv false false (.unique (.cv false false (.array e n)) d)) x a = none := by
  obtain ⟨c, v, k⟩ := e
  exact ⟨rfl, ⟨rfl, rfl⟩, rfl⟩

end Verif.Traits
