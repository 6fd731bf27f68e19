import Verif.Combinator.Spec

/-! # C165: `y_combinator` makes a functor recursive -/

namespace Verif.Combinator

theorem runBody_keeps {body : A → Prog S G A R} {n : Nat} {s : S}
    (ih : ∀ (g : G) (a : A), invoke body n (yCombinator s) g a = (recursive body n s g a).map (fun x => (x.1, x.2.2, yCombinator s)) ∧
      ∀ x, recursive body n s g a = some x → x.2.1 = s)
    (p : Prog S G A R) (hp : p.Keeps) (g : G) :
    runBody (invoke body n) p s (yCombinator s) g = (interp (recursive body n) p s g).map (fun x => (x.1, x.2.2, s)) ∧
      ∀ x, interp (recursive body n) p s g = some x → x.2.1 = s := by
  induction p generalizing g with
  | done r => exact ⟨rfl, fun x hx => by cases hx; rfl⟩
  | own k hk => exact hk s (hp s) g
  | setOwn s' k hk => exact hp.elim
  | glob k hk => exact hk g (hp g) g
  | setGlob g' k hk => exact hk hp g'
  | call a k hk =>
    obtain ⟨h1, h2⟩ := ih g a
    simp only [runBody, interp, h1]
    cases hr : recursive body n s g a with
    | none => exact ⟨rfl, nofun⟩
    | some x =>
      obtain ⟨r, s', g'⟩ := x
      obtain rfl : s' = s := h2 _ hr
      exact hk r (hp r) g'

/-- **C165.**  If the functor does not write to its own members, the function made of it does what the recursive function with this body does: it ends if and
only if that one does, with the same result or exception and the same effects, and it can be called again.  Missing: functors that have a state of their own, see
`c165_state_violated`. -/
theorem c165_recursion_partial (body : A → Prog S G A R) (hb : ∀ a, (body a).Keeps) (s : S) (n : Nat) (g : G) (a : A) :
    invoke body n (yCombinator s) g a = (recursive body n s g a).map (fun x => (x.1, x.2.2, yCombinator s)) ∧
      ∀ x, recursive body n s g a = some x → x.2.1 = s := by
  induction n generalizing g a with
  | zero => exact ⟨rfl, nofun⟩
  | succ n ih =>
    obtain ⟨h1, h2⟩ := runBody_keeps (s := s) (fun g a => ih g a) (body a) (hb a) g
    refine ⟨?_, h2⟩
    show (match runBody (invoke body n) (body a) s (yCombinator s) g with
      | none => none
      | some (r, g', s') => some (r, g', (⟨s', ⟨s⟩⟩ : Fn S))) = (interp (recursive body n) (body a) s g).map _
    rw [h1]
    cases interp (recursive body n) (body a) s g <;> rfl

theorem runBody_mono {body : A → Prog S G A R} {n m : Nat}
    (ih : ∀ fn g a x, invoke body n fn g a = some x → invoke body m fn g a = some x) (p : Prog S G A R) (s : S) (self : Fn S) (g : G)
    (x : Except Exn R × G × S) (h : runBody (invoke body n) p s self g = some x) : runBody (invoke body m) p s self g = some x := by
  induction p generalizing s self g with
  | done r => exact h
  | own k hk => exact hk _ _ _ _ h
  | setOwn s' k hk => exact hk _ _ _ h
  | glob k hk => exact hk _ _ _ _ h
  | setGlob g' k hk => exact hk _ _ _ h
  | call a k hk =>
    simp only [runBody] at h ⊢
    cases hr : invoke body n self g a with
    | none => rw [hr] at h; cases h
    | some y =>
      rw [hr] at h
      rw [ih _ _ _ _ hr]
      exact hk _ _ _ _ h

/-- **C165.**  What the function gives does not depend on the depth allowed: `none` only says that more nested calls are necessary, for all functors. -/
theorem c165_depth (body : A → Prog S G A R) {n m : Nat} (hnm : n ≤ m) (fn : Fn S) (g : G) (a : A) (x : Except Exn R × G × Fn S)
    (h : invoke body n fn g a = some x) : invoke body m fn g a = some x := by
  induction n generalizing m fn g a x with
  | zero => cases h
  | succ n ih =>
    obtain ⟨m, rfl⟩ : ∃ k, m = k + 1 := ⟨m - 1, by omega⟩
    simp only [invoke] at h ⊢
    cases hr : runBody (invoke body n) (body a) fn.f (fn.action.apply fn.action) g with
    | none => rw [hr] at h; cases h
    | some y =>
      rw [hr] at h
      rw [runBody_mono (fun fn g a x => ih (by omega) fn g a x) _ _ _ _ _ hr]
      exact h

/-- A functor that counts its calls in the variable outside of it and computes a factorial. -/
def factorial : Nat → Prog Unit Nat Nat Nat
  | 0 => .glob fun g => .setGlob (g + 1) (.done (.ok 1))
  | a + 1 => .glob fun g => .setGlob (g + 1) (.call a fun r => .done (r.map (· * (a + 1))))

example : (∀ a, (factorial a).Keeps) ∧ invoke factorial 9 (yCombinator ()) 0 5 = some (.ok 120, 6, yCombinator ()) := by
  refine ⟨fun a => ?_, rfl⟩
  cases a
  · exact fun _ => trivial
  · exact fun _ _ => trivial

/-- A functor that counts its calls in a member of its own, calls itself `n` times in depth, and gives the number of calls in the end. -/
def counter : Nat → Prog Nat Unit Nat Nat
  | 0 => .own fun s => .setOwn (s + 1) (.done (.ok (s + 1)))
  | a + 1 => .own fun s => .setOwn (s + 1) (.call a fun r => .done r)

/-- **C165 is violated** for functors with a state of their own: every nested call uses a new copy of the functor as it was given to `y_combinator`.  A recursive function
counts `a + 1` calls, the function made by `y_combinator` always counts 1 (and in the same way does not find again what it has stored in a member). -/
theorem c165_state_violated (a : Nat) :
    (∃ s, recursive counter (a + 1) 0 () a = some (.ok (a + 1), s, ())) ∧
    (∃ fn, invoke counter (a + 1) (yCombinator 0) () a = some (.ok 1, (), fn) ∧ fn.f = 1) := by
  constructor
  · suffices h : ∀ s, recursive counter (a + 1) s () a = some (.ok (s + a + 1), s + a + 1, ()) by
      exact ⟨_, by simpa using h 0⟩
    induction a with
    | zero => intro s; rfl
    | succ a ih =>
      intro s
      have := ih (s + 1)
      rw [recursive]
      simp only [counter, interp]
      rw [this]
      simp only [show s + 1 + a + 1 = s + (a + 1) + 1 by omega]
  · induction a with
    | zero => exact ⟨_, rfl, rfl⟩
    | succ a ih =>
      obtain ⟨fn, h1, -⟩ := ih
      refine ⟨⟨1, ⟨0⟩⟩, ?_, rfl⟩
      rw [invoke]
      simp only [counter, runBody]
      have h2 : (yCombinator 0).action.apply (yCombinator 0).action = (yCombinator 0 : Fn Nat) := rfl
      rw [h2, h1]
      rfl

end Verif.Combinator
