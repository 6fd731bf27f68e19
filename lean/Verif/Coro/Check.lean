import Verif.Coro.Spec

/-!
# Running structured programs, for the examples
-/

namespace Verif.Coro

def accessible (s : State) (x : Nat) : Bool :=
  s.vars.all (fun v => v.name != x || canOwn s v.owner)

def structured (s : State) : Op → Bool
  | .moveCtor _ _ y => accessible s y
  | .moveAssign x y => accessible s x && accessible s y
  | .release x => accessible s x
  | .free x => accessible s x
  | .drop x => accessible s x
  | .await c x => s.vars.all (fun v => v.name != x || v.owner == some c)
  | _ => true

/-- The state after a structured program, `none` when it does not run to its end. -/
def play (s : State) : List Op → Option State
  | [] => some s
  | o :: os => if structured s o then match step s o with | .ok s => play s os | _ => none else none

theorem accessible_sound (s : State) (x : Nat) (h : accessible s x = true) : Accessible s x := by
  intro v hv hx
  have := List.all_eq_true.1 h v hv
  rw [Bool.or_eq_true] at this
  rcases this with h1 | h1
  · simp [hx] at h1
  · cases ho : v.owner with
    | none => exact .inl rfl
    | some c =>
      right
      rw [ho] at h1
      cases hf : s.frames c with
      | none => simp [canOwn, hf] at h1
      | some fr =>
        exact ⟨c, fr, rfl, hf, by simpa [canOwn, hf] using h1⟩

theorem structured_sound (s : State) (o : Op) (h : structured s o = true) : Structured s o := by
  cases o with
  | moveCtor x o y => exact accessible_sound s y h
  | moveAssign x y =>
    have h : (accessible s x && accessible s y) = true := h
    rw [Bool.and_eq_true] at h
    exact ⟨accessible_sound s x h.1, accessible_sound s y h.2⟩
  | release x => exact accessible_sound s x h
  | free x => exact accessible_sound s x h
  | drop x => exact accessible_sound s x h
  | await c x =>
    intro v hv hx
    have := List.all_eq_true.1 h v hv
    rw [Bool.or_eq_true] at this
    rcases this with h1 | h1
    · simp [hx] at h1
    · simpa using h1
  | declare x o => trivial
  | start k x o => trivial
  | suspend c => trivial
  | resume c => trivial
  | finish c r => trivial

theorem reach_play (os : List Op) (s s' : State) (h : Reach s) (hs : play s os = some s') : Reach s' := by
  induction os generalizing s with
  | nil => cases hs; exact h
  | cons o os ih =>
    simp only [play] at hs
    split at hs
    · rename_i h1
      cases h2 : step s o with
      | ok s1 => rw [h2] at hs; exact ih s1 (.step s s1 o h (structured_sound s o h1) h2) hs
      | throw e => rw [h2] at hs; cases hs
      | ub => rw [h2] at hs; cases hs
    · cases hs

/-- As `reach_play`, for programs that release nothing. -/
theorem reachRelease_play (os : List Op) (s s' : State) (h : ReachRelease s) (hs : play s os = some s')
    (hr : ∀ x, .release x ∉ os) : ReachRelease s' := by
  induction os generalizing s with
  | nil => cases hs; exact h
  | cons o os ih =>
    simp only [play] at hs
    split at hs
    · rename_i h1
      cases h2 : step s o with
      | ok s1 =>
        rw [h2] at hs
        refine ih s1 (.step s s1 o h (structured_sound s o h1) ?_ h2) hs (fun x hx => hr x (List.mem_cons_of_mem _ hx))
        cases o with
        | release x => exact absurd List.mem_cons_self (hr x)
        | _ => trivial
      | throw e => rw [h2] at hs; cases hs
      | ub => rw [h2] at hs; cases hs
    · cases hs

end Verif.Coro
