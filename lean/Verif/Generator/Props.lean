import Verif.Generator.Lemmas

/-! # C96: a generator gives the values of its body, in order, once -/

namespace Verif.Generator

variable {σ α β : Type}

/-- **C96.**  Whatever is done with generators and iterators, the resumptions of a coroutine by `begin` and `++` give the first things its
body does, in order, none twice and none left out. -/
theorem c96_sequence (body : σ → Next σ α) (l : List (Act σ)) (s : State σ α) (hr : run body init l = .ok s) (h : Nat) (x : σ) (hx : s.start h = some x)
    (hlt : h < s.count) : trace body (seen s.log h).length x = seen s.log h := by
  obtain ⟨y, h1, h2⟩ := (inv_run body l _ s (inv_init body) hr).fits h hlt
  rw [hx] at h1; cases h1
  exact fits_dead body x _ _ h2

/-- **C96.**  An iterator of a generator that exists tells what the last `begin` or `++` of its coroutine gave: the value if there was one, and
the end otherwise. -/
theorem c96_iterator (body : σ → Next σ α) (l : List (Act σ)) (s : State σ α) (hr : run body init l = .ok s) (g i h : Nat) (hg : s.gens g = some (some h))
    (hi : s.iters i = some (some h)) :
    (∃ a, last s.log h = some (.got a) ∧ step body s (.deref i) = .ok (s, .value a) ∧ step body s (.atEnd i) = .ok (s, .bool false))
    ∨ (last s.log h = some .ended ∨ ∃ e, last s.log h = some (.thrown e)) ∧ step body s (.atEnd i) = .ok (s, .bool true) := by
  have inv := inv_run body l _ s (inv_init body) hr
  obtain ⟨hlt, hal⟩ := inv.own g h hg
  obtain ⟨-, hne⟩ := inv.it i h hi
  obtain ⟨x, -, hf⟩ := inv.fits h hlt
  simp only [step, hi]
  cases hfr : s.frames h with
  | dead => rw [hfr] at hal; cases hal
  | done e =>
    rw [hfr] at hf
    right
    refine ⟨?_, rfl⟩
    have h2 := hf.2
    cases e with
    | none => left; exact h2
    | some e => right; exact ⟨e, h2⟩
  | susp v y =>
    rw [hfr] at hf
    have h2 := hf.2
    cases v with
    | none => simp at h2; exact absurd h2 hne
    | some a => left; exact ⟨a, h2, rfl, rfl⟩

/-- **C96.**  `++` of an iterator that is not at the end gives the next thing the body does. -/
theorem c96_increment (body : σ → Next σ α) (l : List (Act σ)) (s : State σ α) (hr : run body init l = .ok s) (g i h : Nat) (hg : s.gens g = some (some h))
    (hi : s.iters i = some (some h)) (a : α) (ha : last s.log h = some (.got a)) (x : σ) (hx : s.start h = some x)
    (hub : ∀ y, body y ≠ .ub) :
    ∃ s' r, step body s (.inc i) = .ok (s', r) ∧ trace body ((seen s.log h).length + 1) x = seen s.log h ++ [r] ∧
      step body s' (.atEnd i) = .ok (s', .bool (match r with | .got _ => false | _ => true)) ∧ ∀ b, r = .got b → step body s' (.deref i) = .ok (s', .value b) := by
  have inv := inv_run body l _ s (inv_init body) hr
  obtain ⟨hlt, hal⟩ := inv.own g h hg
  obtain ⟨y, h1, hf⟩ := inv.fits h hlt
  rw [hx] at h1; cases h1
  simp only [step, hi, advance]
  cases hfr : s.frames h with
  | dead => rw [hfr] at hal; cases hal
  | done e =>
    rw [hfr] at hf
    have h2 := hf.2
    simp only [last] at ha; rw [ha] at h2
    cases e <;> simp [answer] at h2
  | susp v y =>
    rw [hfr] at hf
    have h2 := hf.1 1
    simp only [resume]
    cases hb : body y with
    | yield b y' => exact ⟨_, _, rfl, by rw [h2]; simp [trace, hb, answer], by simp [hi, upd, answer], by simp [hi, upd, answer]⟩
    | ret => exact ⟨_, _, rfl, by rw [h2]; simp [trace, hb, answer], by simp [hi, upd, answer], by simp [hi, upd, answer]⟩
    | throw e => exact ⟨_, _, rfl, by rw [h2]; simp [trace, hb, answer], by simp [hi, upd, answer], by simp [hi, upd, answer]⟩
    | ub => exact absurd hb (hub y)

/-- **C96.**  Every coroutine that is not destroyed belongs to exactly one generator. -/
theorem c96_owner (body : σ → Next σ α) (l : List (Act σ)) (s : State σ α) (hr : run body init l = .ok s) (h : Nat) :
    (s.frames h ≠ .dead → ∃ g, s.gens g = some (some h) ∧ ∀ g', s.gens g' = some (some h) → g' = g)
    ∧ ∀ g, s.gens g = some (some h) → s.frames h ≠ .dead := by
  have inv := inv_run body l _ s (inv_init body) hr
  constructor
  · intro hd
    obtain ⟨g, hg⟩ := inv.all h (by cases e : s.frames h <;> simp [alive]; exact absurd e hd)
    exact ⟨g, hg, fun g' hg' => inv.uniq g' g h hg' hg⟩
  · intro g hg e
    have := (inv.own g h hg).2
    rw [e] at this; cases this

/-- **C96.**  Construction, move, assignment (to itself as well), swap and destruction of generators are never undefined: no coroutine is
destroyed twice. -/
theorem c96_no_ub (body : σ → Next σ α) (l : List (Act σ)) (s : State σ α) (hr : run body init l = .ok s) (a : Act σ)
    (ha : match a with | .begin .. | .inc _ | .deref _ | .atEnd _ => False | _ => True) : step body s a ≠ .ub := by
  have inv := inv_run body l _ s (inv_init body) hr
  have hrel : ∀ (s' : State σ α) (g : Nat) (c : Option Nat), s'.frames = s.frames → s.gens g = some c → release s' c ≠ .ub := by
    intro s' g c hf hg h
    cases c with
    | none => cases h
    | some k =>
      have := (inv.own g k hg).2
      simp only [release, hf] at h
      split at h
      · rename_i e; rw [e] at this; cases this
      · cases h
  intro h
  cases a with
  | create g x => simp only [step] at h; split at h <;> cases h
  | empty g => simp only [step] at h; split at h <;> cases h
  | move g k => simp only [step] at h; split at h <;> cases h
  | swap g k => simp only [step] at h; split at h <;> cases h
  | destroy g =>
    simp only [step] at h
    split at h
    · rename_i c hc
      cases e : release { s with gens := upd s.gens g none } c with
      | ub => exact hrel { s with gens := upd s.gens g none } g c rfl hc e
      | ok v => rw [e] at h; cases h
      | throw v => rw [e] at h; cases h
    · cases h
  | assign g k =>
    simp only [step] at h
    split at h
    · rename_i b c hb hc
      by_cases e2 : g = k
      · subst e2; simp only [upd, if_true, release, Res.ok_bind] at h; cases h
      · simp only [show upd s.gens k (some none) g = some b by simp [upd, if_neg e2, hb]] at h
        cases e : release { s with gens := upd (upd s.gens k (some none)) g (some c) } b with
        | ub => exact hrel { s with gens := upd (upd s.gens k (some none)) g (some c) } g b rfl hb e
        | ok v => rw [e] at h; cases h
        | throw v => rw [e] at h; cases h
    · cases h
  | begin => exact ha
  | inc => exact ha
  | deref => exact ha
  | atEnd => exact ha

/-- **C96.**  Assigning a generator to itself keeps it. -/
theorem c96_self_assign (body : σ → Next σ α) (s : State σ α) (g : Nat) (c : Option Nat) (hg : s.gens g = some c) :
    ∃ s', step body s (.assign g g) = .ok (s', .unit) ∧ s'.gens g = some c ∧ s'.frames = s.frames := by
  simp only [step, hg, upd, if_true, release, Res.ok_bind]
  exact ⟨_, rfl, by simp [upd], rfl⟩

/-- What can be seen through the iterator `i`: the value `r`, or the end. -/
def Shows (body : σ → Next σ α) (s : State σ α) (i : Nat) : Ans α → Prop
  | .got a => step body s (.deref i) = .ok (s, .value a) ∧ step body s (.atEnd i) = .ok (s, .bool false)
  | .ended => step body s (.atEnd i) = .ok (s, .bool true)
  | _ => True

/-- **C96.**  The first `begin` of a generator gives the first thing its body does, and the iterator shows it. Missing: later calls of `begin` (`c96_begin_twice_violated`, `c96_begin_ended_violated`). -/
theorem c96_begin_partial (body : σ → Next σ α) (s s' : State σ α) (g i : Nat) (x : σ) (hs : step body s (.create g x) = .ok (s', .unit)) (hub : body x ≠ .ub) :
    ∃ s'' r, step body s' (.begin g i) = .ok (s'', r) ∧ trace body 1 x = [r] ∧ Shows body s'' i r := by
  simp only [step] at hs
  split at hs
  · cases hs
    simp only [step, upd, if_true, advance, resume]
    cases hb : body x with
    | yield a y => exact ⟨_, _, rfl, by simp [trace, hb, answer], by simp [Shows, step, answer, upd]⟩
    | ret => exact ⟨_, _, rfl, by simp [trace, hb, answer], by simp [Shows, step, answer, upd]⟩
    | throw e => exact ⟨_, _, rfl, by simp [trace, hb, answer], by simp [Shows, answer]⟩
    | ub => exact absurd hb hub
  · cases hs

/-- **C96.**  `begin` of an empty (or moved-from) generator is the end. -/
theorem c96_begin_empty (body : σ → Next σ α) (s : State σ α) (g i : Nat) (hg : s.gens g = some none) :
    ∃ s', step body s (.begin g i) = .ok (s', .unit) ∧ step body s' (.atEnd i) = .ok (s', .bool true) ∧ s'.frames = s.frames := by
  exact ⟨{ s with iters := upd s.iters i (some none) }, by simp [step, hg], by simp [step, upd], rfl⟩

/-- **C96.**  A range-based for loop sees exactly the values of the body and the exception that ended it. -/
theorem c96_for (body : σ → Next σ α) (x : σ) (v : Option α) (l : List α) (e : Option Exn) (h : Gives body x l e) (n : Nat) (hn : l.length < n) :
    loop body n (.susp v x) = .ok (l, e) := by
  induction h generalizing n v with
  | ret s hb => cases n with
    | zero => cases hn
    | succ n => simp [loop, resume, hb]
  | throw s e hb => cases n with
    | zero => cases hn
    | succ n => simp [loop, resume, hb]
  | yield s s' a l e hb hg ih =>
    cases n with
    | zero => cases hn
    | succ n =>
      have := ih (some a) n (by simp at hn; omega)
      simp [loop, resume, hb, this]

/-- **C96.**  And only these: if the loop ends, the body gave what the loop saw. -/
theorem c96_for_only (body : σ → Next σ α) (n : Nat) (x : σ) (v : Option α) (l : List α) (e : Option Exn) (h : loop body n (.susp v x) = .ok (l, e)) :
    Gives body x l e := by
  induction n generalizing x v l with
  | zero => cases h
  | succ n ih =>
    simp only [loop, resume] at h
    cases hb : body x with
    | yield a s' =>
      simp only [hb, Res.ok_bind] at h
      rw [Res.bind_eq_ok] at h
      obtain ⟨⟨l', e'⟩, h1, h2⟩ := h
      cases h2
      exact .yield x s' a l' e' hb (ih s' _ l' h1)
    | ret => simp only [hb, Res.ok_bind] at h; cases h; exact .ret x hb
    | throw e1 => simp only [hb, Res.ok_bind] at h; cases h; exact .throw x e1 hb
    | ub => simp only [hb, Res.ub_bind] at h; cases h

/-- **C96.**  `fmap(f, g)` gives the values of `g` with `f` applied, in order, and ends as `g` does, or at the first exception of `f`. -/
theorem c96_fmap (body : σ → Next σ α) (f : α → Except Exn β) (hub : ∀ y, body y ≠ .ub) (n : Nat) (x : σ) (v : Option α) :
    trace (fmapBody body f) n (.susp v x) = mapTrace f (trace body n x) := by
  induction n generalizing x v with
  | zero => rfl
  | succ n ih =>
    simp only [trace, fmapBody, resume]
    cases hb : body x with
    | yield a s' =>
      simp only
      cases hf : f a with
      | ok b => simp [mapTrace, hf, ih]
      | error e => simp [mapTrace, hf]
    | ret => simp [mapTrace]
    | throw e => simp [mapTrace]
    | ub => exact absurd hb (hub x)

/-- The body that yields 10, 11, …, `k` values, and returns or throws. -/
def count (e : Option Exn) : Nat × Nat → Next (Nat × Nat) Nat
  | (_, 0) => match e with | none => .ret | some e => .throw e
  | (a, k + 1) => .yield a (a + 1, k)

/-- The answer of the last operation. -/
def ansOf {σ α : Type} (body : σ → Next σ α) : State σ α → List (Act σ) → Option (Ans α)
  | _, [] => none
  | s, [a] => match step body s a with | .ok r => some r.2 | _ => none
  | s, a :: l => match step body s a with | .ok r => ansOf body r.1 l | _ => none

/-- **C96 is violated.**  `begin` is not repeatable: the second call skips the first value (a user expects the range to begin there), -/
theorem c96_begin_twice_violated : ansOf (count none) init [.create 0 (10, 3), .begin 0 0, .begin 0 1, .deref 1] = some (.value 11) := by
  decide +kernel

/-- it always does so, for every body and history: `begin` of a generator that has given `n` values does not give the first one but what the body does next, and an iterator made before
(here `j`) then stands there, too: it has lost its value. -/
theorem c96_begin_again_violated (body : σ → Next σ α) (l : List (Act σ)) (s : State σ α) (hr : run body init l = .ok s) (g i j h : Nat) (hg : s.gens g = some (some h))
    (hj : s.iters j = some (some h)) (hij : i ≠ j) (a : α) (ha : last s.log h = some (.got a)) (x : σ) (hx : s.start h = some x) (hub : ∀ y, body y ≠ .ub) :
    ∃ s' r, step body s (.begin g i) = .ok (s', r) ∧ trace body ((seen s.log h).length + 1) x = seen s.log h ++ [r] ∧
      step body s' (.atEnd j) = .ok (s', .bool (match r with | .got _ => false | _ => true)) ∧
      ∀ b, r = .got b → step body s' (.deref i) = .ok (s', .value b) ∧ step body s' (.deref j) = .ok (s', .value b) := by
  have inv := inv_run body l _ s (inv_init body) hr
  obtain ⟨hlt, hal⟩ := inv.own g h hg
  obtain ⟨y, h1, hf⟩ := inv.fits h hlt
  rw [hx] at h1; cases h1
  have hji : j ≠ i := fun e => hij e.symm
  simp only [step, hg, advance]
  cases hfr : s.frames h with
  | dead => rw [hfr] at hal; cases hal
  | done e =>
    rw [hfr] at hf
    have h2 := hf.2
    simp only [last] at ha; rw [ha] at h2
    cases e <;> simp [answer] at h2
  | susp v y =>
    rw [hfr] at hf
    have h2 := hf.1 1
    simp only [resume]
    cases hb : body y with
    | yield b y' => exact ⟨_, _, rfl, by rw [h2]; simp [trace, hb, answer], by simp [hj, hji, upd, answer], by simp [hj, hji, upd, answer]⟩
    | ret => exact ⟨_, _, rfl, by rw [h2]; simp [trace, hb, answer], by simp [hj, hji, upd, answer], by simp [answer]⟩
    | throw e => exact ⟨_, _, rfl, by rw [h2]; simp [trace, hb, answer], by simp [hj, upd, answer], by simp [answer]⟩
    | ub => exact absurd hb (hub y)

/-- and `begin` of a generator that has ended is undefined, for every body and history. -/
theorem c96_begin_ended_violated (body : σ → Next σ α) (l : List (Act σ)) (s : State σ α) (hr : run body init l = .ok s) (g i h : Nat)
    (hg : s.gens g = some (some h)) (he : last s.log h = some .ended ∨ ∃ e, last s.log h = some (.thrown e)) : step body s (.begin g i) = .ub := by
  have inv := inv_run body l _ s (inv_init body) hr
  obtain ⟨hlt, hal⟩ := inv.own g h hg
  obtain ⟨x, -, hf⟩ := inv.fits h hlt
  simp only [step, hg, advance]
  cases hfr : s.frames h with
  | dead => rw [hfr] at hal; cases hal
  | done e => rfl
  | susp v y =>
    rw [hfr] at hf
    have h2 := hf.2
    simp only [last] at he
    rcases he with he | ⟨e, he⟩ <;> rw [he] at h2 <;> cases v <;> simp at h2

/-! Cases. -/

example : ansOf (count none) init [.create 0 (10, 3), .begin 0 0, .begin 0 1, .deref 0] = some (.value 11) := by decide +kernel
example : ansOf (count none) init [.create 0 (10, 2), .begin 0 0, .inc 0, .deref 0] = some (.value 11) := by decide +kernel
example : ansOf (count none) init [.create 0 (10, 2), .begin 0 0, .inc 0, .inc 0, .atEnd 0] = some (.bool true) := by decide +kernel
example : ansOf (count (some (.user 1))) init [.create 0 (10, 1), .begin 0 0, .inc 0] = some (.thrown (.user 1)) := by decide +kernel
-- two generators interleaved, one moved while it is iterated
example : ansOf (count none) init [.create 0 (10, 3), .create 1 (20, 3), .begin 0 0, .begin 1 1, .inc 0, .move 2 0, .inc 1, .inc 0, .deref 0] = some (.value 12) := by
  decide +kernel
example : ansOf (count none) init [.create 0 (10, 1), .create 1 (20, 3), .assign 1 0, .begin 1 0, .deref 0] = some (.value 10) := by decide +kernel
example : ansOf (count none) init [.empty 0, .begin 0 0, .atEnd 0] = some (.bool true) := by decide +kernel
example : run (count none) init [.create 0 (10, 1), .begin 0 0, .inc 0, .begin 0 1] = .ub := rfl
example : Gives (count (some .general)) (10, 2) [10, 11] (some .general) :=
  .yield _ (11, 1) _ _ _ rfl (.yield _ (12, 0) _ _ _ rfl (.throw _ _ rfl))
example : loop (count none) 3 (.susp none (10, 2)) = .ok ([10, 11], none) := by decide +kernel
example : trace (fmapBody (count none) (fun a => if a = 12 then .error (.user 7) else .ok (a * 2))) 9 (.susp none (10, 5)) = [.got 20, .got 22, .thrown (.user 7)] := by
  decide +kernel

end Verif.Generator
