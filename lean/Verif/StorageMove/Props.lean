import Verif.StorageMove.Lemmas

/-! # C180: storages can be moved -/

namespace Verif.StorageMove

theorem start_rel (disk : Nat → Option Bytes) : Rel (start disk) (Spec.start disk) := by
  refine ⟨⟨?_, ?_, ?_⟩, rfl, ?_, ?_⟩
  · intro x w d hd; simp [start, St.handle] at hd
  · intro x w x' w' d hd; simp [start, St.handle] at hd
  · intro d f hd; simp [start] at hd
  · intro x w; cases x <;> simp [St.fileOf, St.handle, start, Spec.F, Spec.start]
  · intro x; cases x <;> simp [start, Spec.L, Spec.start]

/-- C180 (part): what a program sees and what it leaves in the files is what the user expects: the files move with the storage.
Missing: assignment of a storage to itself (`c180_self_violated`). -/
theorem c180_files_move_partial (good : Bytes → Bool) (opt : Bool) (disk : Nat → Option Bytes) (p : List Stmt) (hp : ∀ v, Stmt.assign v v ∉ p) (seen : List Seen) (after : Nat → Option Bytes) :
    (∃ s, run good opt (start disk) p = .ok (s, seen) ∧ s.disk = after) ↔ (∃ σ, (Spec.start disk).run good opt p = .ok (σ, seen) ∧ σ.disk = after) := by
  have h0 := start_rel disk
  have h := sim_run good opt p hp h0
  rcases hr : (Spec.start disk).run good opt p with ⟨σ, os⟩ | e | _
  · rw [hr] at h
    obtain ⟨s', h1, h2⟩ := h
    rw [h1]
    constructor
    · rintro ⟨s, hs, ha⟩; cases hs; exact ⟨σ, rfl, by rw [← ha, h2.disk]⟩
    · rintro ⟨s, hs, ha⟩; cases hs; exact ⟨s', rfl, by rw [← ha, h2.disk]⟩
  · rw [hr] at h; exact h.elim
  · rw [hr] at h
    simp only at h
    rw [h]
    constructor <;> rintro ⟨s, hs, _⟩ <;> cases hs

/-! ## Assignment of a storage to itself -/

theorem setHandle_same (s : St) (x : Var) (w : Which) (h : s.handle x w = none) : s.setHandle x w none = s := by
  unfold St.setHandle
  cases ho : s.vars x with
  | none => rfl
  | some o =>
    have hw : o.h w = none := by simpa [St.handle, ho] using h
    have h1 : upd o.h w none = o.h := by
      funext w'
      by_cases hc : w' = w
      · subst hc; rw [upd_same, hw]
      · rw [upd_ne _ _ hc]
    have h2 : upd s.vars x (some o) = s.vars := by
      funext z
      by_cases hc : z = x
      · subst hc; rw [upd_same, ho]
      · rw [upd_ne _ _ hc]
    simp only [h1]
    rw [h2]

theorem closed_handle {s s' : St} {x : Var} {w : Which} (h : closeHandle s x w = .ok s') : s'.handle x w = none := by
  unfold closeHandle at h
  cases hh : s.handle x w with
  | none => rw [hh] at h; cases h; exact hh
  | some d =>
    have hx := exists_of_handle hh
    rw [hh] at h
    simp only at h
    split at h
    · cases h
      rw [handle_set]
      simp [hx]
    · cases h

theorem moveHandle_self (s : St) (x : Var) (w : Which) : moveHandle s x x w = closeHandle s x w := by
  unfold moveHandle
  rcases hc : closeHandle s x w with s' | e | _
  · have := closed_handle hc
    simp only [Res.ok_bind, this, setHandle_same _ _ _ this]
  · rfl
  · rfl

/-- What a program does instead of what it says. -/
def instead : Stmt → Stmt
  | .assign v u => if v = u then .close v else .assign v u
  | p => p

/-- C180: assignment of a storage to itself does exactly what `Close` does, in every program. -/
theorem c180_self (good : Bytes → Bool) (opt : Bool) (p : List Stmt) : ∀ s, run good opt s p = run good opt s (p.map instead) := by
  have hx : ∀ s x, exec good opt s x = exec good opt s (instead x) := by
    intro s x
    cases x <;> try rfl
    rename_i v u
    by_cases hvu : v = u
    · subst hvu
      simp only [instead, if_true, exec, assign, close, moveHandle_self]
      simp
    · simp only [instead, hvu, if_false]
  induction p with
  | nil => intro s; rfl
  | cons x xs ih =>
    intro s
    simp only [run, List.map_cons, hx s x]
    rcases exec good opt s (instead x) with ⟨s', o⟩ | e | _
    · simp only [Res.ok_bind, ih s']
    · rfl
    · rfl

theorem instead_ok (p : List Stmt) (v : Nat) : Stmt.assign v v ∉ p.map instead := by
  intro h
  obtain ⟨x, _, hx⟩ := List.mem_map.1 h
  cases x <;> simp [instead] at hx
  split at hx
  · cases hx
  · rename_i hne; cases hx; exact hne rfl

/-- The process and the storages as the user sees them at the end of any program. -/
theorem ends (good : Bytes → Bool) (opt : Bool) (disk : Nat → Option Bytes) (p : List Stmt) (s : St) (seen : List Seen) (h : run good opt (start disk) p = .ok (s, seen)) :
    ∃ σ, Rel s σ := by
  rw [c180_self] at h
  have h0 := start_rel disk
  have hs := sim_run good opt (p.map instead) (instead_ok p) h0
  rcases hr : (Spec.start disk).run good opt (p.map instead) with ⟨σ, os⟩ | e | _
  · rw [hr] at hs
    obtain ⟨s', h1, h2⟩ := hs
    rw [h] at h1
    cases h1
    exact ⟨σ, h2⟩
  · rw [hr] at hs; exact hs.elim
  · rw [hr] at hs
    simp only at hs
    rw [h] at hs
    cases hs

/-- C180: in every program, a descriptor is open exactly if one storage that exists has it, and no two have the same one. -/
theorem c180_owner (good : Bytes → Bool) (opt : Bool) (disk : Nat → Option Bytes) (p : List Stmt) (s : St) (seen : List Seen) (h : run good opt (start disk) p = .ok (s, seen)) (d : Nat) :
    (∃ f, s.fds[d]? = some (some f)) ↔
      ∃ v w, (∃ o, s.vars (some v) = some o ∧ o.h w = some d) ∧ ∀ v' w', (∃ o, s.vars (some v') = some o ∧ o.h w' = some d) → v' = v ∧ w' = w := by
  obtain ⟨σ, hr⟩ := ends good opt disk p s seen h
  have hh : ∀ x w, s.handle x w = some d ↔ ∃ o, s.vars x = some o ∧ o.h w = some d := by
    intro x w
    unfold St.handle
    cases s.vars x with
    | none => simp
    | some o => simp
  constructor
  · rintro ⟨f, hf⟩
    obtain ⟨x, w, hx⟩ := hr.inv.all hf
    cases x with
    | none =>
      have := handle_none hr (x := none) rfl w
      rw [this] at hx; simp at hx
    | some v =>
      refine ⟨v, w, (hh _ _).1 hx, fun v' w' hv' => ?_⟩
      have := hr.inv.inj ((hh _ _).2 hv') hx
      exact ⟨by simpa using this.1, this.2⟩
  · rintro ⟨v, w, ho, _⟩
    exact hr.inv.own ((hh _ _).2 ho)

/-- C180: when every storage is closed or destroyed, no descriptor is open. -/
theorem c180_no_leak (good : Bytes → Bool) (opt : Bool) (disk : Nat → Option Bytes) (p : List Stmt) (s : St) (seen : List Seen) (h : run good opt (start disk) p = .ok (s, seen))
    (hc : ∀ v o, s.vars (some v) = some o → ∀ w, o.h w = none) (d f : Nat) : s.fds[d]? ≠ some (some f) := by
  intro hf
  obtain ⟨v, w, ⟨o, h1, h2⟩, _⟩ := (c180_owner good opt disk p s seen h d).1 ⟨f, hf⟩
  rw [hc v o h1 w] at h2
  cases h2

/-- C180: a program that uses only storages that exist does nothing undefined. -/
theorem c180_defined (good : Bytes → Bool) (opt : Bool) (disk : Nat → Option Bytes) (p : List Stmt) :
    run good opt (start disk) p = .ub ↔ (Spec.start disk).run good opt (p.map instead) = .ub := by
  rw [c180_self]
  have h0 := start_rel disk
  have hs := sim_run good opt (p.map instead) (instead_ok p) h0
  rcases hr : (Spec.start disk).run good opt (p.map instead) with ⟨σ, os⟩ | e | _
  · rw [hr] at hs
    obtain ⟨s', h1, h2⟩ := hs
    rw [h1]; simp
  · rw [hr] at hs; exact hs.elim
  · rw [hr] at hs
    simp only at hs
    rw [hs]
    exact ⟨fun _ => rfl, fun _ => rfl⟩

/-- All files are readable if they are not empty; there is one file with the number 3. -/
def sampleDisk : Nat → Option Bytes := fun n => if n = 3 then some [7] else none

def both : Which → Bool := fun _ => true

/-- Two storages; the first one is moved to a third one, then the other one is assigned to the first one; they are swapped; the descriptors of closed files are used again. -/
def sample : List Stmt :=
  [.make 0 10, .make 1 11, .open_ 0 3 4 both, .open_ 1 5 6 both, .moveNew 2 0, .isOpened 0, .load 2, .assign 0 1, .isOpened 1, .save 0 [1, 2], .swap 0 2, .load 0, .load 2, .save 1 [9],
   .open_ 1 5 6 (fun w => w == .master), .close 0, .open_ 1 3 4 both, .load 1, .load 2, .swap 1 1, .load 1, .destroy 2, .destroy 1, .destroy 0]

def sampleSeen : List Seen :=
  [done, done, ⟨.ok (none, true), []⟩, ⟨.ok (none, false), []⟩, done, ⟨.ok (none, false), []⟩, ⟨.ok (some [7], true), [(10, .notRead true)]⟩, done, ⟨.ok (none, false), []⟩, done, done,
   ⟨.ok (some [7], true), [(10, .notRead true)]⟩, ⟨.ok (some [1, 2], true), [(10, .notRead true)]⟩, ⟨.throw .io, []⟩, ⟨.throw .io, []⟩, done, ⟨.ok (none, true), []⟩,
   ⟨.ok (some [7], true), [(11, .notRead true)]⟩, ⟨.ok (some [1, 2], true), [(10, .notRead true)]⟩, done, ⟨.ok (some [7], true), [(11, .notRead true)]⟩, done, done, done]

/-- What is seen. -/
def seenOf {α : Type} : Res (α × List Seen) → Option (List Seen)
  | .ok (_, o) => some o
  | _ => none

example : (∀ v, Stmt.assign v v ∉ sample) ∧ seenOf (run (fun c => !c.isEmpty) false (start sampleDisk) sample) = some sampleSeen ∧
    seenOf ((Spec.start sampleDisk).run (fun c => !c.isEmpty) false sample) = some sampleSeen := by
  exact ⟨by intro v; simp only [sample, List.mem_cons, List.not_mem_nil, or_false, reduceCtorEq, false_or, Stmt.assign.injEq]; omega, by decide +kernel, by decide +kernel⟩

/-- C180 is violated: a storage assigned to itself is closed, and loads nothing any more, although the user expects that nothing happens. -/
theorem c180_self_violated : seenOf (run (fun c => !c.isEmpty) false (start sampleDisk) [.make 0 10, .open_ 0 3 4 both, .assign 0 0, .isOpened 0, .load 0]) =
      some [done, ⟨.ok (none, true), []⟩, done, ⟨.ok (none, false), []⟩, ⟨.throw .io, [(10, .notRead true)]⟩] ∧
    seenOf ((Spec.start sampleDisk).run (fun c => !c.isEmpty) false [.make 0 10, .open_ 0 3 4 both, .assign 0 0, .isOpened 0, .load 0]) =
      some [done, ⟨.ok (none, true), []⟩, done, ⟨.ok (none, true), []⟩, ⟨.ok (some [7], true), [(10, .notRead true)]⟩] := by decide +kernel

/-- The descriptors at the end of a part of the program above. -/
example : ∃ s seen, run (fun c => !c.isEmpty) false (start sampleDisk) [.make 0 10, .make 1 11, .open_ 0 3 4 both, .open_ 1 5 6 both, .close 0, .open_ 0 5 3 both] = .ok (s, seen) ∧
    s.fds = [some 5, some 3, some 5, some 6] := ⟨_, _, rfl, by decide +kernel⟩

end Verif.StorageMove
