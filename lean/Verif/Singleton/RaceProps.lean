import Verif.Singleton.Props

/-! # C104: how many instances there may be -/

namespace Verif.Singleton

/-! ### Lemmas -/

/-- Both functions make an instance if none was made. -/
def Makes (enter : State → Nat → State × Out) : Prop := ∀ s t, s.wp = none → enter s t = ({ s with making := t :: s.making }, .busy)

theorem makes_shared : Makes enterShared := fun s t h => by simp [enterShared, h]

theorem makes_demand : Makes enterDemand := fun s t h => by simp [enterDemand, h]

theorem run_enter {enter : State → Nat → State × Out} (he : Makes enter) (ts : List Nat) : ∀ (s : State), s.wp = none → ts.Nodup → (∀ t ∈ ts, t ∉ s.making) →
    ∀ rest f o, run enter { s with making := ts.reverse ++ s.making } rest = .ok (f, o) → ∃ o', run enter s (ts.map .enter ++ rest) = .ok (f, o') := by
  induction ts with
  | nil => intro s _ _ _ rest f o h; exact ⟨o, by simpa using h⟩
  | cons t ts ih =>
    intro s hw hn hd rest f o h
    rw [List.nodup_cons] at hn
    obtain ⟨o', e⟩ := ih { s with making := t :: s.making } hw hn.2 (fun u hu => by
      have h1 : u ≠ t := by rintro rfl; exact hn.1 hu
      have h2 := hd u (List.mem_cons_of_mem _ hu)
      simp [h1, h2]) rest f o (by simpa using h)
    refine ⟨.busy :: o', ?_⟩
    simp only [List.map_cons, List.cons_append, run, step, if_neg (hd t (List.mem_cons_self ..)), he s t hw, Res.ok_bind, e]

theorem run_make {enter : State → Nat → State × Out} (us : List Nat) : ∀ (s : State), us.Nodup → (∀ t ∈ us, t ∈ s.making) →
    ∃ f o, run enter s (us.map (.make · true)) = .ok (f, o) ∧ f.created = s.created + us.length ∧
      (∀ n, n < s.created → f.holders n = s.holders n) ∧ ∀ n, s.created ≤ n → n < s.created + us.length → f.holders n = 1 := by
  induction us with
  | nil => intro s _ _; exact ⟨s, [], rfl, rfl, fun _ _ => rfl, fun n h1 h2 => by simp at h2; omega⟩
  | cons t us ih =>
    intro s hn hm
    rw [List.nodup_cons] at hn
    obtain ⟨f, o, e, h1, h2, h3⟩ := ih (construct s t true).1 hn.2 (fun u hu => by
      have h1 : u ≠ t := by rintro rfl; exact hn.1 hu
      simp only [construct, if_true]
      exact (List.mem_erase_of_ne h1).2 (hm u (List.mem_cons_of_mem _ hu)))
    refine ⟨f, (construct s t true).2 :: o, ?_, ?_, ?_, ?_⟩
    · simp only [List.map_cons, run, step, if_pos (hm t (List.mem_cons_self ..)), Res.ok_bind, e]
    · rw [h1]; simp [construct]; omega
    · intro n hlt
      rw [h2 n (by simp [construct]; omega)]
      simp only [construct, if_true, upd]
      rw [if_neg (by omega)]
    · intro n hge hlt
      by_cases hx : n = s.created
      · rw [h2 n (by simp [construct]; omega)]
        simp [construct, upd, hx]
      · exact h3 n (by simp [construct]; omega) (by simp [construct] at hlt ⊢; omega)

/-! ### The property -/

/-- **C104 is violated** without a bound: any number of threads that all test the `weak_ptr` before the first one has assigned it make an instance each, in whatever order they make them, and
all these instances live at the same time. -/
theorem c104_any_number_violated (ts us : List Nat) (hn : ts.Nodup) (hp : us.Perm ts) :
    (∃ s o, run enterShared init (ts.map .enter ++ us.map (.make · true)) = .ok (s, o) ∧ s.created = ts.length ∧ ∀ n, n < ts.length → s.holders n = 1) ∧
    ∃ s o, run enterDemand init (ts.map .enter ++ us.map (.make · true)) = .ok (s, o) ∧ s.created = ts.length ∧ ∀ n, n < ts.length → s.holders n = 1 := by
  have key : ∀ enter, Makes enter → ∃ s o, run enter init (ts.map .enter ++ us.map (.make · true)) = .ok (s, o) ∧ s.created = ts.length ∧ ∀ n, n < ts.length → s.holders n = 1 := by
    intro enter he
    obtain ⟨f, o, e, h1, _, h3⟩ := run_make (enter := enter) us { init with making := ts.reverse ++ init.making } (hp.nodup_iff.2 hn) (fun t ht => by
      simp [init, hp.mem_iff.1 ht])
    obtain ⟨o', e'⟩ := run_enter he ts init rfl hn (by simp [init]) _ f o e
    refine ⟨f, o', e', ?_, fun n hlt => h3 n (by simp [init]) (by simp [init, hp.length_eq]; exact hlt)⟩
    rw [h1, hp.length_eq]; simp [init]
  exact ⟨key _ makes_shared, key _ makes_demand⟩

example : [4, 7, 2].Nodup ∧ [2, 4, 7].Perm [4, 7, 2] := by decide

end Verif.Singleton
