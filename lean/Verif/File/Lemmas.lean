import Verif.File.Model

namespace Verif.File

theorem resize_length (d : List UInt8) (n : Nat) : (resize d n).length = n := by
  simp [resize]; omega

theorem resize_get (d : List UInt8) (n i : Nat) (hi : i < n) : (resize d n)[i]? = some (d[i]?.getD 0) := by
  simp only [resize, List.getElem?_append, List.length_take, List.getElem?_take]
  by_cases h : i < d.length
  · rw [if_pos (by omega), if_pos hi]; simp [h]
  · rw [if_neg (by omega)]
    rw [List.getElem?_replicate, if_pos (by omega)]
    simp [List.getElem?_eq_none (show d.length ≤ i by omega)]

theorem write_nil (lim room : Nat) (f : File) : write lim room f [] = (f, .ok ()) := by
  simp [write, sysWrite]

/-- The file after a write of the bytes `b`. -/
theorem write_ok (lim room : Nat) (f f' : File) (b : List UInt8) (hb : b ≠ []) (h : write lim room f b = (f', .ok ())) :
    f' = ⟨resize f.data f.pos ++ b ++ f.data.drop (f.pos + b.length), f.pos + b.length⟩ ∧ b.length ≤ lim := by
  have h0 : b.length ≠ 0 := by simpa using hb
  simp only [write, sysWrite] at h
  by_cases hz : min (min b.length lim) (room - f.pos) = 0
  · rw [if_pos hz, if_neg h0] at h; cases h
  · rw [if_neg hz] at h
    simp only at h
    split at h
    · cases h
    · rename_i hn
      have hn := Classical.not_not.mp hn
      cases h
      rw [hn, List.take_of_length_le (Nat.le_refl _)]
      exact ⟨rfl, by omega⟩

structure HInv (s : HState) : Prop where
  own : ∀ v fd, s.vars v = some (some fd) → fd ∈ s.opened
  uniq : ∀ v w fd, s.vars v = some (some fd) → s.vars w = some (some fd) → v = w
  all : ∀ fd, fd ∈ s.opened → ∃ v, s.vars v = some (some fd)
  nodup : s.opened.Nodup
  good : s.bad = false

theorem hinv_close (s : HState) (v : Nat) (h : Option Nat) (hi : HInv s) (hv : s.vars v = some h) :
    HInv (close s v h) ∧ (close s v h).vars = (fun u => if u = v then some none else s.vars u) := by
  cases h with
  | none =>
    refine ⟨hi, ?_⟩
    funext u; simp only [close]; split
    · rename_i e; rw [e, hv]
    · rfl
  | some fd =>
    have hm := hi.own v fd hv
    refine ⟨⟨?_, ?_, ?_, ?_, ?_⟩, rfl⟩
    · intro u x hu
      simp only [close, upd] at hu ⊢
      split at hu
      · cases hu
      · rename_i e
        refine (List.mem_erase_of_ne ?_).2 (hi.own u x hu)
        rintro rfl; exact e (hi.uniq u v x hu hv)
    · intro u w x; have := hi.uniq u w x; simp only [close, upd]; grind
    · intro x hx
      simp only [close] at hx
      rw [hi.nodup.mem_erase_iff] at hx
      obtain ⟨u, hu⟩ := hi.all x hx.2
      refine ⟨u, ?_⟩
      simp only [close, upd]
      rw [if_neg ?_]; · exact hu
      rintro rfl; rw [hv] at hu; injection hu with hu; injection hu with hu; exact hx.1 hu.symm
    · exact hi.nodup.erase fd
    · simp [close, hi.good, hm]

theorem hinv_step (s s' : HState) (a : HAct) (hi : HInv s) (hs : hstep s a = .ok s') : HInv s' := by
  have own := hi.own
  have uniq := hi.uniq
  have all := hi.all
  cases a with
  | «open» v fd =>
    simp only [hstep] at hs
    split at hs
    · rename_i hv
      split at hs
      · cases hs
      · rename_i hfd
        cases hs
        refine ⟨?_, ?_, ?_, List.nodup_cons.2 ⟨hfd, hi.nodup⟩, hi.good⟩
        · intro u x; have := own u x; simp only [upd]; grind
        · intro u w x; have := uniq u w x; have := own u x; have := own w x; simp only [upd]; grind
        · intro x hx
          rcases List.mem_cons.1 hx with rfl | hx
          · exact ⟨v, by simp [upd]⟩
          · obtain ⟨u, hu⟩ := all x hx
            exact ⟨u, by simp only [upd]; grind⟩
    · cases hs
  | empty v =>
    simp only [hstep] at hs
    split at hs
    · rename_i hv; cases hs
      refine ⟨?_, ?_, ?_, hi.nodup, hi.good⟩
      · intro u x; have := own u x; simp only [upd]; grind
      · intro u w x; have := uniq u w x; simp only [upd]; grind
      · intro x hx
        obtain ⟨u, hu⟩ := all x hx
        exact ⟨u, by simp only [upd]; grind⟩
    · cases hs
  | moveTo v w =>
    simp only [hstep] at hs
    split at hs
    · rename_i h hv hw; cases hs
      have hne : v ≠ w := by rintro rfl; rw [hv] at hw; cases hw
      refine ⟨?_, ?_, ?_, hi.nodup, hi.good⟩
      · intro u x; have := own u x; have := own w x; simp only [upd]; grind
      · intro u u' x; have := uniq u u' x; have := uniq w u x; have := uniq w u' x; simp only [upd]; grind
      · intro x hx
        obtain ⟨u, hu⟩ := all x hx
        by_cases e : u = w
        · exact ⟨v, by simp only [upd]; grind⟩
        · exact ⟨u, by simp only [upd]; grind⟩
    · cases hs
  | assign v w =>
    simp only [hstep] at hs
    split at hs
    · rename_i h k hv hw
      obtain ⟨hc, hvars⟩ := hinv_close s v h hi hv
      have own := hc.own
      have uniq := hc.uniq
      have all := hc.all
      have h0 : (close s v h).vars v = some none := by rw [hvars]; simp
      generalize close s v h = t at *
      split at hs
      · rename_i k' hk'; cases hs
        refine ⟨?_, ?_, ?_, hc.nodup, hc.good⟩
        · intro u x; have := own u x; have := own w x; simp only [upd]; grind
        · intro u u' x; have := uniq u u' x; have := uniq w u x; have := uniq w u' x; simp only [upd]; grind
        · intro x hx
          obtain ⟨u, hu⟩ := all x hx
          by_cases e : u = w
          · by_cases e2 : v = w
            · subst e; subst e2; rw [h0] at hu; cases hu
            · exact ⟨v, by simp only [upd]; grind⟩
          · exact ⟨u, by simp only [upd]; grind⟩
      · cases hs
    · cases hs
  | close v =>
    simp only [hstep] at hs
    split at hs
    · rename_i h hv; cases hs; exact (hinv_close s v h hi hv).1
    · cases hs
  | destroy v =>
    simp only [hstep] at hs
    split at hs
    · rename_i h hv; cases hs
      obtain ⟨hc, hvars⟩ := hinv_close s v h hi hv
      have own := hc.own
      have uniq := hc.uniq
      have all := hc.all
      have h0 : (close s v h).vars v = some none := by rw [hvars]; simp
      generalize close s v h = t at *
      refine ⟨?_, ?_, ?_, hc.nodup, hc.good⟩
      · intro u x; have := own u x; simp only [upd]; grind
      · intro u u' x; have := uniq u u' x; simp only [upd]; grind
      · intro x hx
        obtain ⟨u, hu⟩ := all x hx
        exact ⟨u, by simp only [upd]; grind⟩
    · cases hs

theorem hinv_run (l : List HAct) : ∀ (s s' : HState), HInv s → hrun s l = .ok s' → HInv s' := by
  induction l with
  | nil => intro s s' hi h; cases h; exact hi
  | cons a l ih =>
    intro s s' hi h
    rw [hrun, Res.bind_eq_ok] at h
    obtain ⟨s1, h1, h2⟩ := h
    exact ih s1 s' (hinv_step s s1 a hi h1) h2

theorem hinv_init : HInv hinit := by
  constructor
  · intro v fd h; cases h
  · intro v w fd h; cases h
  · intro fd h; cases h
  · exact List.nodup_nil
  · rfl

end Verif.File
