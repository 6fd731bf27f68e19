import Verif.VectorSet.Basic

/-! # BalanceAfterInsert keeps the sequence and the counters and needs no missing grandparent -/

namespace Verif.VectorSet

variable {α : Type}

theorem finish_ok {t : Tree α} {L : List (Elem α)} (hne : t ≠ .nil) (hl : toL t = L) (hc : CntOK t) :
    ∃ t', blackenRoot t = .ok t' ∧ toL t' = L ∧ CntOK t' ∧ BlackRoot t' := by
  obtain ⟨t', h1, h2, h3, h4⟩ := blackenRoot_ok hne
  exact ⟨t', h1, by rw [h2, hl], h3 hc, h4⟩

theorem balanceAfterInsert_ok : ∀ (fs : List (Frame α)) (x : Tree α), x ≠ .nil → CntOK (zip x fs) → TopBlack fs →
    ∃ t, balanceAfterInsert x fs = .ok t ∧ toL t = toL (zip x fs) ∧ CntOK t ∧ BlackRoot t
  | [], x, hx, hc, _ => finish_ok hx rfl hc
  | [p], x, hx, hc, ht => by
    have hp : p.color = .black := ht
    simp only [balanceAfterInsert, hp, reduceCtorEq, if_false]
    exact finish_ok (zip_ne_nil (Or.inr (by simp))) rfl hc
  | p :: g :: fs, x, hx, hc, ht => by
    by_cases hp : p.color = .red
    rotate_left
    · simp only [balanceAfterInsert, hp, if_false]
      exact finish_ok (zip_ne_nil (Or.inr (by simp))) rfl hc
    have htf : TopBlack fs := ht.tail.tail
    obtain ⟨ps, pc, pn, pe, pt⟩ := p
    obtain ⟨gs, gc, gn, ge, gt⟩ := g
    simp only at hp
    subst hp
    -- the counters of everything involved
    obtain ⟨hcx, ⟨hpn, hcp, hgn, hcg, hfr⟩⟩ := cntOK_zip.1 hc
    simp only at hpn hcp hgn hcg hfr
    by_cases hu : isRed gt = true
    · -- red uncle
      cases gt with
      | nil => simp [isRed] at hu
      | node uc un ul ue ur =>
        have ih := balanceAfterInsert_ok fs
          (plug (plug x ⟨ps, .black, pn, pe, pt⟩) ⟨gs, .red, gn, ge, .node .black un ul ue ur⟩) (plug_ne_nil _ _)
          (by
            rw [cntOK_zip]
            refine ⟨?_, ?_⟩
            · rw [cntOK_plug, cntOK_plug]
              refine ⟨?_, ⟨hpn, hcx, hcp⟩, hcg⟩
              simp only [toL_plug, toL] at hgn ⊢
              cases ps <;> simp at hgn hpn ⊢ <;> omega
            · have e : (toL (plug (plug x ⟨ps, .black, pn, pe, pt⟩)
                  ⟨gs, .red, gn, ge, .node .black un ul ue ur⟩)).length = gn + 1 := by
                simp only [toL_plug, toL] at hgn ⊢
                cases ps <;> cases gs <;> simp at hgn hpn ⊢ <;> omega
              rw [e]; exact hfr)
          htf
        obtain ⟨t, h1, h2, h3, h4⟩ := ih
        refine ⟨t, ?_, ?_, h3, h4⟩
        · cases gs <;> simp only [balanceAfterInsert, if_true, hu, setColor, Res.ok_bind, h1]
        · rw [h2]
          simp only [zip, toL_zip, toL_plug, toL]
    · -- black uncle
      cases x with
      | nil => simp at hx
      | node cx nx xl xe xr =>
        obtain ⟨hnx, hcl, hcr⟩ := hcx
        simp only [toL, List.length_append, List.length_cons] at hpn
        cases gs <;> cases ps
        · -- parent left of grandparent, x left of parent
          simp only [balanceAfterInsert, if_true, hu, reduceCtorEq, if_false, Res.ok_bind, plug, Bool.false_eq_true]
          rw [rotateRight_eq (by
            simp only [CntOK, toL, List.length_append, List.length_cons]
            exact ⟨by omega, ⟨by omega, ⟨hnx, hcl, hcr⟩, hcp⟩, hcg⟩) hfr]
          simp only [Res.ok_bind]
          apply finish_ok (zip_ne_nil (Or.inl (by simp)))
          · simp only [zip, toL_zip, toL_plug, toL]; simp
          · rw [cntOK_zip]
            simp only [CntOK, toL, List.length_append, List.length_cons]
            refine ⟨⟨by omega, ⟨hnx, hcl, hcr⟩, trivial, hcp, hcg⟩, ?_⟩
            have : (toL xl).length + ((toL xr).length + 1) + ((toL pt).length + ((toL gt).length + 1) + 1) = gn + 1 := by
              omega
            rw [this]; exact hfr
        · -- parent left of grandparent, x right of parent
          simp only [balanceAfterInsert, if_true, hu, if_false, plug, Bool.false_eq_true]
          rw [rotateLeft_eq (by
            simp only [CntOK, toL, List.length_append, List.length_cons]
            exact ⟨by omega, hcp, hnx, hcl, hcr⟩) (by
            refine ⟨by simp only; omega, hcg, hfr⟩)]
          simp only [Res.ok_bind, goLeft]
          rw [rotateRight_eq (by
            simp only [CntOK, toL, List.length_append, List.length_cons]
            exact ⟨by omega, ⟨by omega, ⟨trivial, hcp, hcl⟩, hcr⟩, hcg⟩) hfr]
          simp only [Res.ok_bind]
          apply finish_ok (zip_ne_nil (Or.inl (by simp)))
          · simp only [zip, toL_zip, toL_plug, toL]; simp
          · rw [cntOK_zip]
            simp only [CntOK, toL, List.length_append, List.length_cons]
            refine ⟨⟨by omega, ⟨trivial, hcp, hcl⟩, trivial, hcr, hcg⟩, ?_⟩
            have : (toL pt).length + ((toL xl).length + 1) + ((toL xr).length + ((toL gt).length + 1) + 1) = gn + 1 := by
              omega
            rw [this]; exact hfr
        · -- parent right of grandparent, x left of parent
          simp only [balanceAfterInsert, if_true, hu, if_false, plug, Bool.false_eq_true]
          rw [rotateRight_eq (by
            simp only [CntOK, toL, List.length_append, List.length_cons]
            exact ⟨by omega, ⟨hnx, hcl, hcr⟩, hcp⟩) (by
            refine ⟨by simp only; omega, hcg, hfr⟩)]
          simp only [Res.ok_bind, goRight]
          rw [rotateLeft_eq (by
            simp only [CntOK, toL, List.length_append, List.length_cons]
            exact ⟨by omega, hcg, by omega, hcl, trivial, hcr, hcp⟩) hfr]
          simp only [Res.ok_bind]
          apply finish_ok (zip_ne_nil (Or.inl (by simp)))
          · simp only [zip, toL_zip, toL_plug, toL]; simp
          · rw [cntOK_zip]
            simp only [CntOK, toL, List.length_append, List.length_cons]
            refine ⟨⟨by omega, ⟨trivial, hcg, hcl⟩, trivial, hcr, hcp⟩, ?_⟩
            have : (toL gt).length + ((toL xl).length + 1) + ((toL xr).length + ((toL pt).length + 1) + 1) = gn + 1 := by
              omega
            rw [this]; exact hfr
        · -- parent right of grandparent, x right of parent
          simp only [balanceAfterInsert, if_true, hu, reduceCtorEq, if_false, Res.ok_bind, plug, Bool.false_eq_true]
          rw [rotateLeft_eq (by
            simp only [CntOK, toL, List.length_append, List.length_cons]
            exact ⟨by omega, hcg, by omega, hcp, hnx, hcl, hcr⟩) hfr]
          simp only [Res.ok_bind]
          apply finish_ok (zip_ne_nil (Or.inl (by simp)))
          · simp only [zip, toL_zip, toL_plug, toL]; simp
          · rw [cntOK_zip]
            simp only [CntOK, toL, List.length_append, List.length_cons]
            refine ⟨⟨by omega, ⟨trivial, hcg, hcp⟩, hnx, hcl, hcr⟩, ?_⟩
            have : (toL gt).length + ((toL pt).length + 1) + ((toL xl).length + ((toL xr).length + 1) + 1) = gn + 1 := by
              omega
            rw [this]; exact hfr
  termination_by fs => fs.length

end Verif.VectorSet
