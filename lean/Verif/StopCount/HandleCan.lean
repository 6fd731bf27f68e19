import Verif.StopCount.HandleLive

namespace Verif.Stop.Handle

open Count (State Op)

theorem sources_has {l : List (Option Hd)} {i : Nat} {h : Hd} (hi : l[i]? = some (some h)) (p : Nat) : sc h p ≤ sources l p ∧ rc h p ≤ refs l p := by
  have h1 := sources_set l i (some h) none p hi
  have h2 := refs_set l i (some h) none p hi
  simp only [osc, orc] at h1 h2
  omega

theorem counts_le (l : List (Option Hd)) (p : Nat) : sources l p ≤ l.countP (·.isSome) ∧ refs l p ≤ l.countP (·.isSome) := by
  constructor
  · refine List.countP_mono_left ?_
    intro h _ e
    have e : h = some (.src (some p)) := by simpa using e
    simp [e]
  · refine List.countP_mono_left ?_
    intro h _ e
    match h, e with
    | some _, _ => rfl

theorem few_counts {w : World} (h : few w = true) (p : Nat) : sources w.hs p < 2 ^ 31 - 1 ∧ refs w.hs p < 2 ^ 31 - 1 := by
  have := counts_le w.hs p
  simp only [few, decide_eq_true_eq] at h
  omega

theorem names {w : World} {i : Nat} {h : Hd} {p : Nat} (hw : Inv w) (hi : w.hs[i]? = some (some h)) (hp : h.ptr = some p) : ∃ s, w.st[p]? = some s := by
  obtain ⟨b, hb, _⟩ := hw.named i h p hi hp
  rw [List.getElem?_map] at hb
  cases e : w.st[p]? with
  | none => simp [e] at hb
  | some s => exact ⟨s, rfl⟩

theorem ref_of_ptr {h : Hd} {p : Nat} (hp : h.ptr = some p) : sc h p + rc h p = 1 := by
  match h, hp with
  | .src q, hp => simp [Hd.ptr] at hp; simp [sc, rc, hp]
  | .tok q, hp => simp [Hd.ptr] at hp; simp [sc, rc, hp]
  | .cb q _, hp => simp [Hd.ptr] at hp; simp [sc, rc, hp]

/-- The state of an object is not deleted. -/
theorem alive {w : World} {i : Nat} {h : Hd} {p : Nat} (hw : Inv w) (hv : Live w.st) (hi : w.hs[i]? = some (some h)) (hp : h.ptr = some p) :
    ∃ s, w.st[p]? = some s ∧ s.freed = false ∧ Good1 s (sources w.hs p) (refs w.hs p) := by
  obtain ⟨s, a⟩ := names hw hi hp
  have hg := hw.good.2 p s a
  have h1 := hg.src
  have h2 := hg.ref
  have h3 := sources_has hi p
  have h4 := ref_of_ptr hp
  exact ⟨s, a, live_not_freed hv a (by omega), hg⟩

theorem copy_can {w : World} {i : Nat} {h k : Hd} (hw : Inv w) (hv : Live w.st) (hf : few w = true) (hi : w.hs[i]? = some (some k)) (hc : ∀ q n, h ≠ .cb q n)
    (hp : h.ptr = k.ptr) (hs : ∀ p, h = .src (some p) → sources w.hs p ≠ 0) : ∃ w1, addRef w h = .ok w1 ∧ Live w1.st := by
  refine addRef_can hw.good hv hc ?_ hs
  intro p e
  rw [hp] at e
  have h3 := sources_has hi p
  have h4 := ref_of_ptr e
  have := few_counts hf p
  exact ⟨names hw hi e, by omega, this.1, this.2⟩

theorem word_can {w : World} {p : Nat} {s : State} {a b : Nat} (h : w.st[p]? = some s) (hg : Good1 s a b) (hf : s.freed = false) : word w p = .ok s.word := by
  unfold word
  rw [acc_can h (can_ask hg hf), Res.ok_bind]
  simp [(List.getElem?_eq_some_iff.1 h).1]

/-- Release of the reference of object i, which gets the value y. -/
theorem drop_can {w0 w : World} {i : Nat} {x : Hd} {y : Option Hd} {fl : List Bool}
    (hg : Good w.st (fun p => sources w0.hs p + osc y p) (fun p => refs w0.hs p + orc y p) fl) (hv : Live w.st)
    (hi : w0.hs[i]? = some (some x)) (hp : ∀ p, x.ptr = some p → ∃ s, w.st[p]? = some s)
    (hc : ∀ p, x = .tok (some p) → sources w0.hs p ≠ 0 ∨ refs w0.hs p + orc y p = 1)
    (hc' : ∀ p n, x = .cb (some p) n → n = 0 ∨ sources w0.hs p ≠ 0 ∨ refs w0.hs p + orc y p = 1) :
    ∃ w1, dropRef (put w i y) x = .ok w1 ∧ Live w1.st := by
  have hw : Good (put w i y).st (fun p => sources (w0.hs.set i y) p + sc x p) (fun p => refs (w0.hs.set i y) p + rc x p) fl :=
    good_congr hg (fun p => sources_set w0.hs i (some x) y p hi) (fun p => refs_set w0.hs i (some x) y p hi)
  refine dropRef_can hw hv hp ?_ ?_
  · intro p e
    subst e
    have h1 := sources_set w0.hs i (some (.tok (some p))) y p hi
    have h2 := refs_set w0.hs i (some (.tok (some p))) y p hi
    have := hc p rfl
    simp [osc, sc, orc, rc] at h1 h2 this
    omega
  · intro p n e
    subst e
    have h1 := sources_set w0.hs i (some (.cb (some p) n)) y p hi
    have h2 := refs_set w0.hs i (some (.cb (some p) n)) y p hi
    have := hc' p n rfl
    simp [osc, sc, orc, rc] at h1 h2 this
    omega

theorem live_dropRef {w w1 : World} {i : Nat} {y : Option Hd} {x : Hd} (h : dropRef (put w i y) x = .ok w1) : ∃ w2, dropRef w x = .ok w2 ∧ w2.st = w1.st := by
  have key := dropRef_put (w := put w i y) (i := i) (y := (w.hs[i]?).join) h
  by_cases hl : i < w.hs.length
  · have e : put (put w i y) i (w.hs[i]?).join = w := by
      unfold put
      simp [hl]
    rw [e] at key
    exact ⟨_, key, rfl⟩
  · have e : put w i y = w := by
      unfold put
      simp [List.set_eq_of_length_le (Nat.le_of_not_lt hl)]
    rw [e] at h
    exact ⟨_, h, rfl⟩

theorem at_bind {v : View} {i : Nat} {β : Type} {f : Hd → Option β} {b : β} (h : (v.at' i).bind f = some b) : ∃ k, v.at' i = some k ∧ f k = some b := by
  cases e : v.at' i with
  | none => simp [e] at h
  | some k => exact ⟨k, rfl, by simpa [e] using h⟩

/-- A careful call on existing objects succeeds. -/
theorem step_can {w : World} {c : Call} {r : View × Option Bool} (hw : Inv w) (hv : Live w.st) (hc : carefulCall w c = true) (hf : few w = true)
    (hs : spec (abs w) c = some r) : ∃ r', step w c = .ok r' ∧ Live r'.1.st := by
  cases c with
  | source =>
    refine ⟨_, rfl, ?_⟩
    intro p s hp e
    simp only at hp
    by_cases hl : p < w.st.length
    · rw [List.getElem?_append_left hl] at hp
      exact hv p s hp e
    · have h1 : p = w.st.length := by
        have := (List.getElem?_eq_some_iff.1 hp).1
        simp at this
        omega
      subst h1
      simp at hp
      subst hp
      cases e
  | noSource => exact ⟨_, rfl, hv⟩
  | noToken => exact ⟨_, rfl, hv⟩
  | copy i =>
    obtain ⟨k, h1, h2⟩ := at_bind hs
    have hi := of_at h1
    have hk : ∀ q n, k ≠ .cb q n := by intro q n e; subst e; simp [alike] at h2
    obtain ⟨w1, a, b⟩ := copy_can hw hv hf hi hk rfl (by
      intro p e; subst e
      have := (sources_has hi p).1
      simp [sc] at this
      omega)
    exact ⟨(push w1 k, none), by simp [step, get_of hi, a], b⟩
  | move i =>
    obtain ⟨k, h1, h2⟩ := at_bind hs
    have hi := of_at h1
    match k, h2, hi with
    | .src p, h2, hi => exact ⟨_, by simp only [step, get_of hi, Res.ok_bind]; rfl, hv⟩
    | .tok p, h2, hi => exact ⟨_, by simp only [step, get_of hi, Res.ok_bind]; rfl, hv⟩
    | .cb _ _, h2, hi => simp [alike] at h2
  | token i =>
    obtain ⟨k, h1, h2⟩ := at_bind hs
    have hi := of_at h1
    match k, h2, hi with
    | .src p, h2, hi =>
      obtain ⟨w1, a, b⟩ := copy_can (h := .tok p) hw hv hf hi (by intro q n e; cases e) rfl (by intro p e; cases e)
      exact ⟨(push w1 (.tok p), none), by simp [step, get_of hi, a], b⟩
    | .tok p, h2, hi => cases h2
    | .cb _ _, h2, hi => cases h2
  | destroy i =>
    obtain ⟨k, h1, h2⟩ := at_bind hs
    have hi := of_at h1
    obtain ⟨w1, a, b⟩ := drop_can (w0 := w) (y := none) (good_zero hw.good (fun _ => ⟨rfl, rfl⟩)) hv hi (fun p e => names hw hi e)
      (by
        intro p e; subst e
        simp only [carefulCall, gone, h1] at hc
        simp [orc] at hc ⊢
        omega)
      (by
        intro p n e; subst e
        simp only [carefulCall, gone, h1] at hc
        simp [orc] at hc ⊢
        omega)
    obtain ⟨w2, a2, b2⟩ := live_dropRef a
    refine ⟨(put w2 i none, none), by simp [step, get_of hi, a2], ?_⟩
    show Live w2.st
    rw [b2]; exact b
  | assign i j =>
    obtain ⟨x, h1, h2⟩ := at_bind hs
    obtain ⟨y, g2, h3⟩ := at_bind h2
    have hi := of_at h1
    have hj := of_at g2
    have key : alike x y = true → x.ptr ≠ y.ptr → ∃ w1 w2, addRef w y = .ok w1 ∧ dropRef (put w1 i (some y)) x = .ok w2 ∧ Live w2.st := by
      intro hal hne
      have hy : ∀ q n, y ≠ .cb q n := by intro q n e; subst e; cases x <;> simp [alike] at hal
      have hx : ∀ q n, x ≠ .cb q n := by intro q n e; subst e; cases y <;> simp [alike] at hal
      obtain ⟨w1, a, b⟩ := copy_can hw hv hf hj hy rfl (by
        intro p e; subst e
        have := (sources_has hj p).1
        simp [sc] at this
        omega)
      obtain ⟨e, g⟩ := good_addRef hw.good a
      obtain ⟨w2, a2, b2⟩ := drop_can (w0 := w) (y := some y) g b hi (by
          intro p ep
          obtain ⟨s, hs⟩ := names hw hi ep
          have hlen : w1.st.length = w.st.length := by
            have := congrArg List.length g.1
            simpa using this
          have := (List.getElem?_eq_some_iff.1 hs).1
          exact ⟨_, List.getElem?_eq_getElem (by omega)⟩)
        (by
          intro p ex; subst ex
          simp only [carefulCall, gone, h1, g2, Option.bind_some] at hc
          rw [if_neg hne] at hc
          have hne' : y.ptr ≠ some p := fun e => hne e.symm
          have hz : orc (some y) p = 0 := by
            match y, hne' with
            | .src _, _ => rfl
            | .tok q, hn => simp [Hd.ptr] at hn; simp [orc, rc, hn]
            | .cb q _, hn => simp [Hd.ptr] at hn; simp [orc, rc, hn]
          rw [hz]
          simp at hc ⊢
          omega)
        (by intro p n ex; exact absurd ex (hx _ _))
      exact ⟨w1, w2, a, a2, b2⟩
    match x, y, h3, hi, hj, key with
    | .src p, .src q, h3, hi, hj, key =>
      by_cases e : p = q
      · exact ⟨(w, none), by simp [step, get_of hi, get_of hj, e], hv⟩
      · obtain ⟨w1, w2, a, a2, b⟩ := key rfl e
        exact ⟨(w2, none), by simp [step, get_of hi, get_of hj, e, a, a2], b⟩
    | .tok p, .tok q, h3, hi, hj, key =>
      by_cases e : p = q
      · exact ⟨(w, none), by simp [step, get_of hi, get_of hj, e], hv⟩
      · obtain ⟨w1, w2, a, a2, b⟩ := key rfl e
        exact ⟨(w2, none), by simp [step, get_of hi, get_of hj, e, a, a2], b⟩
    | .src _, .tok _, h3, _, _, _ => simp [alike] at h3
    | .src _, .cb _ _, h3, _, _, _ => simp [alike] at h3
    | .tok _, .src _, h3, _, _, _ => simp [alike] at h3
    | .tok _, .cb _ _, h3, _, _, _ => simp [alike] at h3
    | .cb _ _, .src _, h3, _, _, _ => simp [alike] at h3
    | .cb _ _, .tok _, h3, _, _, _ => simp [alike] at h3
    | .cb _ _, .cb _ _, h3, _, _, _ => simp [alike] at h3
  | moveAssign i j =>
    obtain ⟨x, h1, h2⟩ := at_bind hs
    obtain ⟨y, g2, h3⟩ := at_bind h2
    have hi := of_at h1
    have hj := of_at g2
    have hgood : Good w.st (fun p => sources (w.hs.set j (some y.empty)) p + osc (some y) p) (fun p => refs (w.hs.set j (some y.empty)) p + orc (some y) p)
        (w.st.map (·.stop)) := by
      refine good_congr hw.good (fun p => ?_) (fun p => ?_)
      · have := sources_set w.hs j (some y) (some y.empty) p hj
        have e := (sc_none (ptr_empty y) p).1
        simp only [osc] at this ⊢
        omega
      · have := refs_set w.hs j (some y) (some y.empty) p hj
        have e := (sc_none (ptr_empty y) p).2
        simp only [orc] at this ⊢
        omega
    have key : alike x y = true → ∃ x' w2, (w.hs.set j (some y.empty))[i]? = some (some x') ∧ alike x' y = true ∧
        dropRef (put (put w j (some y.empty)) i (some y)) x' = .ok w2 ∧ Live w2.st := by
      intro hal
      by_cases e : i = j
      · subst e
        rw [hi] at hj
        cases hj
        have hl := (List.getElem?_eq_some_iff.1 hi).1
        refine ⟨x.empty, put (put w i (some x.empty)) i (some x), by simp [hl], ?_, ?_, hv⟩
        · cases x <;> simp [alike] at hal <;> rfl
        · cases x <;> rfl
      · have hi' : (w.hs.set j (some y.empty))[i]? = some (some x) := by rw [List.getElem?_set_ne (by omega), hi]
        have hx : ∀ q n, x ≠ .cb q n := by intro q n e; subst e; cases y <;> simp [alike] at hal
        obtain ⟨w2, a2, b2⟩ := drop_can (w0 := put w j (some y.empty)) (w := put w j (some y.empty)) (y := some y) hgood hv hi' (fun p e => names (w := w) hw hi e)
          (by
            intro p ex; subst ex
            simp only [carefulCall, gone, h1] at hc
            rw [if_neg e] at hc
            have h4 := sources_set w.hs j (some y) (some y.empty) p hj
            have h5 := refs_set w.hs j (some y) (some y.empty) p hj
            have e1 := (sc_none (ptr_empty y) p).1
            have e2 := (sc_none (ptr_empty y) p).2
            have e3 : osc (some y) p = 0 := by
              match y, hal with
              | .tok _, _ => rfl
            show sources (w.hs.set j (some y.empty)) p ≠ 0 ∨ refs (w.hs.set j (some y.empty)) p + orc (some y) p = 1
            simp only [osc, orc] at h4 h5 e3 ⊢
            simp at hc
            omega)
          (by intro p n ex; exact absurd ex (hx _ _))
        exact ⟨x, w2, hi', hal, a2, b2⟩
    match x, y, h3, hi, hj, key with
    | .src p, .src q, h3, hi, hj, key =>
      obtain ⟨x', w2, a, a1, a2, b⟩ := key rfl
      have a' : get (put w j (some (.src none))) i = .ok x' := get_of a
      match x', a', a1, a2 with
      | .src p', a', a1, a2 =>
        have a2 : dropRef (put (put w j (some (.src none))) i (some (.src q))) (.src p') = .ok w2 := a2
        exact ⟨(w2, none), by simp [step, get_of hi, get_of hj, a', a2], b⟩
    | .tok p, .tok q, h3, hi, hj, key =>
      obtain ⟨x', w2, a, a1, a2, b⟩ := key rfl
      have a' : get (put w j (some (.tok none))) i = .ok x' := get_of a
      match x', a', a1, a2 with
      | .tok p', a', a1, a2 =>
        have a2 : dropRef (put (put w j (some (.tok none))) i (some (.tok q))) (.tok p') = .ok w2 := a2
        exact ⟨(w2, none), by simp [step, get_of hi, get_of hj, a', a2], b⟩
    | .src _, .tok _, h3, _, _, _ => simp [alike] at h3
    | .src _, .cb _ _, h3, _, _, _ => simp [alike] at h3
    | .tok _, .src _, h3, _, _, _ => simp [alike] at h3
    | .tok _, .cb _ _, h3, _, _, _ => simp [alike] at h3
    | .cb _ _, .src _, h3, _, _, _ => simp [alike] at h3
    | .cb _ _, .tok _, h3, _, _, _ => simp [alike] at h3
    | .cb _ _, .cb _ _, h3, _, _, _ => simp [alike] at h3
  | swap i j =>
    obtain ⟨x, h1, h2⟩ := at_bind hs
    obtain ⟨y, g2, h3⟩ := at_bind h2
    have hi := of_at h1
    have hj := of_at g2
    match x, y, h3, hi, hj with
    | .src p, .src q, h3, hi, hj => exact ⟨_, by simp only [step, get_of hi, get_of hj, Res.ok_bind]; rfl, hv⟩
    | .tok p, .tok q, h3, hi, hj => exact ⟨_, by simp only [step, get_of hi, get_of hj, Res.ok_bind]; rfl, hv⟩
    | .src _, .tok _, h3, _, _ => simp [alike] at h3
    | .src _, .cb _ _, h3, _, _ => simp [alike] at h3
    | .tok _, .src _, h3, _, _ => simp [alike] at h3
    | .tok _, .cb _ _, h3, _, _ => simp [alike] at h3
    | .cb _ _, .src _, h3, _, _ => simp [alike] at h3
    | .cb _ _, .tok _, h3, _, _ => simp [alike] at h3
    | .cb _ _, .cb _ _, h3, _, _ => simp [alike] at h3
  | same i j =>
    obtain ⟨x, h1, h2⟩ := at_bind hs
    obtain ⟨y, g2, h3⟩ := at_bind h2
    have hi := of_at h1
    have hj := of_at g2
    match x, y, h3, hi, hj with
    | .src p, .src q, h3, hi, hj => exact ⟨_, by simp only [step, get_of hi, get_of hj, Res.ok_bind]; rfl, hv⟩
    | .tok p, .tok q, h3, hi, hj => exact ⟨_, by simp only [step, get_of hi, get_of hj, Res.ok_bind]; rfl, hv⟩
    | .src _, .tok _, h3, _, _ => simp [alike] at h3
    | .src _, .cb _ _, h3, _, _ => simp [alike] at h3
    | .tok _, .src _, h3, _, _ => simp [alike] at h3
    | .tok _, .cb _ _, h3, _, _ => simp [alike] at h3
    | .cb _ _, .src _, h3, _, _ => simp [alike] at h3
    | .cb _ _, .tok _, h3, _, _ => simp [alike] at h3
    | .cb _ _, .cb _ _, h3, _, _ => simp [alike] at h3
  | requested i =>
    obtain ⟨k, h1, h2⟩ := at_bind hs
    have hi := of_at h1
    match k, h2, hi with
    | .src none, h2, hi => exact ⟨(w, some false), by simp [step, get_of hi], hv⟩
    | .tok none, h2, hi => exact ⟨(w, some false), by simp [step, get_of hi], hv⟩
    | .src (some p), h2, hi =>
      obtain ⟨s, a, b, g⟩ := alive hw hv hi (p := p) rfl
      exact ⟨(w, some (isStop s.word)), by simp [step, get_of hi, word_can a g b], hv⟩
    | .tok (some p), h2, hi =>
      obtain ⟨s, a, b, g⟩ := alive hw hv hi (p := p) rfl
      exact ⟨(w, some (isStop s.word)), by simp [step, get_of hi, word_can a g b], hv⟩
    | .cb _ _, h2, hi => simp [alike] at h2
  | possible i =>
    obtain ⟨k, h1, h2⟩ := at_bind hs
    have hi := of_at h1
    match k, h2, hi with
    | .src q, h2, hi => exact ⟨(w, some q.isSome), by simp [step, get_of hi], hv⟩
    | .tok none, h2, hi => exact ⟨(w, some false), by simp [step, get_of hi], hv⟩
    | .tok (some p), h2, hi =>
      obtain ⟨s, a, b, g⟩ := alive hw hv hi (p := p) rfl
      exact ⟨(w, some (isPossible s.word)), by simp [step, get_of hi, word_can a g b], hv⟩
    | .cb _ _, h2, hi => cases h2
  | request i =>
    obtain ⟨k, h1, h2⟩ := at_bind hs
    have hi := of_at h1
    match k, h2, hi with
    | .src none, h2, hi => exact ⟨(w, some false), by simp [step, get_of hi], hv⟩
    | .src (some p), h2, hi =>
      obtain ⟨s, a, b, g⟩ := alive hw hv hi (p := p) rfl
      by_cases e : isStop s.word = true
      · exact ⟨(w, some false), by simp [step, get_of hi, word_can a g b, e], hv⟩
      · have hst : s.stop = false := by rw [← isStop_word g.inv]; simpa using e
        have hsrc : sources w.hs p ≠ 0 := by
          have := (sources_has hi p).1
          simp [sc] at this
          omega
        obtain ⟨s1, a1, b1, c1, d1⟩ := can_signal g b hsrc hst
        obtain ⟨s2, a2⟩ := can_unlock b1 c1
        have l1 := live_acc (p := p) hv g.inv rfl a1
        have l2 := live_acc (w := { w with st := w.st.set p s1 }) (p := p) l1 d1 rfl a2
        have e1 := acc_can a a1
        have e2 := acc_can (w := { st := w.st.set p s1, hs := w.hs.map (callAll p) }) (get_set_self a) a2
        refine ⟨({ st := (w.st.set p s1).set p s2, hs := w.hs.map (callAll p) }, some true), ?_, l2⟩
        simp only [step, get_of hi, Res.ok_bind, word_can a g b, e1, e2]
        exact if_neg e
    | .tok _, h2, hi => cases h2
    | .cb _ _, h2, hi => cases h2
  | callback i mv =>
    obtain ⟨k, h1, h2⟩ := at_bind hs
    have hi := of_at h1
    match k, h2, hi with
    | .tok none, h2, hi => exact ⟨(push w (.cb none 0), none), by simp [step, get_of hi], hv⟩
    | .tok (some p), h2, hi =>
      obtain ⟨s, a, b, g⟩ := alive hw hv hi (p := p) rfl
      by_cases e : isStop s.word = true
      · exact ⟨(push w (.cb none 1), none), by simp [step, get_of hi, word_can a g b, e], hv⟩
      by_cases e' : isPossible s.word = true
      · obtain ⟨s1, a1, b1, c1, d1, f1, f2, f3⟩ := can_lock g b
        have l1 := live_acc (p := p) hv g.inv rfl a1
        have e1 := acc_can a a1
        cases mv with
        | true =>
          obtain ⟨s2, a2⟩ := can_unlock b1 c1
          have l2 := live_acc (w := { w with st := w.st.set p s1 }) (p := p) l1 d1 rfl a2
          have e2 := acc_can (w := { w with st := w.st.set p s1 }) (get_set_self a) a2
          refine ⟨(push (put { w with st := (w.st.set p s1).set p s2 } i (some (.tok none))) (.cb (some p) 0), none), ?_, l2⟩
          simp only [step, get_of hi, Res.ok_bind, word_can a g b, e1, e2]
          rw [if_neg e, if_pos e']
          rfl
        | false =>
          have hl := (few_counts hf p).2
          obtain ⟨s2, a2⟩ := can_register b1 c1 (by omega)
          have l2 := live_acc (w := { w with st := w.st.set p s1 }) (p := p) l1 d1 rfl a2
          have e2 := acc_can (w := { w with st := w.st.set p s1 }) (get_set_self a) a2
          refine ⟨(push { w with st := (w.st.set p s1).set p s2 } (.cb (some p) 0), none), ?_, l2⟩
          simp only [step, get_of hi, Res.ok_bind, word_can a g b, e1, e2]
          rw [if_neg e, if_pos e']
          rfl
      · exact ⟨(push w (.cb none 0), none), by simp [step, get_of hi, word_can a g b, e, e'], hv⟩
    | .src _, h2, hi => cases h2
    | .cb _ _, h2, hi => cases h2

end Verif.Stop.Handle
