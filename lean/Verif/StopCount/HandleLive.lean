import Verif.StopCount.HandleStep

namespace Verif.Stop.Handle

open Count (State Op)

/-- A deleted state has no references. -/
def Live (st : List State) : Prop := ∀ (p : Nat) (s : State), st[p]? = some s → s.freed = true → s.sources = 0 ∧ s.refs = 0

theorem live_set {st : List State} {p : Nat} {s' : State} (h : Live st) (h1 : s'.freed = true → s'.sources = 0 ∧ s'.refs = 0) : Live (st.set p s') := by
  intro q t hq
  by_cases e : q = p
  · subst e
    rw [List.getElem?_set] at hq
    simp at hq
    rw [← hq.2]
    exact h1
  · rw [List.getElem?_set_ne (by omega)] at hq
    exact h q t hq

theorem live_not_freed {st : List State} {p : Nat} {s : State} (h : Live st) (hp : st[p]? = some s) (hz : s.sources + s.refs ≠ 0) : s.freed = false := by
  cases e : s.freed
  · rfl
  · have := h p s hp e; omega

/-- A single access that can be made. -/
theorem acc_can {w : World} {p : Nat} {o : Op} {s s' : State} (hp : w.st[p]? = some s) (hs : Count.step s o = .ok s') :
    acc w p o = .ok { w with st := w.st.set p s' } := by
  unfold acc
  rw [hp]
  simp only [hs, Res.ok_bind]

theorem live_acc {w : World} {p : Nat} {o : Op} {s s' : State} (h : Live w.st) (hi : Count.Inv s) (hc : Count.careful s o = true)
    (hs : Count.step s o = .ok s') : Live (w.st.set p s') := by
  refine live_set h ?_
  intro e
  obtain ⟨a, b, _⟩ := Count.careful_step s s' o hi hc (step_fields hs).1 hs e
  exact ⟨a, b⟩

theorem can_newToken {s : State} {a b : Nat} (h : Good1 s a b) (hf : s.freed = false) (hl : b < 2 ^ 31 - 1) : ∃ s', Count.step s .newToken = .ok s' := by
  have h1 := h.inv.some hf
  have h2 := h.ref
  exact ⟨_, by simp only [Count.step, hf, Bool.false_eq_true, if_false]; exact if_pos ⟨h1, by simp only [Count.limit]; omega⟩⟩

theorem can_newSource {s : State} {a b : Nat} (h : Good1 s a b) (hf : s.freed = false) (ha : a ≠ 0) (hl : a < 2 ^ 31 - 1) :
    ∃ s', Count.step s .newSource = .ok s' := by
  have h2 := h.src
  exact ⟨_, by simp only [Count.step, hf, Bool.false_eq_true, if_false]; exact if_pos ⟨by omega, by simp only [Count.limit]; omega⟩⟩

theorem can_drop {s : State} {a b : Nat} (h : Good1 s a b) (hf : s.freed = false) (hb : b ≠ 0) :
    (∃ s', Count.step s .dropToken = .ok s') ∧ ∃ s', Count.step s .dropCallback = .ok s' := by
  have h2 := h.ref
  have hl : ¬ Count.lastOne s = true := by simp [Count.lastOne, h.held]
  constructor <;> exact ⟨_, by simp only [Count.step, hf, Bool.false_eq_true, if_false]; exact if_pos ⟨by omega, hl⟩⟩

theorem can_dropSource {s : State} {a b : Nat} (h : Good1 s a b) (hf : s.freed = false) (ha : a ≠ 0) : ∃ s', Count.step s .dropSource = .ok s' := by
  have h2 := h.src
  have hl : ¬ Count.lastOne s = true := by simp [Count.lastOne, h.held]
  exact ⟨_, by simp only [Count.step, hf, Bool.false_eq_true, if_false]; exact if_pos ⟨by omega, hl⟩⟩

theorem can_ask {s : State} {a b : Nat} (h : Good1 s a b) (hf : s.freed = false) : Count.step s .ask = .ok s := by
  simp only [Count.step, hf, Bool.false_eq_true, if_false]; exact if_pos (h.inv.some hf)

/-- The lock is taken. -/
theorem can_lock {s : State} {a b : Nat} (h : Good1 s a b) (hf : s.freed = false) :
    ∃ s', Count.step s .lock = .ok s' ∧ s'.freed = false ∧ s'.held = true ∧ Count.Inv s' ∧ s'.sources = a ∧ s'.refs = b ∧ s'.stop = s.stop := by
  have e : Count.step s .lock = .ok { s with word := s.word ||| Count.lockBit, held := true } := by
    simp only [Count.step, hf, Bool.false_eq_true, if_false]; exact if_pos ⟨h.inv.some hf, h.held⟩
  exact ⟨_, e, hf, rfl, Count.inv_step _ _ _ h.inv e, h.src, h.ref, rfl⟩

theorem can_signal {s : State} {a b : Nat} (h : Good1 s a b) (hf : s.freed = false) (ha : a ≠ 0) (hs : s.stop = false) :
    ∃ s', Count.step s .signal = .ok s' ∧ s'.freed = false ∧ s'.held = true ∧ Count.Inv s' := by
  have h2 := h.src
  have e : Count.step s .signal = .ok { s with word := s.word ||| Count.stopBit ||| Count.lockBit, held := true, stop := true } := by
    simp only [Count.step, hf, Bool.false_eq_true, if_false]; exact if_pos ⟨by omega, h.held, hs⟩
  exact ⟨_, e, hf, rfl, Count.inv_step _ _ _ h.inv e⟩

theorem can_unlock {s : State} (hf : s.freed = false) (hh : s.held = true) : ∃ s', Count.step s .unlock = .ok s' :=
  ⟨_, by simp only [Count.step, hf, Bool.false_eq_true, if_false]; exact if_pos hh⟩

theorem can_register {s : State} (hf : s.freed = false) (hh : s.held = true) (hl : s.refs < 2 ^ 31 - 1) : ∃ s', Count.step s .register = .ok s' :=
  ⟨_, by simp only [Count.step, hf, Bool.false_eq_true, if_false]; exact if_pos ⟨hh, hl⟩⟩

theorem can_unlink {s : State} (hf : s.freed = false) (hh : s.held = true) (hl : s.refs ≠ 0) : ∃ s', Count.step s .unlink = .ok s' :=
  ⟨_, by simp only [Count.step, hf, Bool.false_eq_true, if_false]; exact if_pos ⟨hh, hl⟩⟩

theorem get_set_self {w : World} {p : Nat} {s s' : State} (h : w.st[p]? = some s) : (w.st.set p s')[p]? = some s' := by
  simp [(List.getElem?_eq_some_iff.1 h).1]

/-- A copy can be made. -/
theorem addRef_can {w : World} {h : Hd} {f g : Nat → Nat} {fl : List Bool} (hw : Good w.st f g fl) (hv : Live w.st)
    (hc : ∀ q n, h ≠ .cb q n)
    (hp : ∀ p, h.ptr = some p → (∃ s, w.st[p]? = some s) ∧ f p + g p ≠ 0 ∧ f p < 2 ^ 31 - 1 ∧ g p < 2 ^ 31 - 1)
    (hs : ∀ p, h = .src (some p) → f p ≠ 0) : ∃ w1, addRef w h = .ok w1 ∧ Live w1.st := by
  match h, hp, hs, hc with
  | .src none, _, _, _ => exact ⟨w, rfl, hv⟩
  | .tok none, _, _, _ => exact ⟨w, rfl, hv⟩
  | .cb q n, _, _, hc => exact absurd rfl (hc q n)
  | .src (some p), hp, hs, _ =>
    obtain ⟨⟨s, a⟩, b, c, d⟩ := hp p rfl
    have hg := hw.2 p s a
    have h1 := hg.src
    have h2 := hg.ref
    have hf := live_not_freed hv a (by omega)
    obtain ⟨s', e⟩ := can_newSource hg hf (hs p rfl) c
    exact ⟨_, acc_can a e, live_acc hv hg.inv rfl e⟩
  | .tok (some p), hp, hs, _ =>
    obtain ⟨⟨s, a⟩, b, c, d⟩ := hp p rfl
    have hg := hw.2 p s a
    have h1 := hg.src
    have h2 := hg.ref
    have hf := live_not_freed hv a (by omega)
    obtain ⟨s', e⟩ := can_newToken hg hf d
    exact ⟨_, acc_can a e, live_acc hv hg.inv rfl e⟩

/-- A destructor can be called. -/
theorem dropRef_can {w : World} {h : Hd} {f g : Nat → Nat} {fl : List Bool} (hw : Good w.st (fun p => f p + sc h p) (fun p => g p + rc h p) fl)
    (hv : Live w.st) (hp : ∀ p, h.ptr = some p → ∃ s, w.st[p]? = some s)
    (hc : ∀ p, h = .tok (some p) → f p ≠ 0 ∨ g p = 0) (hc' : ∀ p n, h = .cb (some p) n → n = 0 ∨ f p ≠ 0 ∨ g p = 0) :
    ∃ w1, dropRef w h = .ok w1 ∧ Live w1.st := by
  match h, hp, hc, hc', hw with
  | .src none, _, _, _, _ => exact ⟨w, rfl, hv⟩
  | .tok none, _, _, _, _ => exact ⟨w, rfl, hv⟩
  | .cb none _, _, _, _, _ => exact ⟨w, rfl, hv⟩
  | .src (some p), hp, hc, hc', hw =>
    obtain ⟨s, a⟩ := hp p rfl
    have hg := hw.2 p s a
    have h1 := hg.src
    have h2 := hg.ref
    simp [sc, rc] at h1 h2
    have hf := live_not_freed hv a (by omega)
    obtain ⟨s', e⟩ := can_dropSource hg hf (by simp [sc])
    exact ⟨_, acc_can a e, live_acc hv hg.inv rfl e⟩
  | .tok (some p), hp, hc, hc', hw =>
    obtain ⟨s, a⟩ := hp p rfl
    have hg := hw.2 p s a
    have h1 := hg.src
    have h2 := hg.ref
    simp [sc, rc] at h1 h2
    have hf := live_not_freed hv a (by omega)
    obtain ⟨s', e⟩ := (can_drop hg hf (by simp [rc])).1
    refine ⟨_, acc_can a e, live_acc hv hg.inv ?_ e⟩
    have := hc p rfl
    simp [Count.careful]
    omega
  | .cb (some p) n, hp, hc, hc', hw =>
    obtain ⟨s, a⟩ := hp p rfl
    have hg := hw.2 p s a
    have h1 := hg.src
    have h2 := hg.ref
    simp [sc, rc] at h1 h2
    have hf := live_not_freed hv a (by omega)
    obtain ⟨s1, e, hf1, hh1, hi1, hs1, hr1, ht1⟩ := can_lock hg hf
    simp [sc, rc] at hs1 hr1
    have l1 := live_acc (p := p) hv hg.inv rfl e
    by_cases hn : n = 0
    · simp only [dropRef, if_pos hn]
      obtain ⟨s2, e2⟩ := can_unlink hf1 hh1 (by omega)
      rw [acc_can a e, Res.ok_bind]
      exact ⟨_, acc_can (w := { w with st := w.st.set p s1 }) (get_set_self a) e2,
        live_acc (w := { w with st := w.st.set p s1 }) (p := p) l1 hi1 rfl e2⟩
    · simp only [dropRef, if_neg hn]
      obtain ⟨s2, e2⟩ := can_unlock hf1 hh1
      obtain ⟨_, f1, f2, f3, f4⟩ := step_fields e2
      have l2 := live_acc (w := { w with st := w.st.set p s1 }) (p := p) l1 hi1 rfl e2
      have hg2 : Good1 s2 (f p) (g p + 1) := good1_eq (good1_locked hg e e2 f3) (by omega) (by omega)
      have a1 : (w.st.set p s1)[p]? = some s1 := get_set_self a
      have a2 : ((w.st.set p s1).set p s2)[p]? = some s2 := by simp [(List.getElem?_eq_some_iff.1 a).1]
      have hf2 : s2.freed = false := live_not_freed l2 a2 (by omega)
      obtain ⟨s3, e3⟩ := (can_drop hg2 hf2 (by omega)).2
      rw [acc_can a e, Res.ok_bind, acc_can (w := { w with st := w.st.set p s1 }) a1 e2, Res.ok_bind]
      refine ⟨_, acc_can (w := { w with st := (w.st.set p s1).set p s2 }) a2 e3,
        live_acc (w := { w with st := (w.st.set p s1).set p s2 }) (p := p) l2 hg2.inv ?_ e3⟩
      have := hc' p n rfl
      simp [Count.careful]
      omega

/-! ## All calls -/

/-- A successful call keeps the invariant and does what it means. -/
theorem step_spec {w w' : World} {c : Call} {a : Option Bool} (hw : Inv w) (h : step w c = .ok (w', a)) :
    Inv w' ∧ spec (abs w) c = some (abs w', a) := by
  cases c with
  | source =>
    cases h
    refine ⟨inv_source hw, ?_⟩
    simp [spec, abs, Count.init]
  | noSource => cases h; exact ⟨inv_push_none hw rfl, rfl⟩
  | noToken => cases h; exact ⟨inv_push_none hw rfl, rfl⟩
  | copy i =>
    obtain ⟨k, h1, h2⟩ := Res.bind_eq_ok.1 h
    obtain ⟨w1, kh2, h3⟩ := Res.bind_eq_ok.1 h2
    cases h3
    have hi := get_ok h1
    obtain ⟨r1, r2⟩ := step_copy hw kh2 hi rfl
    refine ⟨r1, ?_⟩
    have hal : alike k k = true := by cases k <;> first | rfl | cases kh2
    simp [spec, at_of hi, hal, r2]
  | move i =>
    obtain ⟨k, h1, h2⟩ := Res.bind_eq_ok.1 h
    have hi := get_ok h1
    match k, h2, hi with
    | .src p, h2, hi => cases h2; exact ⟨inv_move (h := .src p) hw hi, by simp [spec, at_of hi, alike]; rfl⟩
    | .tok p, h2, hi => cases h2; exact ⟨inv_move (h := .tok p) hw hi, by simp [spec, at_of hi, alike]; rfl⟩
    | .cb _ _, h2, hi => cases h2
  | token i =>
    obtain ⟨k, h1, h2⟩ := Res.bind_eq_ok.1 h
    have hi := get_ok h1
    match k, h2, hi with
    | .src p, h2, hi =>
      obtain ⟨w1, kh2, h3⟩ := Res.bind_eq_ok.1 h2
      cases h3
      obtain ⟨r1, r2⟩ := step_copy (h := .tok p) hw kh2 hi rfl
      exact ⟨r1, by simp [spec, at_of hi, r2]⟩
    | .tok _, h2, hi => cases h2
    | .cb _ _, h2, hi => cases h2
  | destroy i =>
    obtain ⟨k, h1, h2⟩ := Res.bind_eq_ok.1 h
    obtain ⟨w1, kh2, h3⟩ := Res.bind_eq_ok.1 h2
    cases h3
    have hi := get_ok h1
    obtain ⟨r1, r2⟩ := step_destroy hw hi kh2
    exact ⟨r1, by simp [spec, at_of hi, r2]⟩
  | assign i j =>
    obtain ⟨x, h1, h2⟩ := Res.bind_eq_ok.1 h
    obtain ⟨y, kh2, h3⟩ := Res.bind_eq_ok.1 h2
    have hi := get_ok h1
    have hj := get_ok kh2
    match x, y, h3, hi, hj with
    | .src p, .src q, h3, hi, hj =>
      simp only at h3
      split at h3
      · rename_i e
        subst e
        cases h3
        exact ⟨hw, by simp [spec, at_of hi, at_of hj, alike, put_self hi]⟩
      · obtain ⟨w1, kh3, h4⟩ := Res.bind_eq_ok.1 h3
        obtain ⟨w2, kh4, h5⟩ := Res.bind_eq_ok.1 h4
        cases h5
        obtain ⟨r1, r2⟩ := step_assign hw hi hj kh3 kh4
        exact ⟨r1, by simp [spec, at_of hi, at_of hj, alike, r2]⟩
    | .tok p, .tok q, h3, hi, hj =>
      simp only at h3
      split at h3
      · rename_i e
        subst e
        cases h3
        exact ⟨hw, by simp [spec, at_of hi, at_of hj, alike, put_self hi]⟩
      · obtain ⟨w1, kh3, h4⟩ := Res.bind_eq_ok.1 h3
        obtain ⟨w2, kh4, h5⟩ := Res.bind_eq_ok.1 h4
        cases h5
        obtain ⟨r1, r2⟩ := step_assign hw hi hj kh3 kh4
        exact ⟨r1, by simp [spec, at_of hi, at_of hj, alike, r2]⟩
    | .src _, .tok _, h3, _, _ => cases h3
    | .src _, .cb _ _, h3, _, _ => cases h3
    | .tok _, .src _, h3, _, _ => cases h3
    | .tok _, .cb _ _, h3, _, _ => cases h3
    | .cb _ _, _, h3, _, _ => cases h3
  | moveAssign i j =>
    obtain ⟨x, h1, h2⟩ := Res.bind_eq_ok.1 h
    obtain ⟨y, kh2, h3⟩ := Res.bind_eq_ok.1 h2
    have hi := get_ok h1
    have hj := get_ok kh2
    match y, h3, hj with
    | .src q, h3, hj =>
      obtain ⟨x', h3, h4⟩ := Res.bind_eq_ok.1 h3
      have hi' := get_ok h3
      match x', h4, hi' with
      | .src p, h4, hi' =>
        obtain ⟨w2, kh4, h5⟩ := Res.bind_eq_ok.1 h4
        cases h5
        obtain ⟨r1, r2⟩ := step_moveAssign (y := .src q) hw hj hi' kh4
        refine ⟨r1, ?_⟩
        have hal : alike x (.src q) = true := by
          by_cases e : i = j
          · subst e; rw [hi] at hj; cases hj; rfl
          · have hi' : (w.hs.set j (some (.src none)))[i]? = _ := hi'
            rw [List.getElem?_set_ne (by omega), hi] at hi'; cases hi'; rfl
        simp [spec, at_of hi, at_of hj, hal, r2]
      | .tok _, h4, _ => cases h4
      | .cb _ _, h4, _ => cases h4
    | .tok q, h3, hj =>
      obtain ⟨x', h3, h4⟩ := Res.bind_eq_ok.1 h3
      have hi' := get_ok h3
      match x', h4, hi' with
      | .tok p, h4, hi' =>
        obtain ⟨w2, kh4, h5⟩ := Res.bind_eq_ok.1 h4
        cases h5
        obtain ⟨r1, r2⟩ := step_moveAssign (y := .tok q) hw hj hi' kh4
        refine ⟨r1, ?_⟩
        have hal : alike x (.tok q) = true := by
          by_cases e : i = j
          · subst e; rw [hi] at hj; cases hj; rfl
          · have hi' : (w.hs.set j (some (.tok none)))[i]? = _ := hi'
            rw [List.getElem?_set_ne (by omega), hi] at hi'; cases hi'; rfl
        simp [spec, at_of hi, at_of hj, hal, r2]
      | .src _, h4, _ => cases h4
      | .cb _ _, h4, _ => cases h4
    | .cb _ _, h3, _ => cases h3
  | swap i j =>
    obtain ⟨x, h1, h2⟩ := Res.bind_eq_ok.1 h
    obtain ⟨y, kh2, h3⟩ := Res.bind_eq_ok.1 h2
    have hi := get_ok h1
    have hj := get_ok kh2
    match x, y, h3, hi, hj with
    | .src p, .src q, h3, hi, hj => cases h3; exact ⟨inv_swap hw hi hj, by simp [spec, at_of hi, at_of hj, alike]; rfl⟩
    | .tok p, .tok q, h3, hi, hj => cases h3; exact ⟨inv_swap hw hi hj, by simp [spec, at_of hi, at_of hj, alike]; rfl⟩
    | .src _, .tok _, h3, _, _ => cases h3
    | .src _, .cb _ _, h3, _, _ => cases h3
    | .tok _, .src _, h3, _, _ => cases h3
    | .tok _, .cb _ _, h3, _, _ => cases h3
    | .cb _ _, _, h3, _, _ => cases h3
  | same i j =>
    obtain ⟨x, h1, h2⟩ := Res.bind_eq_ok.1 h
    obtain ⟨y, kh2, h3⟩ := Res.bind_eq_ok.1 h2
    have hi := get_ok h1
    have hj := get_ok kh2
    match x, y, h3, hi, hj with
    | .src p, .src q, h3, hi, hj => cases h3; exact ⟨hw, by simp [spec, at_of hi, at_of hj, alike, Hd.ptr]⟩
    | .tok p, .tok q, h3, hi, hj => cases h3; exact ⟨hw, by simp [spec, at_of hi, at_of hj, alike, Hd.ptr]⟩
    | .src _, .tok _, h3, _, _ => cases h3
    | .src _, .cb _ _, h3, _, _ => cases h3
    | .tok _, .src _, h3, _, _ => cases h3
    | .tok _, .cb _ _, h3, _, _ => cases h3
    | .cb _ _, _, h3, _, _ => cases h3
  | requested i =>
    obtain ⟨k, h1, h2⟩ := Res.bind_eq_ok.1 h
    have hi := get_ok h1
    match k, h2, hi with
    | .src none, h2, hi => cases h2; exact ⟨hw, by simp [spec, at_of hi, alike, Hd.ptr]⟩
    | .tok none, h2, hi => cases h2; exact ⟨hw, by simp [spec, at_of hi, alike, Hd.ptr]⟩
    | .src (some p), h2, hi =>
      obtain ⟨x, kh2, h3⟩ := Res.bind_eq_ok.1 h2
      cases h3
      obtain ⟨s, a, b, rfl⟩ := word_ok kh2
      exact ⟨hw, by simp [spec, at_of hi, alike, Hd.ptr, raised_of a, isStop_word (hw.good.2 p s a).inv]⟩
    | .tok (some p), h2, hi =>
      obtain ⟨x, kh2, h3⟩ := Res.bind_eq_ok.1 h2
      cases h3
      obtain ⟨s, a, b, rfl⟩ := word_ok kh2
      exact ⟨hw, by simp [spec, at_of hi, alike, Hd.ptr, raised_of a, isStop_word (hw.good.2 p s a).inv]⟩
    | .cb _ _, h2, hi => cases h2
  | possible i =>
    obtain ⟨k, h1, h2⟩ := Res.bind_eq_ok.1 h
    have hi := get_ok h1
    match k, h2, hi with
    | .src q, h2, hi => cases h2; exact ⟨hw, by simp [spec, at_of hi]⟩
    | .tok none, h2, hi => cases h2; exact ⟨hw, by simp [spec, at_of hi]⟩
    | .tok (some p), h2, hi =>
      obtain ⟨x, kh2, h3⟩ := Res.bind_eq_ok.1 h2
      cases h3
      obtain ⟨s, a, b, rfl⟩ := word_ok kh2
      have hg := hw.good.2 p s a
      refine ⟨hw, ?_⟩
      have e : (abs w).sourced p = decide (s.sources ≠ 0) := by
        rw [Bool.eq_iff_iff, sourced_iff, decide_eq_true_eq, hg.src]; rfl
      simp only [spec, at_of hi, Option.bind_some, raised_of a, isPossible_word hg.inv, e]
    | .cb _ _, h2, hi => cases h2
  | request i =>
    obtain ⟨k, h1, h2⟩ := Res.bind_eq_ok.1 h
    have hi := get_ok h1
    match k, h2, hi with
    | .src none, h2, hi => cases h2; exact ⟨hw, by simp [spec, at_of hi]⟩
    | .src (some p), h2, hi =>
      obtain ⟨x, kh2, h3⟩ := Res.bind_eq_ok.1 h2
      obtain ⟨s, a, b, rfl⟩ := word_ok kh2
      have hr : isStop s.word = (abs w).raised p := by rw [raised_of a, isStop_word (hw.good.2 p s a).inv]
      rw [hr] at h3
      split at h3
      · rename_i e
        cases h3
        exact ⟨hw, by simp [spec, at_of hi, e]⟩
      · rename_i e
        obtain ⟨w1, kh3, h4⟩ := Res.bind_eq_ok.1 h3
        obtain ⟨w2, kh4, h5⟩ := Res.bind_eq_ok.1 h4
        cases h5
        obtain ⟨r1, r2⟩ := step_request hw (by simpa using e) kh3 kh4
        exact ⟨r1, by simp [spec, at_of hi, e, r2]⟩
    | .tok _, h2, hi => cases h2
    | .cb _ _, h2, hi => cases h2
  | callback i mv =>
    obtain ⟨k, h1, h2⟩ := Res.bind_eq_ok.1 h
    have hi := get_ok h1
    match k, h2, hi with
    | .tok none, h2, hi => cases h2; exact ⟨inv_push_none hw rfl, by simp [spec, at_of hi]; rfl⟩
    | .tok (some p), h2, hi =>
      obtain ⟨x, kh2, h3⟩ := Res.bind_eq_ok.1 h2
      obtain ⟨s, a, b, rfl⟩ := word_ok kh2
      have hg := hw.good.2 p s a
      have hr : isStop s.word = (abs w).raised p := by rw [raised_of a, isStop_word hg.inv]
      have e : (abs w).sourced p = decide (s.sources ≠ 0) := by
        rw [Bool.eq_iff_iff, sourced_iff, decide_eq_true_eq, hg.src]; rfl
      rw [hr] at h3
      split at h3
      · rename_i er
        cases h3
        exact ⟨inv_push_none hw rfl, by simp [spec, at_of hi, er]; rfl⟩
      · rename_i er
        have er : (abs w).raised p = false := by simpa using er
        have hp : isPossible s.word = (abs w).sourced p := by rw [isPossible_word hg.inv, e, ← raised_of a, er]; simp
        rw [hp] at h3
        split at h3
        · rename_i es
          obtain ⟨w1, kh3, h4⟩ := Res.bind_eq_ok.1 h3
          cases mv with
          | true =>
            obtain ⟨w2, kh4, h5⟩ := Res.bind_eq_ok.1 h4
            cases h5
            obtain ⟨r1, r2⟩ := step_take hw hi er kh3 kh4
            exact ⟨r1, by simp [spec, at_of hi, er, es, r2]⟩
          | false =>
            obtain ⟨w2, kh4, h5⟩ := Res.bind_eq_ok.1 h4
            cases h5
            obtain ⟨r1, r2⟩ := step_register hw hi er kh3 kh4
            exact ⟨r1, by simp [spec, at_of hi, er, es, r2]⟩
        · rename_i es
          cases h3
          exact ⟨inv_push_none hw rfl, by simp [spec, at_of hi, er, es]; rfl⟩
    | .src _, h2, hi => cases h2
    | .cb _ _, h2, hi => cases h2

end Verif.Stop.Handle
