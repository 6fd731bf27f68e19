import Verif.StopCount.HandleSpec
import Verif.StopCount.Inv

namespace Verif.Stop.Handle

open Count (State Op)

/-- A state that has these numbers of sources and other references. -/
structure Good1 (s : State) (a b : Nat) : Prop where
  inv : Count.Inv s
  keeps : s.sources ≠ 0 → s.freed = false
  held : s.held = false
  src : s.sources = a
  ref : s.refs = b

def Good (st : List State) (f g : Nat → Nat) (fl : List Bool) : Prop :=
  st.map (·.stop) = fl ∧ ∀ p s, st[p]? = some s → Good1 s (f p) (g p)

/-- References of one object. -/
def sc (h : Hd) (p : Nat) : Nat := match h with
  | .src q => if q = some p then 1 else 0
  | _ => 0

def rc (h : Hd) (p : Nat) : Nat := match h with
  | .tok q => if q = some p then 1 else 0
  | .cb q _ => if q = some p then 1 else 0
  | _ => 0

theorem acc_ok {w w' : World} {p : Nat} {o : Op} (h : acc w p o = .ok w') :
    ∃ s s', w.st[p]? = some s ∧ Count.step s o = .ok s' ∧ w' = { w with st := w.st.set p s' } := by
  unfold acc at h
  cases e : w.st[p]? with
  | none => rw [e] at h; cases h
  | some s =>
    rw [e] at h
    obtain ⟨s', h1, h2⟩ := Res.bind_eq_ok.1 h
    cases h2
    exact ⟨s, s', rfl, h1, rfl⟩

/-- What an access does to the counts. -/
theorem step_fields {s s' : State} {o : Op} (h : Count.step s o = .ok s') :
    s.freed = false ∧ match o with
    | .newToken => s'.sources = s.sources ∧ s'.refs = s.refs + 1 ∧ s'.held = s.held ∧ s'.stop = s.stop
    | .dropToken | .dropCallback => s'.sources = s.sources ∧ s'.refs + 1 = s.refs ∧ s'.held = s.held ∧ s'.stop = s.stop
    | .newSource => s'.sources = s.sources + 1 ∧ s'.refs = s.refs ∧ s'.held = s.held ∧ s'.stop = s.stop
    | .dropSource => s'.sources + 1 = s.sources ∧ s'.refs = s.refs ∧ s'.held = s.held ∧ s'.stop = s.stop
    | .ask => s' = s
    | .lock => s'.sources = s.sources ∧ s'.refs = s.refs ∧ s'.held = true ∧ s'.stop = s.stop
    | .signal => s'.sources = s.sources ∧ s'.refs = s.refs ∧ s'.held = true ∧ s'.stop = true
    | .unlock => s'.sources = s.sources ∧ s'.refs = s.refs ∧ s'.held = false ∧ s'.stop = s.stop
    | .register => s'.sources = s.sources ∧ s'.refs = s.refs + 1 ∧ s'.held = false ∧ s'.stop = s.stop
    | .unlink => s'.sources = s.sources ∧ s'.refs + 1 = s.refs ∧ s'.held = false ∧ s'.stop = s.stop := by
  unfold Count.step at h
  by_cases hf : s.freed = true
  · rw [if_pos hf] at h
    split at h <;> cases h
  · have hf : s.freed = false := by simpa using hf
    rw [if_neg (by simp [hf])] at h
    refine ⟨hf, ?_⟩
    cases o with
    | ask => obtain ⟨_, rfl⟩ := Count.if_ok h; rfl
    | dropToken => obtain ⟨⟨c, _⟩, rfl⟩ := Count.if_ok h; refine ⟨rfl, ?_, rfl, rfl⟩; show s.refs - 1 + 1 = s.refs; omega
    | dropCallback => obtain ⟨⟨c, _⟩, rfl⟩ := Count.if_ok h; refine ⟨rfl, ?_, rfl, rfl⟩; show s.refs - 1 + 1 = s.refs; omega
    | dropSource => obtain ⟨⟨c, _⟩, rfl⟩ := Count.if_ok h; refine ⟨?_, rfl, rfl, rfl⟩; show s.sources - 1 + 1 = s.sources; omega
    | unlink => obtain ⟨⟨_, c⟩, rfl⟩ := Count.if_ok h; refine ⟨rfl, ?_, rfl, rfl⟩; show s.refs - 1 + 1 = s.refs; omega
    | _ => obtain ⟨_, rfl⟩ := Count.if_ok h; exact ⟨rfl, rfl, rfl, rfl⟩

theorem map_set_stop (st : List State) (p : Nat) (s' : State) :
    (st.set p s').map (·.stop) = (st.map (·.stop)).set p s'.stop := by
  simp [List.map_set]

theorem set_same {α : Type} (l : List α) (p : Nat) (a : α) (h : l[p]? = some a) : l.set p a = l := by
  obtain ⟨h1, rfl⟩ := List.getElem?_eq_some_iff.1 h
  exact List.set_getElem_self h1

theorem good_set {st : List State} {f g f' g' : Nat → Nat} {fl : List Bool} {p : Nat} {s s' : State} (h : Good st f g fl) (hp : st[p]? = some s)
    (h1 : Good1 s' (f' p) (g' p)) (h3 : ∀ q, q ≠ p → f' q = f q ∧ g' q = g q) :
    Good (st.set p s') f' g' (fl.set p s'.stop) := by
  obtain ⟨ha, hb⟩ := h
  constructor
  · rw [map_set_stop st p s', ha]
  · intro q t hq
    by_cases e : q = p
    · subst e
      rw [List.getElem?_set] at hq
      have hl : q < st.length := (List.getElem?_eq_some_iff.1 hp).1
      simp [hl] at hq
      subst hq
      exact h1
    · rw [List.getElem?_set_ne (by omega)] at hq
      have := hb q t hq
      rw [(h3 q e).1, (h3 q e).2]
      exact this

theorem good_flag {st : List State} {f g : Nat → Nat} {fl : List Bool} {p : Nat} {s : State} (h : Good st f g fl) (hp : st[p]? = some s) :
    fl[p]? = some s.stop := by
  rw [← h.1]; simp [hp]

/-- The counts of a good state after an access that is not the taking of the lock. -/
theorem good1_step {s s' : State} {o : Op} {a b : Nat} (h : Good1 s a b) (hs : Count.step s o = .ok s') (hh : s'.held = false) :
    Good1 s' s'.sources s'.refs :=
  ⟨Count.inv_step s s' o h.inv hs, Count.inv'_step s s' o h.inv hs, hh, rfl, rfl⟩

/-- Two accesses: take the lock, then release it. -/
theorem good1_locked {s s1 s' : State} {o o' : Op} {a b : Nat} (h : Good1 s a b) (h1 : Count.step s o' = .ok s1)
    (hs : Count.step s1 o = .ok s') (hh : s'.held = false) :
    Good1 s' s'.sources s'.refs :=
  ⟨Count.inv_step s1 s' o (Count.inv_step s s1 o' h.inv h1) hs, Count.inv'_step s1 s' o (Count.inv_step s s1 o' h.inv h1) hs, hh, rfl, rfl⟩

theorem good1_eq {s : State} {a b a' b' : Nat} (h : Good1 s a b) (h1 : s.sources = a') (h2 : s.refs = b') : Good1 s a' b' :=
  ⟨h.inv, h.keeps, h.held, h1, h2⟩

/-- Two accesses to the same state. -/
theorem acc2_ok {w w' w1 : World} {p : Nat} {o o' : Op} (h1 : acc w p o = .ok w1) (h2 : acc w1 p o' = .ok w') :
    ∃ s s1 s', w.st[p]? = some s ∧ Count.step s o = .ok s1 ∧ Count.step s1 o' = .ok s' ∧ w' = { w with st := w.st.set p s' } := by
  obtain ⟨s, s1, a, b, rfl⟩ := acc_ok h1
  obtain ⟨t, s', c, d, rfl⟩ := acc_ok h2
  have hl : p < w.st.length := (List.getElem?_eq_some_iff.1 a).1
  simp [hl] at c
  subst c
  exact ⟨s, s1, s', a, b, d, by simp⟩

/-- A single access that leaves the flags. -/
theorem good_acc {w w' : World} {p : Nat} {o : Op} {f g f' g' : Nat → Nat} {fl : List Bool} (h : Good w.st f g fl) (ha : acc w p o = .ok w')
    (hk : ∀ s s', Good1 s (f p) (g p) → Count.step s o = .ok s' → s'.held = false ∧ s'.sources = f' p ∧ s'.refs = g' p ∧ s'.stop = s.stop)
    (h3 : ∀ q, q ≠ p → f' q = f q ∧ g' q = g q) : w'.hs = w.hs ∧ Good w'.st f' g' fl := by
  obtain ⟨s, s', a, b, rfl⟩ := acc_ok ha
  have hg := h.2 p s a
  obtain ⟨k1, k2, k3, k4⟩ := hk s s' hg b
  refine ⟨rfl, ?_⟩
  have := good_set h a (good1_eq (good1_step hg b k1) k2 k3) h3
  rwa [k4, set_same _ _ _ (good_flag h a)] at this

theorem good_acc2 {w w1 w' : World} {p : Nat} {o o' : Op} {f g f' g' : Nat → Nat} {fl : List Bool} (h : Good w.st f g fl) (ha : acc w p o = .ok w1)
    (ha' : acc w1 p o' = .ok w')
    (hk : ∀ s s1 s', Good1 s (f p) (g p) → Count.step s o = .ok s1 → Count.step s1 o' = .ok s' →
      s'.held = false ∧ s'.sources = f' p ∧ s'.refs = g' p ∧ s'.stop = s.stop)
    (h3 : ∀ q, q ≠ p → f' q = f q ∧ g' q = g q) : w'.hs = w.hs ∧ Good w'.st f' g' fl := by
  obtain ⟨s, s1, s', a, b, c, rfl⟩ := acc2_ok ha ha'
  have hg := h.2 p s a
  obtain ⟨k1, k2, k3, k4⟩ := hk s s1 s' hg b c
  refine ⟨rfl, ?_⟩
  have := good_set h a (good1_eq (good1_locked hg b c k1) k2 k3) h3
  rwa [k4, set_same _ _ _ (good_flag h a)] at this

theorem good_congr {st : List State} {f g f' g' : Nat → Nat} {fl : List Bool} (h : Good st f g fl) (h1 : ∀ p, f' p = f p) (h2 : ∀ p, g' p = g p) :
    Good st f' g' fl := by
  have e1 : f' = f := funext h1
  have e2 : g' = g := funext h2
  rwa [e1, e2]

/-- A copy takes the reference of its object. -/
theorem good_addRef {w w' : World} {h : Hd} {f g : Nat → Nat} {fl : List Bool} (hw : Good w.st f g fl) (ha : addRef w h = .ok w') :
    w'.hs = w.hs ∧ Good w'.st (fun p => f p + sc h p) (fun p => g p + rc h p) fl := by
  match h, ha with
  | .src none, ha => cases ha; exact ⟨rfl, good_congr hw (by simp [sc]) (by simp [rc])⟩
  | .tok none, ha => cases ha; exact ⟨rfl, good_congr hw (by simp [sc]) (by simp [rc])⟩
  | .cb _ _, ha => cases ha
  | .src (some p), ha =>
    refine good_acc hw ha ?_ ?_
    · intro s s' hg hs
      obtain ⟨_, a, b, c, d⟩ := step_fields hs
      exact ⟨by rw [c, hg.held], by simp [a, hg.src, sc], by simp [b, hg.ref, rc], d⟩
    · intro q hq; simp [sc, rc, Ne.symm hq]
  | .tok (some p), ha =>
    refine good_acc hw ha ?_ ?_
    · intro s s' hg hs
      obtain ⟨_, a, b, c, d⟩ := step_fields hs
      exact ⟨by rw [c, hg.held], by simp [a, hg.src, sc], by simp [b, hg.ref, rc], d⟩
    · intro q hq; simp [sc, rc, Ne.symm hq]

/-- A destructor gives it back. -/
theorem good_dropRef {w w' : World} {h : Hd} {f g : Nat → Nat} {fl : List Bool} (hw : Good w.st (fun p => f p + sc h p) (fun p => g p + rc h p) fl)
    (ha : dropRef w h = .ok w') : w'.hs = w.hs ∧ Good w'.st f g fl := by
  match h, ha with
  | .src none, ha => cases ha; exact ⟨rfl, good_congr hw (by simp [sc]) (by simp [rc])⟩
  | .tok none, ha => cases ha; exact ⟨rfl, good_congr hw (by simp [sc]) (by simp [rc])⟩
  | .cb none _, ha => cases ha; exact ⟨rfl, good_congr hw (by simp [sc]) (by simp [rc])⟩
  | .src (some p), ha =>
    refine good_acc hw ha ?_ ?_
    · intro s s' hg hs
      obtain ⟨_, a, b, c, d⟩ := step_fields hs
      have h1 := hg.src
      have h2 := hg.ref
      simp [sc, rc] at h1 h2
      exact ⟨by rw [c, hg.held], by omega, by omega, d⟩
    · intro q hq; simp [sc, rc, Ne.symm hq]
  | .tok (some p), ha =>
    refine good_acc hw ha ?_ ?_
    · intro s s' hg hs
      obtain ⟨_, a, b, c, d⟩ := step_fields hs
      have h1 := hg.src
      have h2 := hg.ref
      simp [sc, rc] at h1 h2
      exact ⟨by rw [c, hg.held], by omega, by omega, d⟩
    · intro q hq; simp [sc, rc, Ne.symm hq]
  | .cb (some p) n, ha =>
    by_cases hn : n = 0
    · simp only [dropRef, if_pos hn] at ha
      obtain ⟨w1, ha1, ha2⟩ := Res.bind_eq_ok.1 ha
      refine good_acc2 hw ha1 ha2 ?_ ?_
      · intro s s1 s' hg hs hs'
        obtain ⟨_, a, b, c, d⟩ := step_fields hs
        obtain ⟨_, a', b', c', d'⟩ := step_fields hs'
        have h1 := hg.src
        have h2 := hg.ref
        simp [sc, rc] at h1 h2
        exact ⟨c', by omega, by omega, by rw [d', d]⟩
      · intro q hq; simp [sc, rc, Ne.symm hq]
    · simp only [dropRef, if_neg hn] at ha
      obtain ⟨w1, ha1, ha2⟩ := Res.bind_eq_ok.1 ha
      obtain ⟨w2, ha2, ha3⟩ := Res.bind_eq_ok.1 ha2
      obtain ⟨e1, hw2⟩ := good_acc2 (f' := fun q => f q + sc (.cb (some p) n) q) (g' := fun q => g q + rc (.cb (some p) n) q) hw ha1 ha2 (by
        intro s s1 s' hg hs hs'
        obtain ⟨_, a, b, c, d⟩ := step_fields hs
        obtain ⟨_, a', b', c', d'⟩ := step_fields hs'
        have h1 := hg.src
        have h2 := hg.ref
        exact ⟨c', by omega, by omega, by rw [d', d]⟩) (fun _ _ => ⟨rfl, rfl⟩)
      obtain ⟨e2, hw3⟩ := good_acc (f' := f) (g' := g) hw2 ha3 (by
        intro s s' hg hs
        obtain ⟨_, a, b, c, d⟩ := step_fields hs
        have h1 := hg.src
        have h2 := hg.ref
        simp [sc, rc] at h1 h2
        exact ⟨by rw [c, hg.held], by omega, by omega, d⟩) (by intro q hq; simp [sc, rc, Ne.symm hq])
      exact ⟨e2.trans e1, hw3⟩

/-! ## Counting objects -/

def osc (h : Option Hd) (p : Nat) : Nat := match h with
  | some h => sc h p
  | none => 0

def orc (h : Option Hd) (p : Nat) : Nat := match h with
  | some h => rc h p
  | none => 0

theorem sources_cons (h : Option Hd) (l : List (Option Hd)) (p : Nat) : sources (h :: l) p = sources l p + osc h p := by
  unfold sources
  rw [List.countP_cons]
  match h with
  | none => simp [osc]
  | some (.src q) => simp [osc, sc]
  | some (.tok _) => simp [osc, sc]
  | some (.cb _ _) => simp [osc, sc]

theorem refs_cons (h : Option Hd) (l : List (Option Hd)) (p : Nat) : refs (h :: l) p = refs l p + orc h p := by
  unfold refs
  rw [List.countP_cons]
  match h with
  | none => simp [orc, isRef]
  | some (.src q) => simp [orc, rc, isRef]
  | some (.tok _) => simp [orc, rc, isRef]
  | some (.cb _ _) => simp [orc, rc, isRef]

theorem sources_push (l : List (Option Hd)) (h : Hd) (p : Nat) : sources (l ++ [some h]) p = sources l p + sc h p := by
  induction l with
  | nil => rw [List.nil_append, sources_cons]; rfl
  | cons a l ih => rw [List.cons_append, sources_cons, sources_cons, ih]; omega

theorem refs_push (l : List (Option Hd)) (h : Hd) (p : Nat) : refs (l ++ [some h]) p = refs l p + rc h p := by
  induction l with
  | nil => rw [List.nil_append, refs_cons]; rfl
  | cons a l ih => rw [List.cons_append, refs_cons, refs_cons, ih]; omega

theorem sources_set (l : List (Option Hd)) (i : Nat) (x y : Option Hd) (p : Nat) (h : l[i]? = some x) :
    sources (l.set i y) p + osc x p = sources l p + osc y p := by
  induction l generalizing i with
  | nil => simp at h
  | cons a l ih =>
    cases i with
    | zero => simp at h; subst h; rw [List.set_cons_zero, sources_cons, sources_cons]; omega
    | succ i =>
      rw [List.set_cons_succ, sources_cons, sources_cons]
      have := ih i (by simpa using h)
      omega

theorem refs_set (l : List (Option Hd)) (i : Nat) (x y : Option Hd) (p : Nat) (h : l[i]? = some x) :
    refs (l.set i y) p + orc x p = refs l p + orc y p := by
  induction l generalizing i with
  | nil => simp at h
  | cons a l ih =>
    cases i with
    | zero => simp at h; subst h; rw [List.set_cons_zero, refs_cons, refs_cons]; omega
    | succ i =>
      rw [List.set_cons_succ, refs_cons, refs_cons]
      have := ih i (by simpa using h)
      omega

theorem get_ok {w : World} {i : Nat} {h : Hd} (e : get w i = .ok h) : w.hs[i]? = some (some h) := by
  unfold get at e
  split at e
  · rename_i x hx; cases e; exact hx
  · cases e

theorem get_of {w : World} {i : Nat} {h : Hd} (e : w.hs[i]? = some (some h)) : get w i = .ok h := by
  unfold get; rw [e]

theorem at_of {w : World} {i : Nat} {h : Hd} (e : w.hs[i]? = some (some h)) : (abs w).at' i = some h := by
  unfold View.at' abs; rw [e]; rfl

theorem of_at {w : World} {i : Nat} {h : Hd} (e : (abs w).at' i = some h) : w.hs[i]? = some (some h) := by
  unfold View.at' abs at e
  cases e' : w.hs[i]? with
  | none => simp [e'] at e
  | some x => simp [e'] at e; rw [e]

theorem sourced_iff (v : View) (p : Nat) : v.sourced p = true ↔ sources v.hs p ≠ 0 := by
  unfold View.sourced sources
  rw [List.any_eq_true, ← Nat.pos_iff_ne_zero, List.countP_pos_iff]

/-! ## The invariant -/

/-- Every object names a state; a registered callback was called if and only if there was a request. -/
def Named (fl : List Bool) (hs : List (Option Hd)) : Prop :=
  ∀ (i : Nat) (h : Hd) (p : Nat), hs[i]? = some (some h) → h.ptr = some p → ∃ b, fl[p]? = some b ∧
    ∀ n, h = .cb (some p) n → n = if b then 1 else 0

/-- Every state has the counts of the objects. -/
structure Inv (w : World) : Prop where
  good : Good w.st (sources w.hs) (refs w.hs) (w.st.map (·.stop))
  named : Named (w.st.map (·.stop)) w.hs

theorem named_push {fl : List Bool} {hs : List (Option Hd)} {h : Hd} (hn : Named fl hs)
    (h1 : ∀ p, h.ptr = some p → ∃ b, fl[p]? = some b ∧ ∀ n, h = .cb (some p) n → n = if b then 1 else 0) :
    Named fl (hs ++ [some h]) := by
  intro i k p hi hp
  by_cases hl : i < hs.length
  · rw [List.getElem?_append_left hl] at hi
    exact hn i k p hi hp
  · rw [List.getElem?_append_right (by omega)] at hi
    have hi0 : i - hs.length = 0 := by
      rcases Nat.eq_zero_or_pos (i - hs.length) with e | e
      · exact e
      · rw [List.getElem?_eq_none (by simp; omega)] at hi; cases hi
    rw [hi0] at hi
    simp at hi
    subst hi
    exact h1 p hp

theorem named_set {fl : List Bool} {hs : List (Option Hd)} {i : Nat} {h : Option Hd} (hn : Named fl hs)
    (h1 : ∀ k p, h = some k → k.ptr = some p → ∃ b, fl[p]? = some b ∧ ∀ n, k = .cb (some p) n → n = if b then 1 else 0) :
    Named fl (hs.set i h) := by
  intro j k p hj hp
  by_cases e : j = i
  · subst e
    rw [List.getElem?_set] at hj
    simp at hj
    exact h1 k p hj.2 hp
  · rw [List.getElem?_set_ne (by omega)] at hj
    exact hn j k p hj hp

theorem mk_inv {w : World} {f g : Nat → Nat} {fl : List Bool} (h1 : Good w.st f g fl) (h2 : ∀ p, sources w.hs p = f p)
    (h3 : ∀ p, refs w.hs p = g p) (h4 : Named fl w.hs) : Inv w ∧ abs w = ⟨fl, w.hs⟩ := by
  have e := h1.1
  subst e
  exact ⟨⟨good_congr h1 h2 h3, h4⟩, rfl⟩

theorem good_self {st : List State} {f g : Nat → Nat} {fl : List Bool} (h : Good st f g fl) : Good st f g (st.map (·.stop)) := ⟨rfl, h.2⟩

theorem word_ok {w : World} {p x : Nat} (h : word w p = .ok x) :
    ∃ s, w.st[p]? = some s ∧ Count.step s .ask = .ok s ∧ x = s.word := by
  unfold word at h
  obtain ⟨w', h1, h2⟩ := Res.bind_eq_ok.1 h
  obtain ⟨s, s', a, b, rfl⟩ := acc_ok h1
  have hl : p < w.st.length := (List.getElem?_eq_some_iff.1 a).1
  simp [hl] at h2
  have e : s' = s := (step_fields b).2
  rw [e] at b h2
  exact ⟨s, a, b, h2.symm⟩

theorem isStop_word {s : State} (h : Count.Inv s) : isStop s.word = s.stop := by
  have h1 := h.word
  simp only [Count.code] at h1
  unfold isStop
  cases e : s.stop <;> simp [e] at h1 ⊢ <;> omega

theorem isPossible_word {s : State} (h : Count.Inv s) : isPossible s.word = (s.stop || decide (s.sources ≠ 0)) := by
  unfold isPossible
  rw [isStop_word h]
  have h1 := h.word
  have h2 := h.refs
  have b1 := Bool.toNat_le s.stop
  have b2 := Bool.toNat_le s.held
  simp only [Count.code] at h1
  congr 1
  by_cases e : s.sources = 0
  · have : Count.less s.word Count.sourceInc = true := by rw [Count.less_true]; simp only [Count.sourceInc]; omega
    simp [this, e]
  · have : Count.less s.word Count.sourceInc = false := by rw [Count.less_false]; simp only [Count.sourceInc]; omega
    simp [this, e]

theorem raised_of {w : World} {p : Nat} {s : State} (h : w.st[p]? = some s) : (abs w).raised p = s.stop := by
  unfold View.raised abs
  simp [h]

end Verif.Stop.Handle
