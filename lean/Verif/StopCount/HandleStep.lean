import Verif.StopCount.HandleLemmas

namespace Verif.Stop.Handle

open Count (State Op)

/-- A new object made by a copy. -/
theorem step_copy {w w1 : World} {i : Nat} {h k : Hd} (hw : Inv w) (ha : addRef w h = .ok w1) (hk : w.hs[i]? = some (some k)) (hp : h.ptr = k.ptr) :
    Inv (push w1 h) ∧ abs (push w1 h) = (abs w).add h := by
  obtain ⟨e, g⟩ := good_addRef hw.good ha
  have hc : ∀ p n, h ≠ .cb p n := by
    intro p n e; subst e; cases ha
  obtain ⟨a, b⟩ := mk_inv (w := push w1 h) g (fun p => by show sources (w1.hs ++ [some h]) p = _; rw [sources_push, e])
    (fun p => by show refs (w1.hs ++ [some h]) p = _; rw [refs_push, e])
    (by
      show Named _ (w1.hs ++ [some h])
      rw [e]
      refine named_push hw.named ?_
      intro p hq
      obtain ⟨b, h1, _⟩ := hw.named i k p hk (by rw [← hp, hq])
      exact ⟨b, h1, fun n e => absurd e (hc _ _)⟩)
  refine ⟨a, ?_⟩
  rw [b]
  show View.mk _ (w1.hs ++ [some h]) = View.mk _ (w.hs ++ [some h])
  rw [e]; rfl

/-- A new object that takes the place of another one, or an empty one. -/
theorem inv_objects {w : World} {l : List (Option Hd)} (hw : Inv w) (h1 : ∀ p, sources l p = sources w.hs p) (h2 : ∀ p, refs l p = refs w.hs p)
    (h3 : Named (w.st.map (·.stop)) l) : Inv { w with hs := l } :=
  ⟨good_congr hw.good h1 h2, h3⟩

theorem named_none {fl : List Bool} {h : Hd} (e : h.ptr = none) :
    ∀ p, h.ptr = some p → ∃ b, fl[p]? = some b ∧ ∀ n, h = .cb (some p) n → n = if b then 1 else 0 := by
  intro p hp; rw [e] at hp; cases hp

theorem named_none' {fl : List Bool} {h : Hd} (e : h.ptr = none) :
    ∀ k p, some h = some k → k.ptr = some p → ∃ b, fl[p]? = some b ∧ ∀ n, k = .cb (some p) n → n = if b then 1 else 0 := by
  intro k p hk hp; cases hk; rw [e] at hp; cases hp

theorem named_of {fl : List Bool} {hs : List (Option Hd)} {i : Nat} {h : Hd} (hn : Named fl hs) (hi : hs[i]? = some (some h)) :
    ∀ p, h.ptr = some p → ∃ b, fl[p]? = some b ∧ ∀ n, h = .cb (some p) n → n = if b then 1 else 0 :=
  fun p hp => hn i h p hi hp

theorem named_of' {fl : List Bool} {hs : List (Option Hd)} {i : Nat} {h : Hd} (hn : Named fl hs) (hi : hs[i]? = some (some h)) :
    ∀ k p, some h = some k → k.ptr = some p → ∃ b, fl[p]? = some b ∧ ∀ n, k = .cb (some p) n → n = if b then 1 else 0 := by
  intro k p hk hp; cases hk; exact hn i h p hi hp

theorem sc_none {h : Hd} (e : h.ptr = none) (p : Nat) : sc h p = 0 ∧ rc h p = 0 := by
  match h, e with
  | .src none, _ => simp [sc, rc]
  | .tok none, _ => simp [sc, rc]
  | .cb none _, _ => simp [sc, rc]

theorem inv_push_none {w : World} {h : Hd} (hw : Inv w) (e : h.ptr = none) : Inv (push w h) :=
  inv_objects hw (fun p => by rw [sources_push, (sc_none e p).1]; rfl) (fun p => by rw [refs_push, (sc_none e p).2]; rfl)
    (named_push hw.named (named_none e))

theorem ptr_empty (h : Hd) : h.empty.ptr = none := by cases h <;> rfl

/-- A move. -/
theorem inv_move {w : World} {i : Nat} {h : Hd} (hw : Inv w) (hi : w.hs[i]? = some (some h)) : Inv (push (put w i (some h.empty)) h) :=
  inv_objects (w := w) (l := w.hs.set i (some h.empty) ++ [some h]) hw
    (fun p => by
      rw [sources_push]
      have := sources_set w.hs i (some h) (some h.empty) p hi
      have e := (sc_none (ptr_empty h) p).1
      simp only [osc] at this
      omega)
    (fun p => by
      rw [refs_push]
      have := refs_set w.hs i (some h) (some h.empty) p hi
      have e := (sc_none (ptr_empty h) p).2
      simp only [orc] at this
      omega)
    (named_push (named_set hw.named (named_none' (ptr_empty h))) (named_of hw.named hi))

/-- An object gives up its reference and gets another value, the reference of which is already counted. -/
theorem inv_drop {w0 w w' : World} {i : Nat} {x : Hd} {y : Option Hd} {fl : List Bool}
    (hg : Good w.st (fun p => sources w0.hs p + osc y p) (fun p => refs w0.hs p + orc y p) fl)
    (hi : w0.hs[i]? = some (some x)) (he : w.hs = w0.hs) (hn : Named fl (w0.hs.set i y))
    (hd : dropRef (put w i y) x = .ok w') : Inv w' ∧ abs w' = ⟨fl, w0.hs.set i y⟩ := by
  have hw : Good (put w i y).st (fun p => sources (w0.hs.set i y) p + sc x p) (fun p => refs (w0.hs.set i y) p + rc x p) fl :=
    good_congr hg (fun p => sources_set w0.hs i (some x) y p hi) (fun p => refs_set w0.hs i (some x) y p hi)
  obtain ⟨e, g⟩ := good_dropRef hw hd
  have e' : w'.hs = w0.hs.set i y := by rw [e]; show w.hs.set i y = _; rw [he]
  obtain ⟨a, b⟩ := mk_inv (w := w') g (fun p => by rw [e']) (fun p => by rw [e']) (by rw [e']; exact hn)
  exact ⟨a, by rw [b, e']⟩

theorem put_self {w : World} {i : Nat} {h : Hd} (hi : w.hs[i]? = some (some h)) : (abs w).put i (some h) = abs w := by
  unfold View.put abs
  simp only
  rw [set_same _ _ _ hi]

/-- The order of a destructor and of the change of the object makes no difference. -/
theorem dropRef_put {w w' : World} {i : Nat} {x : Hd} {y : Option Hd} (h : dropRef w x = .ok w') : dropRef (put w i y) x = .ok (put w' i y) := by
  have k : ∀ (w w' : World) (p : Nat) (o : Op), acc w p o = .ok w' → acc (put w i y) p o = .ok (put w' i y) := by
    intro w w' p o h
    obtain ⟨s, s', a, b, rfl⟩ := acc_ok h
    show acc (put w i y) p o = _
    unfold acc
    show (match w.st[p]? with | some s => _ | none => _) = _
    rw [a]
    simp only [b, Res.ok_bind]
    rfl
  match x, h with
  | .src none, h => cases h; rfl
  | .tok none, h => cases h; rfl
  | .cb none _, h => cases h; rfl
  | .src (some p), h => exact k _ _ _ _ h
  | .tok (some p), h => exact k _ _ _ _ h
  | .cb (some p) n, h =>
    by_cases hn : n = 0
    · simp only [dropRef, if_pos hn] at h ⊢
      obtain ⟨w1, h1, h2⟩ := Res.bind_eq_ok.1 h
      rw [k _ _ _ _ h1, Res.ok_bind]
      exact k _ _ _ _ h2
    · simp only [dropRef, if_neg hn] at h ⊢
      obtain ⟨w1, h1, h2⟩ := Res.bind_eq_ok.1 h
      obtain ⟨w2, h2, h3⟩ := Res.bind_eq_ok.1 h2
      rw [k _ _ _ _ h1, Res.ok_bind, k _ _ _ _ h2, Res.ok_bind]
      exact k _ _ _ _ h3

theorem good_zero {st : List State} {f g : Nat → Nat} {fl : List Bool} (h : Good st f g fl) {y : Option Hd} (hy : ∀ p, osc y p = 0 ∧ orc y p = 0) :
    Good st (fun p => f p + osc y p) (fun p => g p + orc y p) fl :=
  good_congr h (fun p => by rw [(hy p).1]; rfl) (fun p => by rw [(hy p).2]; rfl)

/-- Destruction. -/
theorem step_destroy {w w1 : World} {i : Nat} {h : Hd} (hw : Inv w) (hi : w.hs[i]? = some (some h)) (hd : dropRef w h = .ok w1) :
    Inv (put w1 i none) ∧ abs (put w1 i none) = (abs w).put i none :=
  inv_drop (w0 := w) (good_zero hw.good (fun _ => ⟨rfl, rfl⟩)) hi rfl (named_set hw.named (by intro k p e; cases e)) (dropRef_put hd)

/-- Copy assignment. -/
theorem step_assign {w w1 w2 : World} {i j : Nat} {x y : Hd} (hw : Inv w) (hi : w.hs[i]? = some (some x)) (hj : w.hs[j]? = some (some y))
    (ha : addRef w y = .ok w1) (hd : dropRef (put w1 i (some y)) x = .ok w2) :
    Inv w2 ∧ abs w2 = (abs w).put i (some y) := by
  obtain ⟨e, g⟩ := good_addRef hw.good ha
  exact inv_drop (w0 := w) (y := some y) g hi e (named_set hw.named (named_of' hw.named hj)) hd

/-- Move assignment. -/
theorem step_moveAssign {w w2 : World} {i j : Nat} {x y : Hd} (hw : Inv w) (hj : w.hs[j]? = some (some y))
    (hi : (w.hs.set j (some y.empty))[i]? = some (some x))
    (hd : dropRef (put (put w j (some y.empty)) i (some y)) x = .ok w2) :
    Inv w2 ∧ abs w2 = ((abs w).put j (some y.empty)).put i (some y) := by
  have hg : Good w.st (fun p => sources (w.hs.set j (some y.empty)) p + osc (some y) p) (fun p => refs (w.hs.set j (some y.empty)) p + orc (some y) p)
      (w.st.map (·.stop)) := by
    refine good_congr hw.good (fun p => ?_) (fun p => ?_)
    · have := sources_set w.hs j (some y) (some y.empty) p hj
      have e := (sc_none (ptr_empty y) p).1
      simp only [osc] at this ⊢
      omega
    · have := refs_set w.hs j (some y) (some y.empty) p hj
      have e := (sc_none (ptr_empty y) p).2
      simp only [orc] at this ⊢
      omega
  exact inv_drop (w0 := put w j (some y.empty)) (w := put w j (some y.empty)) hg hi rfl
    (named_set (named_set hw.named (named_none' (ptr_empty y))) (named_of' hw.named hj)) hd

/-- Swap. -/
theorem inv_swap {w : World} {i j : Nat} {x y : Hd} (hw : Inv w) (hi : w.hs[i]? = some (some x)) (hj : w.hs[j]? = some (some y)) :
    Inv (put (put w i (some y)) j (some x)) := by
  have hj' : (w.hs.set i (some y))[j]? = some (some y) := by
    by_cases e : j = i
    · subst e
      rw [List.getElem?_set]
      simp [(List.getElem?_eq_some_iff.1 hi).1]
    · rw [List.getElem?_set_ne (by omega), hj]
  refine inv_objects (w := w) (l := (w.hs.set i (some y)).set j (some x)) hw (fun p => ?_) (fun p => ?_) (named_set (named_set hw.named (named_of' hw.named hj)) (named_of' hw.named hi))
  · have h1 := sources_set w.hs i (some x) (some y) p hi
    have h2 := sources_set (w.hs.set i (some y)) j (some y) (some x) p hj'
    omega
  · have h1 := refs_set w.hs i (some x) (some y) p hi
    have h2 := refs_set (w.hs.set i (some y)) j (some y) (some x) p hj'
    omega

/-- A new flag. -/
theorem inv_source {w : World} (hw : Inv w) :
    Inv { st := w.st ++ [Count.init], hs := w.hs ++ [some (.src (some w.st.length))] } := by
  have hz : ∀ p, ¬ p < w.st.length → sources w.hs p = 0 ∧ refs w.hs p = 0 := by
    intro p hp
    have key : ∀ (i : Nat) (h : Hd), w.hs[i]? = some (some h) → h.ptr ≠ some p := by
      intro i h hi e
      obtain ⟨b, hb, _⟩ := hw.named i h p hi e
      have := (List.getElem?_eq_some_iff.1 hb).1
      simp at this
      omega
    constructor
    · unfold sources
      rw [List.countP_eq_zero]
      intro a ha e
      obtain ⟨i, hi⟩ := List.mem_iff_getElem?.1 ha
      have e : a = some (.src (some p)) := by simpa using e
      subst e
      exact key i _ hi rfl
    · unfold refs
      rw [List.countP_eq_zero]
      intro a ha e
      obtain ⟨i, hi⟩ := List.mem_iff_getElem?.1 ha
      match a, hi, e with
      | some (.tok q), hi, e => exact key i _ hi (by simpa [isRef, Hd.ptr] using e)
      | some (.cb q _), hi, e => exact key i _ hi (by simpa [isRef, Hd.ptr] using e)
  constructor
  · refine ⟨rfl, ?_⟩
    intro p s hp
    rw [sources_push, refs_push]
    by_cases hl : p < w.st.length
    · simp only at hp
      rw [List.getElem?_append_left hl] at hp
      have := hw.good.2 p s hp
      have e : w.st.length ≠ p := by omega
      simpa [sc, rc, e] using this
    · simp only at hp
      have h1 : p = w.st.length := by
        have := (List.getElem?_eq_some_iff.1 hp).1
        simp at this
        omega
      subst h1
      simp at hp
      subst hp
      obtain ⟨z1, z2⟩ := hz w.st.length (by omega)
      rw [z1, z2]
      exact ⟨Count.inv_init, fun _ => rfl, rfl, by simp [Count.init, sc], by simp [Count.init, rc]⟩
  · have hn : Named ((w.st ++ [Count.init]).map (·.stop)) w.hs := by
      intro i h p hi hp
      obtain ⟨b, hb, hc⟩ := hw.named i h p hi hp
      refine ⟨b, ?_, hc⟩
      rw [List.map_append, List.getElem?_append_left (List.getElem?_eq_some_iff.1 hb).1, hb]
    refine named_push hn ?_
    intro p hp
    simp only [Hd.ptr, Option.some.injEq] at hp
    subst hp
    exact ⟨false, by simp [Count.init], by intro n e; cases e⟩

theorem callAll_tell (p : Nat) (h : Option Hd) : callAll p h = View.tell p h := by
  match h with
  | none => rfl
  | some (.src _) => rfl
  | some (.tok _) => rfl
  | some (.cb none _) => simp [callAll, View.tell]
  | some (.cb (some q) n) => simp [callAll, View.tell]

theorem sources_callAll (l : List (Option Hd)) (p q : Nat) : sources (l.map (callAll p)) q = sources l q := by
  unfold sources
  rw [List.countP_map]
  congr 1
  funext h
  match h with
  | none => rfl
  | some (.src _) => rfl
  | some (.tok _) => rfl
  | some (.cb none _) => rfl
  | some (.cb (some r) n) => simp only [Function.comp, callAll]; split <;> rfl

theorem refs_callAll (l : List (Option Hd)) (p q : Nat) : refs (l.map (callAll p)) q = refs l q := by
  unfold refs
  rw [List.countP_map]
  congr 1
  funext h
  match h with
  | none => rfl
  | some (.src _) => rfl
  | some (.tok _) => rfl
  | some (.cb none _) => rfl
  | some (.cb (some r) n) => simp only [Function.comp, callAll]; split <;> simp [isRef]

/-- A first request. -/
theorem step_request {w w1 w2 : World} {p : Nat} (hw : Inv w) (hr : (abs w).raised p = false) (h1 : acc w p .signal = .ok w1)
    (h2 : acc { w1 with hs := w1.hs.map (callAll p) } p .unlock = .ok w2) :
    Inv w2 ∧ abs w2 = { flag := (abs w).flag.set p true, hs := (abs w).hs.map (View.tell p) } := by
  obtain ⟨s, s1, a, b, rfl⟩ := acc_ok h1
  obtain ⟨t, s', c, d, rfl⟩ := acc_ok h2
  have hl : p < w.st.length := (List.getElem?_eq_some_iff.1 a).1
  simp [hl] at c
  subst c
  have hg := hw.good.2 p s a
  obtain ⟨_, f1, f2, f3, f4⟩ := step_fields b
  obtain ⟨_, f1', f2', f3', f4'⟩ := step_fields d
  have hgg := good_set hw.good a (f' := sources w.hs) (g' := refs w.hs)
    (good1_eq (good1_locked hg b d f3') (by rw [f1', f1, hg.src]) (by rw [f2', f2, hg.ref])) (fun _ _ => ⟨rfl, rfl⟩)
  have hst : s'.stop = true := by rw [f4', f4]
  rw [hst] at hgg
  have hraise : s.stop = false := by rw [← raised_of a]; exact hr
  have hnamed : Named ((w.st.map (·.stop)).set p true) (w.hs.map (callAll p)) := by
    intro i h q hi hq
    rw [List.getElem?_map] at hi
    cases ho : w.hs[i]? with
    | none => simp [ho] at hi
    | some x =>
      simp [ho] at hi
      by_cases e : q = p
      · subst e
        refine ⟨true, by simp [hl], ?_⟩
        intro n en
        subst en
        match x, hi, ho with
        | some (.src _), hi, ho => simp [callAll] at hi
        | some (.tok _), hi, ho => simp [callAll] at hi
        | some (.cb none _), hi, ho => simp [callAll] at hi
        | some (.cb (some r) m), hi, ho =>
          by_cases er : r = q
          · subst er
            simp [callAll] at hi
            obtain ⟨b', hb, hm⟩ := hw.named i _ r ho rfl
            have hb' : b' = false := by simp [a, hraise] at hb; exact hb
            have := hm m rfl
            simp [hb'] at this
            simp; omega
          · simp [callAll, er] at hi
      · have hx : x = some h := by
          match x, hi with
          | some (.src _), hi => simpa [callAll] using hi
          | some (.tok _), hi => simpa [callAll] using hi
          | some (.cb none _), hi => simpa [callAll] using hi
          | some (.cb (some r) m), hi =>
            by_cases er : r = p
            · subst er
              simp [callAll] at hi
              subst hi
              simp [Hd.ptr] at hq
              omega
            · simpa [callAll, er] using hi
        subst hx
        obtain ⟨b', hb, hm⟩ := hw.named i h q ho hq
        exact ⟨b', by rw [List.getElem?_set_ne (by omega), hb], hm⟩
  obtain ⟨r1, r2⟩ := mk_inv (w := { st := (w.st.set p s1).set p s', hs := w.hs.map (callAll p) }) (by rw [List.set_set]; exact hgg)
    (fun q => sources_callAll w.hs p q) (fun q => refs_callAll w.hs p q) hnamed
  refine ⟨r1, ?_⟩
  rw [r2]
  show View.mk _ _ = View.mk _ _
  congr 1
  exact List.map_congr_left (fun h _ => callAll_tell p h)

/-- A callback is registered with a token that stays. -/
theorem step_register {w w1 w2 : World} {i p : Nat} (hw : Inv w) (hi : w.hs[i]? = some (some (.tok (some p)))) (hr : (abs w).raised p = false)
    (h1 : acc w p .lock = .ok w1) (h2 : acc w1 p .register = .ok w2) :
    Inv (push w2 (.cb (some p) 0)) ∧ abs (push w2 (.cb (some p) 0)) = (abs w).add (.cb (some p) 0) := by
  obtain ⟨e, g⟩ := good_acc2 (f' := fun q => sources w.hs q + sc (.cb (some p) 0) q) (g' := fun q => refs w.hs q + rc (.cb (some p) 0) q) hw.good h1 h2 (by
    intro s s1 s' hg hs hs'
    obtain ⟨_, a, b, c, d⟩ := step_fields hs
    obtain ⟨_, a', b', c', d'⟩ := step_fields hs'
    have h1 := hg.src
    have h2 := hg.ref
    simp [sc, rc]
    exact ⟨c', by omega, by omega, by rw [d', d]⟩) (by intro q hq; simp [sc, rc, Ne.symm hq])
  obtain ⟨b, hb, _⟩ := hw.named i _ p hi rfl
  have hb' : b = false := by
    have : (abs w).raised p = b := by
      show ((w.st.map (·.stop))[p]? == some true) = b
      rw [hb]; cases b <;> rfl
    rw [← this]; exact hr
  obtain ⟨r1, r2⟩ := mk_inv (w := push w2 (.cb (some p) 0)) g (fun q => by show sources (w2.hs ++ _) q = _; rw [sources_push, e])
    (fun q => by show refs (w2.hs ++ _) q = _; rw [refs_push, e])
    (by
      show Named _ (w2.hs ++ _)
      rw [e]
      refine named_push hw.named ?_
      intro q hq
      simp only [Hd.ptr, Option.some.injEq] at hq
      subst hq
      exact ⟨b, hb, fun n en => by cases en; simp [hb']⟩)
  refine ⟨r1, ?_⟩
  rw [r2]
  show View.mk _ (w2.hs ++ _) = View.mk _ (w.hs ++ _)
  rw [e]; rfl

/-- A callback takes over the reference of a token. -/
theorem step_take {w w1 w2 : World} {i p : Nat} (hw : Inv w) (hi : w.hs[i]? = some (some (.tok (some p)))) (hr : (abs w).raised p = false)
    (h1 : acc w p .lock = .ok w1) (h2 : acc w1 p .unlock = .ok w2) :
    Inv (push (put w2 i (some (.tok none))) (.cb (some p) 0)) ∧
    abs (push (put w2 i (some (.tok none))) (.cb (some p) 0)) = ((abs w).put i (some (.tok none))).add (.cb (some p) 0) := by
  obtain ⟨e, g⟩ := good_acc2 (f' := sources w.hs) (g' := refs w.hs) hw.good h1 h2 (by
    intro s s1 s' hg hs hs'
    obtain ⟨_, a, b, c, d⟩ := step_fields hs
    obtain ⟨_, a', b', c', d'⟩ := step_fields hs'
    have h1 := hg.src
    have h2 := hg.ref
    exact ⟨c', by omega, by omega, by rw [d', d]⟩) (fun _ _ => ⟨rfl, rfl⟩)
  obtain ⟨b, hb, _⟩ := hw.named i _ p hi rfl
  have hb' : b = false := by
    have : (abs w).raised p = b := by
      show ((w.st.map (·.stop))[p]? == some true) = b
      rw [hb]; cases b <;> rfl
    rw [← this]; exact hr
  obtain ⟨r1, r2⟩ := mk_inv (w := push (put w2 i (some (.tok none))) (.cb (some p) 0)) g
    (fun q => by
      show sources (w2.hs.set i _ ++ _) q = _
      rw [sources_push, e]
      have := sources_set w.hs i _ (some (.tok none)) q hi
      simp [osc, sc] at this ⊢
      omega)
    (fun q => by
      show refs (w2.hs.set i _ ++ _) q = _
      rw [refs_push, e]
      have := refs_set w.hs i _ (some (.tok none)) q hi
      simp [orc, rc] at this ⊢
      omega)
    (by
      show Named _ (w2.hs.set i _ ++ _)
      rw [e]
      refine named_push (named_set hw.named (named_none' rfl)) ?_
      intro q hq
      simp only [Hd.ptr, Option.some.injEq] at hq
      subst hq
      exact ⟨b, hb, fun n en => by cases en; simp [hb']⟩)
  refine ⟨r1, ?_⟩
  rw [r2]
  show View.mk _ (w2.hs.set i _ ++ _) = View.mk _ (w.hs.set i _ ++ _)
  rw [e]; rfl

end Verif.Stop.Handle
