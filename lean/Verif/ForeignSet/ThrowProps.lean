import Verif.ForeignSet.ThrowLemmas

/-! # C148: a `foreign_set` and its source after an exception -/

namespace Verif.ForeignSet.Throw

open Verif.VectorSet
open Verif.VectorSet.Spec (eqv)
open Verif.ObservableSet

variable {α κ φ : Type}

/-! ### Removing an element that a `foreign_set` does not know -/

theorem removing_unknown {K : Keys α κ φ} (hP : StrictWeak K.ltP) (hF : StrictWeak K.ltF) {S : α → Prop} {gs : List (OSet α)} (h : FInv K gs S) {v : α}
    (hv : ∀ x, S x → eqv K.ltP (K.pk x) (K.pk v) = false) :
    ((∀ x, S x → eqv K.ltF (K.fk x) (K.fk v) = false) → onRemoving K gs v = .ub) ∧
    (∀ x y, S x → S y → x ≠ y → eqv K.ltF (K.fk x) (K.fk v) = true → eqv K.ltF (K.fk y) (K.fk v) = true → onRemoving K gs v = .ub) ∧
    (∀ y, S y → eqv K.ltF (K.fk y) (K.fk v) = true → (∀ x, S x → eqv K.ltF (K.fk x) (K.fk v) = true → x = y) →
      ∃ gs' evs, onRemoving K gs v = .ok (gs', evs) ∧ FInv K gs' (fun x => S x ∧ x ≠ y)) := by
  have hlt := byPk_strictWeak hP
  rcases findGroup_ok hF h (K.fk v) with ⟨A, g, B, rfl, q2, q3⟩ | ⟨q1, q2⟩
  · have hi := h.inv g (by simp)
    have hsz : g.set.size = g.set.forward.length := by rw [hi.forward]; simp [VSet.size, cnt_eq hi.cnt, vals]
    have hgr := h.group hF q3
    refine ⟨fun hno => ?_, fun x y hx hy hxy ex ey => ?_, fun y hy ey huniq => ?_⟩
    · obtain ⟨y, hy, _⟩ := frontKey_ok K (h.ne g (by simp))
      have := hno y ((hgr y).1 hy).1
      rw [q3 y hy] at this; cases this
    · have hxg := (hgr x).2 ⟨hx, ex⟩
      have hyg := (hgr y).2 ⟨hy, ey⟩
      have h1 : g.set.size ≠ 1 := by
        rw [hsz]; intro h1
        obtain ⟨z, hz⟩ := List.length_eq_one_iff.1 h1
        rw [hz, List.mem_singleton] at hxg hyg
        exact hxy (hxg.trans hyg.symm)
      have hany : g.set.forward.any (fun a => eqv K.byPk a v) = false := by
        rw [List.any_eq_false]
        intro a ha hav
        have := hv a ((hgr a).1 ha).1
        have h2 : eqv K.ltP (K.pk a) (K.pk v) = true := hav
        rw [h2] at this; cases this
      obtain ⟨s, k1, k2, k3⟩ := oset_step (o := g) hlt hi (.eraseKey v) rfl
      simp only [OSet.step, hany, Bool.false_eq_true, if_false] at k1
      simp only [onRemoving, q2, Res.ok_bind, getElem_mid, h1, if_false, k1]
    · have hyg := (hgr y).2 ⟨hy, ey⟩
      have hone : g.set.forward = [y] := by
        have hn := sorted_nodup hlt (show g.set.forward.Pairwise (fun a b => K.byPk a b = true) by rw [hi.forward]; exact hi.vals_sorted)
        cases hl : g.set.forward with
        | nil => rw [hl] at hyg; simp at hyg
        | cons a L =>
          have ha : a = y := huniq a ((hgr a).1 (by rw [hl]; simp)).1 (q3 a (by rw [hl]; simp))
          cases L with
          | nil => rw [ha]
          | cons b L =>
            have hb : b = y := huniq b ((hgr b).1 (by rw [hl]; simp)).1 (q3 b (by rw [hl]; simp))
            rw [hl, ha, hb] at hn; simp at hn
      have h1 : g.set.size = 1 := by rw [hsz, hone]; rfl
      have hfk : frontKey K g = .ok (K.fk y) := by simp [frontKey, hone]
      have hfg : findGroup K (A ++ g :: B) (K.fk y) = .ok (some A.length) := by
        rcases findGroup_ok hF h (K.fk y) with ⟨A', g', B', r1, r2, r3⟩ | ⟨r1, r2⟩
        · obtain ⟨ks, f1, f2⟩ := frontKeys_ok K hF (K.fk v) _ h.ne h.same
          obtain ⟨ks', f1', f2'⟩ := frontKeys_ok K hF (K.fk y) _ h.ne h.same
          rw [f1] at f1'; cases f1'
          simp only [findGroup, f1, Res.ok_bind, Res.ok.injEq] at q2 ⊢
          rw [← q2]
          congr 1
          funext k'
          rw [Bool.eq_iff_iff]
          constructor
          · intro hk; exact StrictWeak.eqv_trans hF hk ey
          · intro hk; exact StrictWeak.eqv_trans hF hk (by rw [eqv_symm]; exact ey)
        · have := r2 g (by simp) y hyg
          rw [eqv_refl hF] at this; cases this
      refine ⟨A ++ B, [.removing [y]], ?_, ?_⟩
      · simp only [onRemoving, q2, Res.ok_bind, getElem_mid, h1, if_true, hfk, hfg, eraseIdx_mid, hone]
      · exact h.remove hF (fun x => by simp [hone])
  · have hno : ∀ x, S x → eqv K.ltF (K.fk x) (K.fk v) = false := by
      intro x hx
      obtain ⟨g, hg, hxg⟩ := (h.mem x).1 hx
      exact q2 g hg x hxg
    refine ⟨fun _ => by simp only [onRemoving, q1, Res.ok_bind], fun x y hx _ _ ex _ => ?_, fun y hy ey _ => ?_⟩
    · rw [hno x hx] at ex; cases ex
    · rw [hno y hy] at ey; cases ey

theorem notify_append {t : Nat → Bool} {e : Event α} : ∀ (A B A' : List (Watcher α κ φ)) (i : Nat), notifyAll t e i A = (A', .ok ()) →
    A'.length = A.length ∧ notifyAll t e i (A ++ B) = (A' ++ (notifyAll t e (i + A.length) B).1, (notifyAll t e (i + A.length) B).2) := by
  intro A
  induction A with
  | nil => intro B A' i h; simp only [notifyAll, Prod.mk.injEq] at h; rw [← h.1]; simp
  | cons w A ih =>
    intro B A' i h
    have hlen : i + (A.length + 1) = i + 1 + A.length := by omega
    cases w with
    | other =>
      simp only [notifyAll] at h
      simp only [notifyAll, List.cons_append, List.length_cons]
      split at h
      · simp at h
      · next ht =>
        simp only [Prod.mk.injEq] at h
        obtain ⟨h1, h2⟩ := h
        obtain ⟨q1, q2⟩ := ih B _ (i + 1) (Prod.ext rfl h2)
        simp only [ht, q2, ← h1, hlen, List.length_cons, q1]
        simp
    | foreign K gs =>
      simp only [notifyAll] at h
      simp only [notifyAll, List.cons_append, List.length_cons]
      split at h
      · simp at h
      · next ht =>
        split at h
        · next gs' evs hf =>
          simp only [Prod.mk.injEq] at h
          obtain ⟨h1, h2⟩ := h
          obtain ⟨q1, q2⟩ := ih B _ (i + 1) (Prod.ext rfl h2)
          simp only [ht, q2, ← h1, hlen, List.length_cons, q1]
          simp
        · simp at h
        · simp at h

/-! ### Statements -/

/-- C148, histories with exceptions.  A program inserts, erases, clears, makes and ends `foreign_set`s of the source and other observers, in any order, and catches
every exception.  As long as no `foreign_set` is told about the removal of an element it does not know: nothing undefined happens, every call has the result of the
specification, the source has the elements of the specification, and each `foreign_set` shows exactly the elements it knows, grouped, all of them elements of the
source.  What is missing: the other histories, see `c148_unknown_violated`. -/
theorem c148_exceptions_partial {lt : α → α → Bool} (hlt : StrictWeak lt) {P : α → Prop} {ops : List (Op α κ φ)} (hp : Spec.Program lt P ops)
    {s : Spec.St α} {rs : List (Res Bool)} (hs : Spec.run lt ⟨[], []⟩ ops = some (s, rs)) :
    (run lt Net.init ops).2 = rs ∧ (∀ r ∈ rs, r ≠ .ub) ∧ (∀ a, a ∈ (run lt Net.init ops).1.src.set.forward ↔ a ∈ s.src) ∧
    List.Forall₂ Spec.Shows (run lt Net.init ops).1.ws s.known ∧ ∀ L, some L ∈ s.known → ∀ x ∈ L, x ∈ s.src := by
  obtain ⟨h1, h2⟩ := run_rel hlt ops (init_rel lt P) hp hs
  refine ⟨h1, ?_, h2.mem, h2.ws.imp (fun _ _ h => shows_of h), h2.sub⟩
  have hr : ∀ (ops : List (Op α κ φ)) (s s' : Spec.St α) (rs : List (Res Bool)), Spec.run lt s ops = some (s', rs) → ∀ r ∈ rs, r ≠ .ub := by
    intro ops
    induction ops with
    | nil =>
      intro s s' rs h
      simp only [Spec.run, Option.some.injEq, Prod.mk.injEq] at h
      rw [← h.2]; simp
    | cons op ops ih =>
      intro s s' rs h
      simp only [Spec.run] at h
      split at h
      · cases h
      · next s1 r h1 =>
        rw [Option.map_eq_some_iff] at h
        obtain ⟨⟨s2, rs2⟩, h2, h3⟩ := h
        simp only [Prod.mk.injEq] at h3
        obtain ⟨rfl, rfl⟩ := h3
        intro r' hr'
        rcases List.mem_cons.1 hr' with rfl | hr'
        · have hres : ∀ q : Option Nat, Spec.result q ≠ .ub := by intro q; cases q <;> simp [Spec.result]
          cases op <;> simp only [Spec.step] at h1
          all_goals (repeat' split at h1) <;> cases h1
          all_goals first | exact hres _ | simp
        · exact ih _ _ _ h2 r' hr'
  exact hr ops _ _ _ hs

def numLt (a b : Nat) : Bool := decide (a < b)

/-- 15 and 25 are inserted, then an observer throws when 35 is inserted, a `foreign_set` that came after it does not know 35 but goes on with the others; an erase
that throws behind a `foreign_set` leaves 25 in the source. -/
def story : List (Op Nat Nat Nat) :=
  [.insert 15 (fun _ => false), .subscribe, .attach digits (fun _ => false), .insert 25 (fun _ => false), .subscribe, .insert 35 (· == 0), .insert 44 (fun _ => false),
   .erase 25 (· == 2), .erase 15 (fun _ => false)]

example : Spec.run numLt ⟨[], []⟩ story = some (⟨[44, 35, 25], [none, some [44], none]⟩,
    [.ok true, .ok true, .ok true, .ok true, .ok true, .throw (.user 0), .ok true, .throw (.user 2), .ok true]) := by decide

example : Spec.Program numLt (fun _ => True) story := by
  refine ⟨fun _ _ _ => trivial, fun K t h => ?_⟩
  simp only [story, List.mem_cons, Op.attach.injEq, reduceCtorEq, List.not_mem_nil, or_false, false_or] at h
  rw [h.1]
  have sw : StrictWeak numLt := ⟨by intro a; simp [numLt], by intro a b c; simp only [numLt, decide_eq_true_eq]; omega,
    by intro a b c; simp only [numLt, decide_eq_false_iff_not]; omega⟩
  exact ⟨sw, sw, fun a b _ _ h => h⟩

/-- C148, without exceptions.  If no call throws, every call returns and every `foreign_set` shows exactly the elements of the source, however many there are and
whenever they were made. -/
theorem c148_no_exception {lt : α → α → Bool} (hlt : StrictWeak lt) {P : α → Prop} {ops : List (Op α κ φ)} (hp : Spec.Program lt P ops)
    (hn : ∀ r ∈ (run lt (Net.init : Net α κ φ) ops).2, ∀ x, r ≠ .throw x) :
    (∀ r ∈ (run lt (Net.init : Net α κ φ) ops).2, ∃ b, r = .ok b) ∧
    ∀ K gs, Watcher.foreign K gs ∈ (run lt Net.init ops).1.ws → Spec.Groups K (run lt Net.init ops).1.src.set.forward gs := by
  have key : ∀ (ops : List (Op α κ φ)) (n : Net α κ φ) (s : Spec.St α), Rel lt P n s → Agree s → Spec.Program lt P ops → (∀ r ∈ (run lt n ops).2, ∀ x, r ≠ .throw x) →
      (∀ r ∈ (run lt n ops).2, ∃ b, r = .ok b) ∧ ∃ s', Rel lt P (run lt n ops).1 s' ∧ Agree s' := by
    intro ops
    induction ops with
    | nil => intro n s h ha _ _; exact ⟨by simp [run], s, h, ha⟩
    | cons op ops ih =>
      intro n s h ha hp hn
      obtain ⟨hp1, hp2⟩ := program_cons hp
      obtain ⟨s', r, k1, k2⟩ := step_agree (lt := lt) ha op
      obtain ⟨q1, q2⟩ := step_rel hlt h op hp1 k1
      have hr : (step lt n op).2 ∈ (run lt n (op :: ops)).2 := by simp only [run]; exact List.mem_cons_self
      rcases k2 with ⟨x, rfl⟩ | ⟨⟨b, rfl⟩, k2⟩
      · exact absurd q1 (hn _ hr x)
      · obtain ⟨i1, i2⟩ := ih _ s' q2 k2 hp2 (fun r hr => hn r (by simp only [run]; exact List.mem_cons_of_mem _ hr))
        refine ⟨?_, i2⟩
        intro r hr
        simp only [run] at hr
        rcases List.mem_cons.1 hr with rfl | hr
        · exact ⟨b, q1⟩
        · exact i1 r hr
  obtain ⟨h1, s', h2, h3⟩ := key ops _ _ (init_rel lt P) (by intro L hL; simp at hL) hp hn
  refine ⟨h1, fun K gs hw => ?_⟩
  obtain ⟨i, hi, hiw⟩ := List.mem_iff_getElem.1 hw
  have hk := h2.ws.get hi (by rw [← h2.ws.length_eq]; exact hi)
  simp only [List.get_eq_getElem, hiw] at hk
  have hik : i < s'.known.length := by rw [← h2.ws.length_eq]; exact hi
  generalize hL : s'.known[i] = k at hk
  cases k with
  | none => exact hk.elim
  | some L =>
    have hm : some L ∈ s'.known := by rw [← hL]; exact List.getElem_mem hik
    obtain ⟨w1, w2, w3, w4⟩ := hk
    have := shows_of (w := .foreign K gs) (k := some (run lt Net.init ops).1.src.set.forward)
      (show W lt P (.foreign K gs) (some _) from ⟨w1, w2, w3, finv_congr w4 (fun x => (h3 L hm x).trans (h2.mem x).symm)⟩)
    exact this

example : (run numLt Net.init ([.insert 15 (fun _ => false), .attach digits (fun _ => false), .insert 25 (fun _ => false), .insert 3 (fun _ => false),
    .erase 15 (fun _ => false)] : List (Op Nat Nat Nat))).2 = [.ok true, .ok true, .ok true, .ok true, .ok true] := by decide

/-- C148, agreement after an exception.  After any history as in `c148_exceptions_partial`: when `clear` returns, the source is empty and so is every `foreign_set`; when a
`foreign_set` can be made, it shows exactly the elements of the source; and one that could not be made has changed nothing. -/
theorem c148_recovers {lt : α → α → Bool} (hlt : StrictWeak lt) {P : α → Prop} {ops : List (Op α κ φ)} (hp : Spec.Program lt P ops)
    {s : Spec.St α} {rs : List (Res Bool)} (hs : Spec.run lt ⟨[], []⟩ ops = some (s, rs)) (t : Nat → Bool) :
    (∀ b n', clear (run lt Net.init ops).1 t = (n', .ok b) → n'.src.set.forward = [] ∧ ∀ K gs, Watcher.foreign K gs ∈ n'.ws → gs = []) ∧
    (∀ K : Keys α κ φ, Spec.Program lt P [.attach K t] →
      (∃ gs, attach (run lt Net.init ops).1 K t = (⟨(run lt Net.init ops).1.src, (run lt Net.init ops).1.ws ++ [.foreign K gs]⟩, .ok true) ∧
        Spec.Groups K (run lt Net.init ops).1.src.set.forward gs)
      ∨ ∃ j, t j = true ∧ j < (run lt Net.init ops).1.src.set.forward.length ∧ attach (run lt Net.init ops).1 K t = ((run lt Net.init ops).1, .throw (.user j))) := by
  obtain ⟨_, h⟩ := run_rel hlt ops (init_rel lt P) hp hs
  generalize (run lt Net.init ops).1 = n at h ⊢
  constructor
  · intro b n' hc
    obtain ⟨s', r, hst⟩ : ∃ s' r, Spec.step lt s (.clear t : Op α κ φ) = some (s', r) := by
      simp only [Spec.step]; split <;> exact ⟨_, _, rfl⟩
    obtain ⟨h1, h2⟩ := clear_rel h t hst
    rw [hc] at h1 h2
    simp only at h1 h2
    have hempty : s'.src = [] := by
      simp only [Spec.step] at hst
      split at hst
      · next he =>
        simp only [Option.some.injEq, Prod.mk.injEq] at hst
        rw [← hst.1]; exact List.isEmpty_iff.1 he
      · simp only [Option.some.injEq, Prod.mk.injEq] at hst
        obtain ⟨hst1, hst2⟩ := hst
        cases hq : (Spec.handle t false (fun _ => []) 0 s.known).2 with
        | some i => rw [hq, ← h1] at hst2; cases hst2
        | none => rw [← hst1, hq]; rfl
    have hf : n'.src.set.forward = [] := List.eq_nil_iff_forall_not_mem.2 (fun a ha => by have := (h2.mem a).1 ha; rw [hempty] at this; simp at this)
    refine ⟨hf, fun K gs hw => ?_⟩
    obtain ⟨i, hi, hiw⟩ := List.mem_iff_getElem.1 hw
    have hik : i < s'.known.length := by rw [← h2.ws.length_eq]; exact hi
    have hk := h2.ws.get hi hik
    simp only [List.get_eq_getElem, hiw] at hk
    generalize hL : s'.known[i] = k at hk
    cases k with
    | none => exact hk.elim
    | some L =>
      have hm : some L ∈ s'.known := by rw [← hL]; exact List.getElem_mem hik
      obtain ⟨w1, w2, w3, w4⟩ := hk
      cases gs with
      | nil => rfl
      | cons g gs =>
        obtain ⟨x, hx, _⟩ := frontKey_ok K (w4.ne g List.mem_cons_self)
        have := h2.sub L hm x ((w4.mem x).2 ⟨g, List.mem_cons_self, hx⟩)
        rw [hempty] at this; simp at this
  · intro K hK
    obtain ⟨k1, k2, k3⟩ := hK.2 K t List.mem_cons_self
    have hb := build_rel k1 k2 k3 t n.src.set.forward 0 (fun _ => False) [] (FInv.empty K) (fun a h => h.elim) (fun a ha => h.sp a ((h.mem a).1 ha)) (fun a h => h.elim)
      ((ObservableSet.Throw.sorted_of h.inv).imp (fun {a b} hab => by simp [eqv, hab]))
    rw [← List.range_eq_range'] at hb
    split at hb
    · next i hf =>
      refine .inr ⟨i, List.find?_some hf, List.mem_range.1 (List.mem_of_find?_eq_some hf), by simp only [attach, hb]⟩
    · obtain ⟨gs', r1, r2⟩ := hb
      refine .inl ⟨gs', by simp only [attach, r1], ?_⟩
      exact shows_of (w := .foreign K gs') (k := some n.src.set.forward) (show W lt P (.foreign K gs') (some _) from ⟨k1, k2, k3, finv_congr r2 (fun x => by simp)⟩)

example : ((run numLt Net.init story).1.src.set.forward, (clear (run numLt Net.init story).1 (fun _ => false)).2,
    (clear (run numLt Net.init story).1 (fun _ => false)).1.ws.length) = ([25, 35, 44], .ok true, 3) := by decide

/-- C148 is violated for the elements that a `foreign_set` does not know: after an insertion that was stopped by an exception before the `foreign_set` was told, or by
its lack of memory, and after a removal that was stopped by an exception behind it.  When such an element `e` is erased and the observers before the `foreign_set`
accept this, then: if the `foreign_set` knows no element with the foreign key of `e`, or if it knows several, the behaviour is undefined; if it knows exactly one,
`y`, then it forgets `y` although `y` stays in the source (unless a later observer makes the behaviour undefined). -/
theorem c148_unknown_violated {lt : α → α → Bool} (hlt : StrictWeak lt) {P : α → Prop} {ops : List (Op α κ φ)} (hp : Spec.Program lt P ops)
    {s : Spec.St α} {rs : List (Res Bool)} (hs : Spec.run lt ⟨[], []⟩ ops = some (s, rs))
    {A B A' : List (Watcher α κ φ)} {K : Keys α κ φ} {gs : List (OSet α)} (hw : (run lt Net.init ops).1.ws = A ++ .foreign K gs :: B)
    {L : List α} (hL : s.known[A.length]? = some (some L)) {e k : α} (he : e ∈ s.src) (hk : eqv lt e k = true) (hu : e ∉ L) {t : Nat → Bool}
    (hA : notifyAll t (.removing e) 0 A = (A', .ok ())) :
    ((∀ x ∈ L, eqv K.ltF (K.fk x) (K.fk e) = false) → (erase lt (run lt Net.init ops).1 k t).2 = .ub) ∧
    (∀ x ∈ L, ∀ y ∈ L, x ≠ y → eqv K.ltF (K.fk x) (K.fk e) = true → eqv K.ltF (K.fk y) (K.fk e) = true → (erase lt (run lt Net.init ops).1 k t).2 = .ub) ∧
    (∀ y ∈ L, eqv K.ltF (K.fk y) (K.fk e) = true → (∀ x ∈ L, eqv K.ltF (K.fk x) (K.fk e) = true → x = y) →
      (erase lt (run lt Net.init ops).1 k t).2 = .ub ∨
      (y ∈ (erase lt (run lt Net.init ops).1 k t).1.src.set.forward ∧
        ∃ gs', (erase lt (run lt Net.init ops).1 k t).1.ws[A.length]? = some (.foreign K gs') ∧ lookup K gs' (K.fk y) = .ok none)) := by
  obtain ⟨_, h⟩ := run_rel hlt ops (init_rel lt P) hp hs
  generalize (run lt Net.init ops).1 = n at h hw ⊢
  have hLm : some L ∈ s.known := List.mem_of_getElem? hL
  have hW : W lt P (.foreign K gs) (some L) := by
    have hi : A.length < n.ws.length := by rw [hw]; simp
    have hik : A.length < s.known.length := by rw [← h.ws.length_eq]; exact hi
    have := h.ws.get hi hik
    simp only [List.get_eq_getElem] at this
    rw [List.getElem?_eq_getElem hik, Option.some.injEq] at hL
    rw [hL] at this
    have hg : n.ws[A.length] = .foreign K gs := by
      have := getElem_mid A B (Watcher.foreign K gs)
      rw [← hw, List.getElem?_eq_getElem hi, Option.some.injEq] at this
      exact this
    rw [hg] at this
    exact this
  obtain ⟨w1, w2, w3, w4⟩ := hW
  have hne : ∀ x, x ∈ L → eqv K.ltP (K.pk x) (K.pk e) = false := by
    intro x hx
    cases hq : eqv K.ltP (K.pk x) (K.pk e) with
    | false => rfl
    | true =>
      have hxe := w3 x e (h.sp x (h.sub L hLm x hx)) (h.sp e he) hq
      have : x = e := (h.unique hlt ((h.mem e).2 he) (eqv_refl hlt e) (h.sub L hLm x hx)).1 hxe
      exact absurd (this ▸ hx) hu
  obtain ⟨u1, u2, u3⟩ := removing_unknown w1 w2 w4 hne
  rcases ObservableSet.Throw.src_find hlt h.inv k with ⟨ha, k1⟩ | ⟨e', k1, k2, k3, o, notes, k4, k5, k6⟩
  · rw [List.any_eq_false] at ha
    exact absurd hk (ha e ((h.mem e).2 he))
  have hee : e'.val = e := ((h.unique hlt k2 k3 he).1 hk).symm
  obtain ⟨l1, l2⟩ := notify_append A (.foreign K gs :: B) A' 0 hA
  rw [Nat.zero_add, ← hw] at l2
  have hub : onRemoving K gs e = .ub → (erase lt n k t).2 = .ub := by
    intro hu
    have : notifyAll t (.removing e) A.length (.foreign K gs :: B) = (.foreign K gs :: B, .ub) := by simp only [notifyAll, fails, foreignOn, hu]; rfl
    rw [this] at l2
    simp only [erase, k1, hee, l2]
  refine ⟨fun hno => hub (u1 hno), fun x hx y hy hxy ex ey => hub (u2 x y hx hy hxy ex ey), fun y hy ey huniq => ?_⟩
  obtain ⟨gs', evs, r1, r2⟩ := u3 y hy ey huniq
  have hn : notifyAll t (.removing e) A.length (.foreign K gs :: B) = (.foreign K gs' :: (notifyAll t (.removing e) (A.length + 1) B).1, (notifyAll t (.removing e) (A.length + 1) B).2) := by
    simp only [notifyAll, fails, foreignOn, r1]; rfl
  rw [hn] at l2
  have hlook : lookup K gs' (K.fk y) = .ok none := by
    rcases lookup_ok w2 r2 (K.fk y) with ⟨M, m1, m2, m3, m4⟩ | ⟨m1, _⟩
    · cases M with
      | nil => exact absurd rfl m2
      | cons x M =>
        obtain ⟨⟨hx, hxy⟩, hxk⟩ := (m4 x).1 List.mem_cons_self
        exact absurd (huniq x hx (StrictWeak.eqv_trans w2 hxk ey)) hxy
    · exact m1
  have hys := (h.mem y).2 (h.sub L hLm y hy)
  have hye : y ≠ e := fun hq => hu (hq ▸ hy)
  have hget : ∀ Q : List (Watcher α κ φ), (A' ++ .foreign K gs' :: Q)[A.length]? = some (.foreign K gs') := by
    intro Q; rw [← l1]; exact getElem_mid A' Q _
  cases hq : (notifyAll t (.removing e) (A.length + 1) B).2 with
  | ub => left; simp only [erase, k1, hee, l2, hq]
  | throw x =>
    right
    simp only [erase, k1, hee, l2, hq]
    exact ⟨hys, gs', hget _, hlook⟩
  | ok u =>
    right
    simp only [erase, k1, hee, l2, hq, k4]
    exact ⟨(k6 y).2 ⟨hys, by rw [hee]; exact hye⟩, gs', hget _, hlook⟩

/-- The insertion of 15 is stopped by an observer; its removal is undefined. -/
example : (run numLt Net.init ([.subscribe, .attach digits (fun _ => false), .insert 15 (· == 0), .erase 15 (fun _ => false)] : List (Op Nat Nat Nat))).2
    = [.ok true, .ok true, .throw (.user 0), .ub] := by decide

/-- The `foreign_set` has no memory for 15, but knows 25: the removal of 15 makes it forget 25. -/
example : (run numLt Net.init ([.attach digits (fun _ => false), .insert 25 (fun _ => false), .insert 15 (· == 0), .erase 15 (fun _ => false)] : List (Op Nat Nat Nat))).2
    = [.ok true, .ok true, .throw (.user 0), .ok true] ∧
    ∃ o, (run numLt Net.init ([.attach digits (fun _ => false), .insert 25 (fun _ => false), .insert 15 (· == 0), .erase 15 (fun _ => false)] : List (Op Nat Nat Nat))).1
      = ⟨o, [.foreign digits []]⟩ ∧ o.set.forward = [25] := ⟨by decide, _, rfl, by decide⟩

/-- An observer behind the `foreign_set` stops the removal of 15 twice. -/
example : (run numLt Net.init ([.attach digits (fun _ => false), .subscribe, .insert 25 (fun _ => false), .insert 35 (fun _ => false), .insert 15 (fun _ => false),
    .erase 15 (· == 1), .erase 15 (· == 1)] : List (Op Nat Nat Nat))).2 = [.ok true, .ok true, .ok true, .ok true, .ok true, .throw (.user 1), .ub] := by decide

end Verif.ForeignSet.Throw
