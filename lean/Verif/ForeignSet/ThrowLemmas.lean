import Verif.ForeignSet.ThrowSpec
import Verif.ForeignSet.Props
import Verif.ObservableSet.ThrowLemmas
import Mathlib.Data.List.Forall2

/-! # Lemmas about a `foreign_set` and exceptions -/

namespace Verif.ForeignSet.Throw

open Verif.VectorSet
open Verif.VectorSet.Spec (eqv)
open Verif.ObservableSet
open Verif.ForeignSet.Throw.Spec (handle ready result)

variable {α κ φ : Type}

theorem finv_congr {K : Keys α κ φ} {gs : List (OSet α)} {S S' : α → Prop} (h : FInv K gs S) (he : ∀ x, S x ↔ S' x) : FInv K gs S' :=
  ⟨h.inv, h.ne, h.same, h.sorted, fun x => (he x).symm.trans (h.mem x)⟩

/-! ### What the specification does -/

theorem handle_sub {t : Nat → Bool} {grows : Bool} {f : List α → List α} {T T' : List α} (h1 : ∀ L : List α, (∀ x ∈ L, x ∈ T) → ∀ x ∈ f L, x ∈ T') (h2 : ∀ x ∈ T, x ∈ T') :
    ∀ (ks : List (Option (List α))) (i : Nat), (∀ L, some L ∈ ks → ∀ x ∈ L, x ∈ T) → ∀ L, some L ∈ (handle t grows f i ks).1 → ∀ x ∈ L, x ∈ T' := by
  intro ks
  induction ks with
  | nil => intro i _ L hL; simp [handle] at hL
  | cons k ks ih =>
    intro i h L hL
    have hold : some L ∈ k :: ks → ∀ x ∈ L, x ∈ T' := fun hm x hx => h2 x (h L hm x hx)
    have ih' := ih (i + 1) (fun L hL => h L (List.mem_cons_of_mem _ hL))
    cases k with
    | none =>
      simp only [handle] at hL
      split at hL
      · exact hold hL
      · rcases List.mem_cons.1 hL with hL | hL
        · cases hL
        · exact ih' L hL
    | some M =>
      simp only [handle] at hL
      split at hL
      · exact hold hL
      · rcases List.mem_cons.1 hL with hL | hL
        · cases hL; exact h1 M (h M List.mem_cons_self)
        · exact ih' L hL

/-- When no observer throws, every `foreign_set` has handled the event. -/
theorem handle_all {t : Nat → Bool} {grows : Bool} {f : List α → List α} : ∀ (ks : List (Option (List α))) (i : Nat), (handle t grows f i ks).2 = none →
    (handle t grows f i ks).1 = ks.map (Option.map f) := by
  intro ks
  induction ks with
  | nil => intro i _; rfl
  | cons k ks ih =>
    intro i h
    cases k with
    | none =>
      simp only [handle] at h ⊢
      split at h
      · cases h
      · next ht => simp only [ht]; simp [ih (i + 1) h]
    | some M =>
      simp only [handle] at h ⊢
      split at h
      · cases h
      · next ht => simp only [ht]; simp [ih (i + 1) h]

/-! ### The observers -/

/-- An observer of the model and what it knows. -/
def W (lt : α → α → Bool) (P : α → Prop) : Watcher α κ φ → Option (List α) → Prop
  | .foreign K gs, some L => StrictWeak K.ltP ∧ StrictWeak K.ltF ∧ PrimaryUnique K lt P ∧ FInv K gs (· ∈ L)
  | .other, none => True
  | _, _ => False

/-- What the exception of an observer makes of the call. -/
def called : Option Nat → Res Unit
  | none => .ok ()
  | some i => .throw (.user i)

def readyG (c : List α → Bool) (t : Nat → Bool) : Nat → List (Option (List α)) → Bool
  | _, [] => true
  | i, none :: ks => t i || readyG c t (i + 1) ks
  | i, some L :: ks => c L && readyG c t (i + 1) ks

theorem readyG_true (t : Nat → Bool) : ∀ (ks : List (Option (List α))) (i : Nat), readyG (fun _ => true) t i ks = true := by
  intro ks
  induction ks with
  | nil => intro i; rfl
  | cons k ks ih => intro i; cases k <;> simp [readyG, ih]

theorem ready_eq (lt : α → α → Bool) (k : α) (t : Nat → Bool) : ∀ (ks : List (Option (List α))) (i : Nat),
    ready lt k t i ks = readyG (fun L => L.any (fun a => eqv lt a k)) t i ks := by
  intro ks
  induction ks with
  | nil => intro i; rfl
  | cons k ks ih => intro i; cases k <;> simp [readyG, ready, ih]

def grows : Event α → Bool
  | .added _ => true
  | _ => false

theorem notify_rel {lt : α → α → Bool} {P : α → Prop} {t : Nat → Bool} {e : Event α} {f : List α → List α} {c : List α → Bool} :
    ∀ (ws : List (Watcher α κ φ)) (ks : List (Option (List α))) (i : Nat), List.Forall₂ (W lt P) ws ks →
    (∀ (K : Keys α κ φ) gs L, some L ∈ ks → W lt P (.foreign K gs) (some L) → c L = true →
      ∃ gs' evs, foreignOn K gs e = .ok (gs', evs) ∧ W lt P (.foreign K gs') (some (f L))) →
    readyG c t i ks = true →
    ∃ ws', notifyAll t e i ws = (ws', called (handle t (grows e) f i ks).2) ∧ List.Forall₂ (W lt P) ws' (handle t (grows e) f i ks).1 := by
  intro ws
  induction ws with
  | nil => intro ks i h _ _; cases h; exact ⟨[], rfl, .nil⟩
  | cons w ws ih =>
    intro ks i h hf hc
    cases h with
    | @cons _ k _ ks hw hws =>
    have hf' := fun K gs L hL => hf K gs L (List.mem_cons_of_mem _ hL)
    cases w with
    | other =>
      cases k with
      | some L => exact hw.elim
      | none =>
        simp only [notifyAll, handle]
        cases ht : t i with
        | true => exact ⟨.other :: ws, rfl, .cons trivial hws⟩
        | false =>
          simp only [readyG, ht, Bool.false_or] at hc
          obtain ⟨ws', q1, q2⟩ := ih ks (i + 1) hws hf' hc
          exact ⟨.other :: ws', by simp only [q1]; rfl, .cons trivial q2⟩
    | foreign K gs =>
      cases k with
      | none => exact hw.elim
      | some L =>
        have hfa : fails (t i) e = (grows e && t i) := by cases e <;> simp [fails, grows]
        simp only [notifyAll, handle, hfa]
        cases ht : (grows e && t i) with
        | true => exact ⟨.foreign K gs :: ws, rfl, .cons hw hws⟩
        | false =>
          simp only [readyG, Bool.and_eq_true] at hc
          obtain ⟨ws', q1, q2⟩ := ih ks (i + 1) hws hf' hc.2
          obtain ⟨gs', evs, p1, p2⟩ := hf K gs L List.mem_cons_self hw hc.1
          exact ⟨.foreign K gs' :: ws', by simp only [p1, q1]; rfl, .cons p2 q2⟩

theorem forall2_erase {R : Watcher α κ φ → Option (List α) → Prop} {ws : List (Watcher α κ φ)} {ks : List (Option (List α))} (h : List.Forall₂ R ws ks) :
    ∀ i, List.Forall₂ R (ws.eraseIdx i) (ks.eraseIdx i) := by
  induction h with
  | nil => intro i; simp
  | cons h1 h2 ih =>
    intro i
    cases i with
    | zero => simpa using h2
    | succ i =>
      simp only [List.eraseIdx_cons_succ]
      exact List.Forall₂.cons h1 (ih i)

/-! ### The state -/

structure Rel (lt : α → α → Bool) (P : α → Prop) (n : Net α κ φ) (s : Spec.St α) : Prop where
  inv : Inv lt n.src.set
  mem : ∀ a, a ∈ n.src.set.forward ↔ a ∈ s.src
  nd : s.src.Nodup
  sp : ∀ a ∈ s.src, P a
  sub : ∀ L, some L ∈ s.known → ∀ x ∈ L, x ∈ s.src
  ws : List.Forall₂ (W lt P) n.ws s.known

theorem Rel.any {lt : α → α → Bool} {P : α → Prop} {n : Net α κ φ} {s : Spec.St α} (h : Rel lt P n s) (q : α → Bool) : s.src.any q = n.src.set.forward.any q := by
  rw [Bool.eq_iff_iff, List.any_eq_true, List.any_eq_true]
  constructor
  · rintro ⟨x, h1, h2⟩; exact ⟨x, (h.mem x).2 h1, h2⟩
  · rintro ⟨x, h1, h2⟩; exact ⟨x, (h.mem x).1 h1, h2⟩

theorem Rel.length {lt : α → α → Bool} (hlt : StrictWeak lt) {P : α → Prop} {n : Net α κ φ} {s : Spec.St α} (h : Rel lt P n s) : n.src.set.forward.length = s.src.length :=
  List.Perm.length_eq ((List.perm_ext_iff_of_nodup (sorted_nodup hlt (ObservableSet.Throw.sorted_of h.inv)) h.nd).2 h.mem)

/-- The elements of the source that have the key `k`. -/
theorem Rel.unique {lt : α → α → Bool} (hlt : StrictWeak lt) {P : α → Prop} {n : Net α κ φ} {s : Spec.St α} (h : Rel lt P n s) {k e : α} (he : e ∈ n.src.set.forward)
    (hk : eqv lt e k = true) {x : α} (hx : x ∈ s.src) : eqv lt x k = true ↔ x = e := by
  have hm := mem_erase_eqv hlt (ObservableSet.Throw.sorted_of h.inv) he hk x
  have hx' := (h.mem x).2 hx
  constructor
  · intro hxk
    by_contra hne
    have := hm.2 ⟨hx', hne⟩
    simp [hxk] at this
  · rintro rfl; exact hk

/-! ### Operations -/

def Res2 (r : Option Nat) : Res Bool := called r >>= fun _ => .ok true

theorem result_eq (r : Option Nat) : result r = Res2 r := by cases r <;> rfl

theorem insert_rel {lt : α → α → Bool} (hlt : StrictWeak lt) {P : α → Prop} {n : Net α κ φ} {s : Spec.St α} (h : Rel lt P n s) {v : α} (hv : P v) (t : Nat → Bool)
    {s' : Spec.St α} {r : Res Bool} (hs : Spec.step lt s (.insert v t : Op α κ φ) = some (s', r)) : (insert lt n v t).2 = r ∧ Rel lt P (insert lt n v t).1 s' := by
  simp only [Spec.step, h.any] at hs
  rcases ObservableSet.Throw.src_insert hlt h.inv v with ⟨ha, o, x, notes, k1, k2, k3⟩ | ⟨ha, o, notes, k1, k2, k3⟩
  · simp only [ha, if_true, Option.some.injEq, Prod.mk.injEq] at hs
    obtain ⟨rfl, rfl⟩ := hs
    simp only [insert, k1]
    exact ⟨trivial, k2, fun a => by rw [k3]; exact h.mem a, h.nd, h.sp, h.sub, h.ws⟩
  · simp only [ha, Bool.false_eq_true, if_false, Option.some.injEq, Prod.mk.injEq] at hs
    obtain ⟨rfl, rfl⟩ := hs
    have hnew : ∀ a ∈ s.src, eqv lt a v = false := by
      intro a hm
      rw [List.any_eq_false] at ha
      simpa using ha a ((h.mem a).2 hm)
    obtain ⟨ws', q1, q2⟩ := notify_rel (lt := lt) (P := P) (t := t) (e := .added v) (f := (v :: ·)) (c := fun _ => true) n.ws s.known 0 h.ws (by
      intro K gs L hL hw _
      obtain ⟨w1, w2, w3, w4⟩ := hw
      obtain ⟨gs', evs, p1, p2, _⟩ := onAdded_ok w1 w2 w3 w4 (fun a hm => h.sp a (h.sub L hL a hm)) hv (fun a hm => hnew a (h.sub L hL a hm))
      exact ⟨gs', evs, p1, w1, w2, w3, finv_congr p2 (fun x => by simp only [applyEvent, List.mem_cons]; exact or_comm)⟩) (readyG_true t _ 0)
    simp only [insert, k1, q1, grows]
    refine ⟨(result_eq _).symm, k2, fun a => by simp only [k3, List.mem_cons]; rw [h.mem, or_comm], ?_, ?_, ?_, q2⟩
    · refine List.nodup_cons.2 ⟨fun hm => ?_, h.nd⟩
      have := hnew v hm
      rw [eqv_refl hlt] at this; cases this
    · intro a hm
      rcases List.mem_cons.1 hm with rfl | hm
      · exact hv
      · exact h.sp a hm
    · refine handle_sub (T := s.src) ?_ (fun x hx => List.mem_cons_of_mem _ hx) _ _ h.sub
      intro L hL x hx
      rcases List.mem_cons.1 hx with rfl | hx
      · exact List.mem_cons_self
      · exact List.mem_cons_of_mem _ (hL x hx)

theorem erase_rel {lt : α → α → Bool} (hlt : StrictWeak lt) {P : α → Prop} {n : Net α κ φ} {s : Spec.St α} (h : Rel lt P n s) (k : α) (t : Nat → Bool)
    {s' : Spec.St α} {r : Res Bool} (hs : Spec.step lt s (.erase k t : Op α κ φ) = some (s', r)) : (erase lt n k t).2 = r ∧ Rel lt P (erase lt n k t).1 s' := by
  simp only [Spec.step, h.any] at hs
  rcases ObservableSet.Throw.src_find hlt h.inv k with ⟨ha, k1⟩ | ⟨e, k1, k2, k3, o, notes, k4, k5, k6⟩
  · simp only [ha, Bool.false_eq_true, if_false, Option.some.injEq, Prod.mk.injEq] at hs
    obtain ⟨rfl, rfl⟩ := hs
    simp only [erase, k1]
    exact ⟨trivial, h⟩
  · have ha : n.src.set.forward.any (fun a => eqv lt a k) = true := List.any_eq_true.2 ⟨_, k2, k3⟩
    simp only [ha, if_true] at hs
    split at hs
    case isFalse => cases hs
    next hr =>
    simp only [Option.some.injEq, Prod.mk.injEq] at hs
    obtain ⟨rfl, rfl⟩ := hs
    rw [ready_eq] at hr
    have hu := fun x (hx : x ∈ s.src) => h.unique hlt k2 k3 hx
    obtain ⟨ws', q1, q2⟩ := notify_rel (lt := lt) (P := P) (t := t) (e := .removing e.val) (f := List.filter (fun a => !eqv lt a k))
      (c := fun L => L.any (fun a => eqv lt a k)) n.ws s.known 0 h.ws (by
      intro K gs L hL hw hc
      obtain ⟨w1, w2, w3, w4⟩ := hw
      obtain ⟨x, hx, hxk⟩ := List.any_eq_true.1 hc
      have hxe := (hu x (h.sub L hL x hx)).1 hxk
      obtain ⟨gs', evs, p1, p2, _⟩ := onRemoving_ok w1 w2 w4 (v := e.val) (hxe ▸ hx)
      refine ⟨gs', evs, p1, w1, w2, w3, finv_congr p2 (fun x => ?_)⟩
      simp only [applyEvent, List.mem_filter, Bool.not_eq_true']
      constructor
      · rintro ⟨hx, hne⟩
        refine ⟨hx, ?_⟩
        cases hxk : eqv lt x k with
        | false => rfl
        | true => exact absurd ((hu x (h.sub L hL x hx)).1 hxk) hne
      · rintro ⟨hx, hxk⟩
        refine ⟨hx, fun hxe => ?_⟩
        rw [(hu x (h.sub L hL x hx)).2 hxe] at hxk; cases hxk) hr
    have hg : grows (Event.removing e.val) = false := rfl
    rw [hg] at q1 q2
    simp only [erase, k1, q1]
    have hsub := fun T' h1 h2 => handle_sub (t := t) (grows := false) (f := List.filter (fun a => !eqv lt a k)) (T := s.src) (T' := T') h1 h2 s.known 0 h.sub
    have hall := handle_all (t := t) (grows := false) (f := List.filter (fun a => !eqv lt a k)) s.known 0
    generalize handle t false (List.filter (fun a => !eqv lt a k)) 0 s.known = hd at *
    obtain ⟨ks', q⟩ := hd
    simp only at q2 hsub hall ⊢
    cases q with
    | some i =>
      refine ⟨rfl, h.inv, h.mem, h.nd, h.sp, ?_, q2⟩
      exact hsub s.src (fun L hL x hx => hL x (List.mem_filter.1 hx).1) (fun x hx => hx)
    | none =>
      simp only [called, k4]
      refine ⟨rfl, k5, fun a => ?_, h.nd.filter _, fun a hm => h.sp a (List.mem_filter.1 hm).1, ?_, q2⟩
      · simp only [Option.isNone_none, if_true]
        rw [k6, List.mem_filter, h.mem, Bool.not_eq_true']
        constructor
        · rintro ⟨hx, hne⟩
          refine ⟨hx, ?_⟩
          cases hxk : eqv lt a k with
          | false => rfl
          | true => exact absurd ((hu a hx).1 hxk) hne
        · rintro ⟨hx, hxk⟩
          refine ⟨hx, fun hxe => ?_⟩
          rw [(hu a hx).2 hxe] at hxk; cases hxk
      · rw [hall rfl]
        intro L hL x hx
        obtain ⟨k', hk', hke⟩ := List.mem_map.1 hL
        cases k' with
        | none => cases hke
        | some M =>
          cases hke
          have := List.mem_filter.1 hx
          exact List.mem_filter.2 ⟨h.sub M hk' x this.1, this.2⟩

theorem clear_rel {lt : α → α → Bool} {P : α → Prop} {n : Net α κ φ} {s : Spec.St α} (h : Rel lt P n s) (t : Nat → Bool)
    {s' : Spec.St α} {r : Res Bool} (hs : Spec.step lt s (.clear t : Op α κ φ) = some (s', r)) : (clear n t).2 = r ∧ Rel lt P (clear n t).1 s' := by
  have he : s.src.isEmpty = n.src.set.isEmpty := by
    rw [isEmpty_iff h.inv, Bool.eq_iff_iff, List.isEmpty_iff, List.isEmpty_iff, List.eq_nil_iff_forall_not_mem, List.eq_nil_iff_forall_not_mem]
    exact forall_congr' (fun a => not_congr (h.mem a).symm)
  simp only [Spec.step, he] at hs
  cases hc : n.src.set.isEmpty with
  | true =>
    simp only [hc, if_true, Option.some.injEq, Prod.mk.injEq] at hs
    obtain ⟨rfl, rfl⟩ := hs
    simp only [clear, hc]
    exact ⟨rfl, h⟩
  | false =>
    simp only [hc, Bool.false_eq_true, if_false, Option.some.injEq, Prod.mk.injEq] at hs
    obtain ⟨rfl, rfl⟩ := hs
    obtain ⟨ws', q1, q2⟩ := notify_rel (lt := lt) (P := P) (t := t) (e := .clearing) (f := fun _ => []) (c := fun _ => true) n.ws s.known 0 h.ws (by
      intro K gs L hL hw _
      obtain ⟨w1, w2, w3, w4⟩ := hw
      exact ⟨_, _, rfl, w1, w2, w3, finv_congr (onClearing_ok w4).1 (fun x => by simp [applyEvent])⟩) (readyG_true t _ 0)
    have hg : grows (Event.clearing : Event α) = false := rfl
    rw [hg] at q1 q2
    have hsub := fun T' h1 h2 => handle_sub (t := t) (grows := false) (f := fun _ => []) (T := s.src) (T' := T') h1 h2 s.known 0 h.sub
    have hall := handle_all (t := t) (grows := false) (f := fun _ => []) s.known 0
    generalize hhd : handle t false (fun _ => []) 0 s.known = hd at *
    obtain ⟨ks', q⟩ := hd
    simp only at q2 hsub hall q1 ⊢
    cases q with
    | some i =>
      simp only [clear, hc, q1]
      refine ⟨rfl, h.inv, h.mem, h.nd, h.sp, ?_, q2⟩
      exact hsub s.src (fun L hL x hx => by simp at hx) (fun x hx => hx)
    | none =>
      simp only [clear, hc, q1]
      refine ⟨rfl, ?_, ?_, List.nodup_nil, by simp, ?_, q2⟩
      · simp only [OSet.clear, hc]; exact (clear_ok n.src.set).1
      · intro a
        simp only [OSet.clear, hc]
        show a ∈ ([] : List α) ↔ a ∈ (if (none : Option Nat).isNone then [] else s.src)
        simp
      · rw [hall rfl]
        intro L hL x hx
        obtain ⟨k', hk', hke⟩ := List.mem_map.1 hL
        cases k' with
        | none => cases hke
        | some M => cases hke; simp at hx

theorem build_rel {K : Keys α κ φ} (hP : StrictWeak K.ltP) (hF : StrictWeak K.ltF) {lt : α → α → Bool} {P : α → Prop} (hu : PrimaryUnique K lt P) (t : Nat → Bool) :
    ∀ (L : List α) (j : Nat) (S : α → Prop) (gs : List (OSet α)), FInv K gs S → (∀ a, S a → P a) → (∀ a ∈ L, P a) → (∀ a, S a → ∀ b ∈ L, eqv lt a b = false) →
    L.Pairwise (fun a b => eqv lt a b = false) →
    match (List.range' j L.length).find? t with
    | some i => build K t j gs L = .throw (.user i)
    | none => ∃ gs', build K t j gs L = .ok gs' ∧ FInv K gs' (fun a => S a ∨ a ∈ L) := by
  intro L
  induction L with
  | nil => intro j S gs h _ _ _ _; exact ⟨gs, rfl, finv_congr h (fun x => by simp)⟩
  | cons v L ih =>
    intro j S gs h hS hL hn hp
    rw [List.pairwise_cons] at hp
    simp only [List.length_cons, List.range'_succ, List.find?_cons]
    cases ht : t j with
    | true => simp only [build, ht, if_true]
    | false =>
      obtain ⟨gs1, evs, p1, p2, _⟩ := onAdded_ok hP hF hu h hS (hL v List.mem_cons_self) (fun a ha => hn a ha v List.mem_cons_self)
      have := ih (j + 1) (applyEvent S (.added v)) gs1 p2 (by
          intro a ha
          rcases ha with ha | rfl
          · exact hS a ha
          · exact hL _ List.mem_cons_self) (fun a ha => hL a (List.mem_cons_of_mem _ ha)) (by
          intro a ha b hb
          rcases ha with ha | rfl
          · exact hn a ha b (List.mem_cons_of_mem _ hb)
          · exact hp.1 b hb) hp.2
      simp only [build, ht, Bool.false_eq_true, if_false, p1, Res.ok_bind]
      cases hf : (List.range' (j + 1) L.length).find? t with
      | some i => simp only [hf] at this; exact this
      | none =>
        simp only [hf] at this
        obtain ⟨gs', r1, r2⟩ := this
        exact ⟨gs', r1, finv_congr r2 (fun x => by simp only [applyEvent, List.mem_cons, or_assoc])⟩

theorem attach_rel {lt : α → α → Bool} (hlt : StrictWeak lt) {P : α → Prop} {n : Net α κ φ} {s : Spec.St α} (h : Rel lt P n s) {K : Keys α κ φ} (hP : StrictWeak K.ltP)
    (hF : StrictWeak K.ltF) (hu : PrimaryUnique K lt P) (t : Nat → Bool) {s' : Spec.St α} {r : Res Bool} (hs : Spec.step lt s (.attach K t : Op α κ φ) = some (s', r)) :
    (attach n K t).2 = r ∧ Rel lt P (attach n K t).1 s' := by
  have hb := build_rel hP hF hu t n.src.set.forward 0 (fun _ => False) [] (FInv.empty K) (fun a h => h.elim) (fun a ha => h.sp a ((h.mem a).1 ha)) (fun a h => h.elim)
    ((ObservableSet.Throw.sorted_of h.inv).imp (fun {a b} hab => by simp [eqv, hab]))
  rw [h.length hlt, ← List.range_eq_range'] at hb
  simp only [Spec.step] at hs
  split at hb
  · next i hf =>
    simp only [hf, Option.some.injEq, Prod.mk.injEq] at hs
    obtain ⟨rfl, rfl⟩ := hs
    simp only [attach, hb]
    exact ⟨trivial, h⟩
  · next hf =>
    simp only [hf, Option.some.injEq, Prod.mk.injEq] at hs
    obtain ⟨rfl, rfl⟩ := hs
    obtain ⟨gs', r1, r2⟩ := hb
    simp only [attach, r1]
    refine ⟨trivial, h.inv, h.mem, h.nd, h.sp, ?_, List.rel_append h.ws (.cons ⟨hP, hF, hu, finv_congr r2 (fun x => ?_)⟩ .nil)⟩
    · intro L hL
      rcases List.mem_append.1 hL with hL | hL
      · exact h.sub L hL
      · rw [List.mem_singleton] at hL; cases hL; exact fun x hx => hx
    · simp [h.mem]

theorem step_rel {lt : α → α → Bool} (hlt : StrictWeak lt) {P : α → Prop} {n : Net α κ φ} {s : Spec.St α} (h : Rel lt P n s) (op : Op α κ φ)
    (hop : Spec.Program lt P [op]) {s' : Spec.St α} {r : Res Bool} (hs : Spec.step lt s op = some (s', r)) :
    (step lt n op).2 = r ∧ Rel lt P (step lt n op).1 s' := by
  cases op with
  | insert v t => exact insert_rel hlt h (hop.1 v t List.mem_cons_self) t hs
  | erase k t => exact erase_rel hlt h k t hs
  | clear t => exact clear_rel h t hs
  | attach K t =>
    obtain ⟨h1, h2, h3⟩ := hop.2 K t List.mem_cons_self
    exact attach_rel hlt h h1 h2 h3 t hs
  | subscribe =>
    simp only [Spec.step, Option.some.injEq, Prod.mk.injEq] at hs
    obtain ⟨rfl, rfl⟩ := hs
    refine ⟨rfl, h.inv, h.mem, h.nd, h.sp, ?_, List.rel_append h.ws (.cons trivial .nil)⟩
    intro L hL
    rcases List.mem_append.1 hL with hL | hL
    · exact h.sub L hL
    · rw [List.mem_singleton] at hL; cases hL
  | detach i =>
    simp only [Spec.step, Option.some.injEq, Prod.mk.injEq] at hs
    obtain ⟨rfl, rfl⟩ := hs
    exact ⟨rfl, h.inv, h.mem, h.nd, h.sp, fun L hL => h.sub L (List.mem_of_mem_eraseIdx hL), forall2_erase h.ws i⟩

theorem program_cons {lt : α → α → Bool} {P : α → Prop} {op : Op α κ φ} {ops : List (Op α κ φ)} (h : Spec.Program lt P (op :: ops)) :
    Spec.Program lt P [op] ∧ Spec.Program lt P ops :=
  ⟨⟨fun v t hm => h.1 v t (by rw [List.mem_singleton] at hm; rw [hm]; exact List.mem_cons_self),
    fun K t hm => h.2 K t (by rw [List.mem_singleton] at hm; rw [hm]; exact List.mem_cons_self)⟩,
   ⟨fun v t hm => h.1 v t (List.mem_cons_of_mem _ hm), fun K t hm => h.2 K t (List.mem_cons_of_mem _ hm)⟩⟩

theorem run_rel {lt : α → α → Bool} (hlt : StrictWeak lt) {P : α → Prop} (ops : List (Op α κ φ)) : ∀ {n : Net α κ φ} {s : Spec.St α}, Rel lt P n s → Spec.Program lt P ops →
    ∀ {s' : Spec.St α} {rs : List (Res Bool)}, Spec.run lt s ops = some (s', rs) → (run lt n ops).2 = rs ∧ Rel lt P (run lt n ops).1 s' := by
  induction ops with
  | nil =>
    intro n s h _ s' rs hs
    simp only [Spec.run, Option.some.injEq, Prod.mk.injEq] at hs
    obtain ⟨rfl, rfl⟩ := hs
    exact ⟨rfl, h⟩
  | cons op ops ih =>
    intro n s h hp s' rs hs
    obtain ⟨hp1, hp2⟩ := program_cons hp
    simp only [Spec.run] at hs
    split at hs
    · cases hs
    · next s1 r h1 =>
      rw [Option.map_eq_some_iff] at hs
      obtain ⟨⟨s2, rs2⟩, h2, h3⟩ := hs
      simp only [Prod.mk.injEq] at h3
      obtain ⟨rfl, rfl⟩ := h3
      obtain ⟨k1, k2⟩ := step_rel hlt h op hp1 h1
      obtain ⟨q1, q2⟩ := ih k2 hp2 h2
      exact ⟨by simp only [run, k1, q1], q2⟩

theorem init_rel (lt : α → α → Bool) (P : α → Prop) : Rel lt P (Net.init : Net α κ φ) ⟨[], []⟩ :=
  ⟨ObservableSet.Throw.empty_inv lt, fun a => Iff.rfl, List.nodup_nil, by simp, by simp, .nil⟩

theorem shows_of {lt : α → α → Bool} {P : α → Prop} {w : Watcher α κ φ} {k : Option (List α)} (h : W lt P w k) : Spec.Shows w k := by
  cases w with
  | other => cases k with
    | none => trivial
    | some L => exact h.elim
  | foreign K gs => cases k with
    | none => exact h.elim
    | some L =>
      obtain ⟨h1, h2, h3, h4⟩ := h
      refine ⟨fun k => lookup_ok h2 h4 k, ?_, h4.ne⟩
      rw [List.pairwise_map]; exact h4.sorted

/-! ### Without exceptions -/

def Agree (s : Spec.St α) : Prop := ∀ L, some L ∈ s.known → ∀ x, x ∈ L ↔ x ∈ s.src

theorem map_agree {f : List α → List α} {ks : List (Option (List α))} {T T' : List α} (h : ∀ L, some L ∈ ks → ∀ x, x ∈ L ↔ x ∈ T)
    (hf : ∀ L : List α, (∀ x, x ∈ L ↔ x ∈ T) → ∀ x, x ∈ f L ↔ x ∈ T') : ∀ L, some L ∈ ks.map (Option.map f) → ∀ x, x ∈ L ↔ x ∈ T' := by
  intro L hL
  obtain ⟨k, h1, h2⟩ := List.mem_map.1 hL
  cases k with
  | none => cases h2
  | some M => cases h2; exact hf M (h M h1)

theorem ready_agree {lt : α → α → Bool} {k : α} {t : Nat → Bool} : ∀ (ks : List (Option (List α))) (i : Nat), (∀ L, some L ∈ ks → L.any (fun a => eqv lt a k) = true) →
    ready lt k t i ks = true := by
  intro ks
  induction ks with
  | nil => intro i _; rfl
  | cons k ks ih =>
    intro i h
    have ih' := ih (i + 1) (fun L hL => h L (List.mem_cons_of_mem _ hL))
    cases k with
    | none => simp [ready, ih']
    | some M => simp [ready, ih', h M List.mem_cons_self]

theorem step_agree {lt : α → α → Bool} {s : Spec.St α} (h : Agree s) (op : Op α κ φ) :
    ∃ s' r, Spec.step lt s op = some (s', r) ∧ ((∃ x, r = .throw x) ∨ ((∃ b, r = .ok b) ∧ Agree s')) := by
  cases op with
  | insert v t =>
    simp only [Spec.step]
    split
    · exact ⟨_, _, rfl, .inr ⟨⟨_, rfl⟩, h⟩⟩
    · refine ⟨_, _, rfl, ?_⟩
      have hall := handle_all (t := t) (grows := true) (f := (v :: ·)) s.known 0
      cases hq : (handle t true (v :: ·) 0 s.known).2 with
      | some i => exact .inl ⟨_, rfl⟩
      | none =>
        refine .inr ⟨⟨_, rfl⟩, ?_⟩
        show ∀ L, some L ∈ (handle t true (v :: ·) 0 s.known).1 → _
        rw [hall hq]
        exact map_agree h (fun L hL x => by simp [hL])
  | erase k t =>
    simp only [Spec.step]
    split
    · next ha =>
      rw [ready_agree s.known 0 (fun L hL => by
        obtain ⟨x, h1, h2⟩ := List.any_eq_true.1 ha
        exact List.any_eq_true.2 ⟨x, (h L hL x).2 h1, h2⟩)]
      simp only [if_true]
      refine ⟨_, _, rfl, ?_⟩
      have hall := handle_all (t := t) (grows := false) (f := List.filter (fun a => !eqv lt a k)) s.known 0
      cases hq : (handle t false (List.filter (fun a => !eqv lt a k)) 0 s.known).2 with
      | some i => exact .inl ⟨_, rfl⟩
      | none =>
        refine .inr ⟨⟨_, rfl⟩, ?_⟩
        show ∀ L, some L ∈ (handle t false (List.filter (fun a => !eqv lt a k)) 0 s.known).1 → _
        rw [hall hq]
        exact map_agree h (fun L hL x => by simp [hL])
    · exact ⟨_, _, rfl, .inr ⟨⟨_, rfl⟩, h⟩⟩
  | clear t =>
    simp only [Spec.step]
    split
    · exact ⟨_, _, rfl, .inr ⟨⟨_, rfl⟩, h⟩⟩
    · refine ⟨_, _, rfl, ?_⟩
      have hall := handle_all (t := t) (grows := false) (f := fun _ => []) s.known 0
      cases hq : (handle t false (fun _ => []) 0 s.known).2 with
      | some i => exact .inl ⟨_, rfl⟩
      | none =>
        refine .inr ⟨⟨_, rfl⟩, ?_⟩
        show ∀ L, some L ∈ (handle t false (fun _ => []) 0 s.known).1 → _
        rw [hall hq]
        exact map_agree h (fun L hL x => by simp)
  | attach K t =>
    simp only [Spec.step]
    split
    · exact ⟨_, _, rfl, .inl ⟨_, rfl⟩⟩
    · refine ⟨_, _, rfl, .inr ⟨⟨_, rfl⟩, ?_⟩⟩
      intro L hL
      rcases List.mem_append.1 hL with hL | hL
      · exact h L hL
      · rw [List.mem_singleton] at hL; cases hL; exact fun x => Iff.rfl
  | subscribe =>
    refine ⟨_, _, rfl, .inr ⟨⟨_, rfl⟩, ?_⟩⟩
    intro L hL
    rcases List.mem_append.1 hL with hL | hL
    · exact h L hL
    · rw [List.mem_singleton] at hL; cases hL
  | detach i => exact ⟨_, _, rfl, .inr ⟨⟨_, rfl⟩, fun L hL => h L (List.mem_of_mem_eraseIdx hL)⟩⟩

end Verif.ForeignSet.Throw
