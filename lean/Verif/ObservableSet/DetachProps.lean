import Verif.ObservableSet.MirrorsProps
import Verif.ObservableSet.ThrowProps

/-!
# C172: a mirror that is unsubscribed by hand, in general
-/

namespace Verif.ObservableSet

open Verif.VectorSet
open Verif.VectorSet.Spec (eqv)
open Throw (mirror_added_dup reflect_cases)

variable {α : Type}

/-- **C172 is violated** after every program, for every mirror that is attached to a set with elements.  `UnsubscribeSelf` is accepted and takes the mirror off the set,
but the mirror keeps all the elements though it is attached to nothing.  Attached to that set again it throws.  Attached to any other set it throws too, or it is
attached and has the old elements beside those of its set. -/
theorem c172_every_unsubscribed_violated {lt lt' : α → α → Bool} (hlt : StrictWeak lt) (hlt' : StrictWeak lt') (hfine : ∀ x y, eqv lt' x y = true → eqv lt x y = true)
    {ops : List (MOp α)} (hk : ∀ op ∈ ops, Kept op) {st : MState α} (hr : MState.init.run lt lt' ops = .ok st) {k i : Nat} {o : OSet α}
    (hi : st.sets.sets i = some o) (ha : k ∈ o.subs) (hne : o.set.forward ≠ []) :
    ∃ st' v, st.step lt lt' (.detach k) = .ok st' ∧ ¬ Attached st' k ∧ st'.mirrors k = some v ∧ (∀ x, x ∈ v.forward ↔ x ∈ o.set.forward) ∧ v.forward ≠ [] ∧
      st'.step lt lt' (.reflect k i) = .throw .logic ∧
      ∀ j p, st.sets.sets j = some p → st'.step lt lt' (.reflect k j) = .throw .logic ∨
        ∃ st'' p' u, st'.step lt lt' (.reflect k j) = .ok st'' ∧ st''.sets.sets j = some p' ∧ k ∈ p'.subs ∧ p'.set = p.set ∧ st''.mirrors k = some u ∧
          ∀ x, x ∈ u.forward ↔ x ∈ o.set.forward ∨ x ∈ p.set.forward := by
  have h := (MInv.init lt lt').run hlt hlt' hfine ops hk hr
  obtain ⟨v, hv, hve⟩ := h.att i o k hi ha
  have hc := (subscribed_iff h.sets.now k).2 ⟨i, o, hi, ha⟩
  have hn : ¬ Attached (⟨st.sets.leave k, st.mirrors⟩ : MState α) k := by
    rintro ⟨j, q, hj, hq⟩
    obtain ⟨p, _, rfl⟩ := mapSubs_some hj
    exact (mem_leave.1 hq).1 rfl
  have hsub : (st.sets.leave k).subscribed k = false := by
    cases hc : (st.sets.leave k).subscribed k with
    | false => rfl
    | true => exact (hn ((subscribed_iff (h.sets.leave k).now k).1 hc)).elim
  have hget : ∀ j p, st.sets.sets j = some p → (st.sets.leave k).sets j = some { p with subs := p.subs.filter (· ≠ k) } := fun j p hj => mapSubs_get _ hj
  refine ⟨⟨st.sets.leave k, st.mirrors⟩, v, by simp only [MState.step, hv, hc, if_true], hn, hv, hve, ?_, ?_, ?_⟩
  · intro h0
    cases hf : o.set.forward with
    | nil => exact hne hf
    | cons a S => have := (hve a).2 (by rw [hf]; simp); rw [h0] at this; cases this
  · simp only [MState.step, hv, hget i o hi, reflect]
    cases hf : o.set.forward with
    | nil => exact (hne hf).elim
    | cons a S =>
      have hd : (OSet.mk v []).set.forward.any (fun b => eqv lt' b a) = true :=
        List.any_eq_true.2 ⟨a, (hve a).2 (by rw [hf]; simp), eqv_refl hlt' a⟩
      simp only [List.map_cons, mirrorRun, mirror_added_dup hlt' (h.inv k v hv) hd, Res.throw_bind]
  · intro j p hj
    rcases reflect_cases hlt' p.set.forward ⟨v, []⟩ (h.inv k v hv) with ⟨m, notes, q1, _, q3⟩ | q
    · have hs : (st.sets.leave k).step lt (.subscribe j k) = .ok (⟨(st.sets.leave k).sets.set j (some ⟨p.set, p.subs.filter (· ≠ k) ++ [k]⟩), (st.sets.leave k).names⟩, .unit,
          [.started k p.set.forward]) := by
        simp only [State.step, ObservableSet.step, hget j p hj, hsub]
        rfl
      refine .inr ⟨⟨⟨(st.sets.leave k).sets.set j (some ⟨p.set, p.subs.filter (· ≠ k) ++ [k]⟩), (st.sets.leave k).names⟩, setMirror st.mirrors k (some m.set)⟩,
        ⟨p.set, p.subs.filter (· ≠ k) ++ [k]⟩, m.set, by simp only [MState.step, hv, hget j p hj, reflect, q1, Res.ok_bind, hs], set_same _ _ _, by simp, rfl,
        setMirror_same _ _ _, fun x => ?_⟩
      rw [q3]; exact or_congr (hve x) Iff.rfl
    · left
      simp only [MState.step, hv, hget j p hj, reflect, q, Res.throw_bind]

/-- Mirror 8 of the story is attached to the set 2, which has three elements. -/
example : shows 2 [7, 8, 9] (MState.init.run (fun a b => decide (a < b)) (fun a b => decide (b < a)) (story ++ [.detach 8, .source (.create 3), .source (.on 3 (.insert 1)), .reflect 8 3])) =
    (some ([3, 4, 5], [9]), [some [], some [5, 4, 3, 1], some [5, 4, 3]]) := by decide +kernel

end Verif.ObservableSet
