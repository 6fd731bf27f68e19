import Verif.Stop.Model

namespace Verif.Stop

def upd {α : Type} (f : Nat → α) (t : Nat) (x : α) : Nat → α := fun u => if u = t then x else f u

@[grind =] theorem upd_same {α : Type} (f : Nat → α) (t : Nat) (x : α) : upd f t x t = x := by simp [upd]

@[grind =] theorem upd_apply {α : Type} (f : Nat → α) (t u : Nat) (x : α) : upd f t x u = if u = t then x else f u := rfl

/-- The steps one by one. -/
inductive Tr (s : State) (t : Nat) : State → Prop where
  | idle : Tr s t s
  | request : (s.threads t).pc = .user → s.sources ≠ 0 →
      Tr s t { s with threads := upd s.threads t ⟨.stopTry, (s.threads t).stack⟩, busy := t :: s.busy }
  | construct : (s.threads t).pc = .user →
      Tr s t { s with threads := upd s.threads t ⟨.addTry s.next, (s.threads t).stack⟩, cbs := upd s.cbs s.next (some ⟨.trying, t, false, false, false, none⟩), next := s.next + 1 }
  | destroy (c : Nat) (r : Rec) : s.cbs c = some r → (s.threads t).pc = .user → r.stage = .built → r.dying = none → r.reg = true →
      Tr s t { s with threads := upd s.threads t ⟨.remLock c, (s.threads t).stack⟩, cbs := upd s.cbs c (some { r with dying := some t }) }
  | destroy' (c : Nat) (r : Rec) : s.cbs c = some r → (s.threads t).pc = .user → r.stage = .built → r.dying = none → r.reg = false →
      Tr s t { s with cbs := upd s.cbs c none, log := .destroyed c t :: s.log }
  | ret (c : Nat) (m d : Bool) (st : List UFrame) : (s.threads t).pc = .user → (s.threads t).stack = .call c m d :: st →
      Tr s t { s with threads := upd s.threads t ⟨.stopAfter c m d, st⟩, log := .ended c t :: s.log }
  | ret' (c : Nat) (r : Rec) (st : List UFrame) : (s.threads t).pc = .user → (s.threads t).stack = .inline c :: st → s.cbs c = some r →
      Tr s t { s with threads := upd s.threads t ⟨.user, st⟩, cbs := upd s.cbs c (some { r with stage := .built }), log := .ended c t :: s.log }
  | newSource : (s.threads t).pc = .user → s.sources ≠ 0 → Tr s t { s with sources := s.sources + 1 }
  | dropSource : (s.threads t).pc = .user → s.sources ≠ 0 → (s.sources ≠ 1 ∨ s.busy = []) → Tr s t { s with sources := s.sources - 1 }
  | lost : (s.threads t).pc = .stopTry → s.stop = true →
      Tr s t { s with threads := upd s.threads t ⟨.user, (s.threads t).stack⟩, log := .requested t false :: s.log, busy := s.busy.erase t }
  | won : (s.threads t).pc = .stopTry → s.stop = false → s.locked = none →
      Tr s t { s with threads := upd s.threads t ⟨.stopSig, (s.threads t).stack⟩, stop := true, locked := some t, winner := some t }
  | sig : (s.threads t).pc = .stopSig → Tr s t { s with threads := upd s.threads t ⟨.stopHead, (s.threads t).stack⟩, sig := some t }
  | empty : (s.threads t).pc = .stopHead → s.queue = [] → Tr s t { s with threads := upd s.threads t ⟨.stopEnd, (s.threads t).stack⟩ }
  | dequeue (c : Nat) (q : List Nat) : (s.threads t).pc = .stopHead → s.queue = c :: q →
      Tr s t { s with threads := upd s.threads t ⟨.stopUnlock c (!q.isEmpty), (s.threads t).stack⟩, queue := q }
  | stopUnlock (c : Nat) (m : Bool) : (s.threads t).pc = .stopUnlock c m →
      Tr s t { s with threads := upd s.threads t ⟨.stopMark c m, (s.threads t).stack⟩, locked := none }
  | start (c : Nat) (m : Bool) (r : Rec) : (s.threads t).pc = .stopMark c m → s.cbs c = some r →
      Tr s t { s with threads := upd s.threads t ⟨.user, .call c m false :: (s.threads t).stack⟩, cbs := upd s.cbs c (some { r with mark := true }), log := .started c t :: s.log }
  | finished (c : Nat) (m : Bool) (r : Rec) : (s.threads t).pc = .stopAfter c m false → m = true → s.cbs c = some r →
      Tr s t { s with threads := upd s.threads t ⟨.stopRelock, (s.threads t).stack⟩, cbs := upd s.cbs c (some { r with mark := false, fin := true }) }
  | finished' (c : Nat) (m : Bool) (r : Rec) : (s.threads t).pc = .stopAfter c m false → m = false → s.cbs c = some r →
      Tr s t { s with threads := upd s.threads t ⟨.user, (s.threads t).stack⟩, cbs := upd s.cbs c (some { r with mark := false, fin := true }), log := .requested t true :: s.log, busy := s.busy.erase t }
  | gone (c : Nat) (m : Bool) : (s.threads t).pc = .stopAfter c m true → m = true →
      Tr s t { s with threads := upd s.threads t ⟨.stopRelock, (s.threads t).stack⟩ }
  | gone' (c : Nat) (m : Bool) : (s.threads t).pc = .stopAfter c m true → m = false →
      Tr s t { s with threads := upd s.threads t ⟨.user, (s.threads t).stack⟩, log := .requested t true :: s.log, busy := s.busy.erase t }
  | relock : (s.threads t).pc = .stopRelock → s.locked = none →
      Tr s t { s with threads := upd s.threads t ⟨.stopHead, (s.threads t).stack⟩, locked := some t }
  | stopEnd : (s.threads t).pc = .stopEnd →
      Tr s t { s with threads := upd s.threads t ⟨.user, (s.threads t).stack⟩, locked := none, log := .requested t true :: s.log, busy := s.busy.erase t }
  | inline (c : Nat) (r : Rec) : (s.threads t).pc = .addTry c → s.cbs c = some r → s.stop = true →
      Tr s t { s with threads := upd s.threads t ⟨.user, .inline c :: (s.threads t).stack⟩, cbs := upd s.cbs c (some { r with stage := .inline }), log := .started c t :: s.log }
  | noSource (c : Nat) (r : Rec) : (s.threads t).pc = .addTry c → s.cbs c = some r → s.stop = false → s.sources = 0 →
      Tr s t { s with threads := upd s.threads t ⟨.user, (s.threads t).stack⟩, cbs := upd s.cbs c (some { r with stage := .built }) }
  | addLock (c : Nat) (r : Rec) : (s.threads t).pc = .addTry c → s.cbs c = some r → s.stop = false → s.sources ≠ 0 → s.locked = none →
      Tr s t { s with threads := upd s.threads t ⟨.addPush c, (s.threads t).stack⟩, locked := some t }
  | push (c : Nat) (r : Rec) : (s.threads t).pc = .addPush c → s.cbs c = some r →
      Tr s t { s with threads := upd s.threads t ⟨.addUnlock c, (s.threads t).stack⟩, cbs := upd s.cbs c (some { r with stage := .pushed }), queue := c :: s.queue, log := .registered c :: s.log }
  | addUnlock (c : Nat) : (s.threads t).pc = .addUnlock c →
      Tr s t { s with threads := upd s.threads t ⟨.addRet c, (s.threads t).stack⟩, locked := none }
  | addRet (c : Nat) (r : Rec) : (s.threads t).pc = .addRet c → s.cbs c = some r →
      Tr s t { s with threads := upd s.threads t ⟨.user, (s.threads t).stack⟩, cbs := upd s.cbs c (some { r with stage := .built, reg := true }) }
  | remLock (c : Nat) : (s.threads t).pc = .remLock c → s.locked = none →
      Tr s t { s with threads := upd s.threads t ⟨.remHave c, (s.threads t).stack⟩, locked := some t }
  | unlink (c : Nat) (r : Rec) : (s.threads t).pc = .remHave c → s.cbs c = some r → c ∈ s.queue →
      Tr s t { s with threads := upd s.threads t ⟨.remFree c, (s.threads t).stack⟩, queue := s.queue.erase c, log := .unlinked c :: s.log }
  | notLinked (c : Nat) (r : Rec) : (s.threads t).pc = .remHave c → s.cbs c = some r → c ∉ s.queue →
      Tr s t { s with threads := upd s.threads t ⟨.remUnlock c, (s.threads t).stack⟩ }
  | remFree (c : Nat) : (s.threads t).pc = .remFree c →
      Tr s t { s with threads := upd s.threads t ⟨.remRet c, (s.threads t).stack⟩, locked := none }
  | remUnlock (c : Nat) : (s.threads t).pc = .remUnlock c →
      Tr s t { s with threads := upd s.threads t ⟨.remCheck c, (s.threads t).stack⟩, locked := none }
  | self (c : Nat) (r : Rec) (st : List UFrame) : (s.threads t).pc = .remCheck c → s.sig = some t → s.cbs c = some r → r.mark = true →
      markRemoved c (s.threads t).stack = some st → Tr s t { s with threads := upd s.threads t ⟨.remRet c, st⟩ }
  | done (c : Nat) (r : Rec) : (s.threads t).pc = .remCheck c → s.sig = some t → s.cbs c = some r → r.mark = false →
      Tr s t { s with threads := upd s.threads t ⟨.remRet c, (s.threads t).stack⟩ }
  | other (c : Nat) : (s.threads t).pc = .remCheck c → s.sig ≠ some t →
      Tr s t { s with threads := upd s.threads t ⟨.remWait c, (s.threads t).stack⟩ }
  | waited (c : Nat) (r : Rec) : (s.threads t).pc = .remWait c → s.cbs c = some r → r.fin = true →
      Tr s t { s with threads := upd s.threads t ⟨.remRet c, (s.threads t).stack⟩ }
  | remRet (c : Nat) : (s.threads t).pc = .remRet c →
      Tr s t { s with threads := upd s.threads t ⟨.user, (s.threads t).stack⟩, cbs := upd s.cbs c none, log := .destroyed c t :: s.log }

theorem isSome_false {α : Type} (x : Option α) (h : ¬ x.isSome = true) : x = none := by
  cases x <;> simp at h ⊢

theorem go_tr (s s' : State) (t : Nat) (p : Pc) (hp : (s.threads t).pc = p) (hs : advance s t p = .ok s') : Tr s t s' := by
  cases p with
  | user => cases hs
  | stopTry =>
    simp only [advance] at hs
    split at hs
    · cases hs; exact .lost hp ‹_›
    · split at hs
      · cases hs; exact .idle
      · cases hs; exact .won hp (by simpa using ‹¬ s.stop = true›) (isSome_false _ ‹_›)
  | stopSig => cases hs; exact .sig hp
  | stopHead =>
    simp only [advance] at hs
    split at hs
    · split at hs
      · cases hs; exact .empty hp ‹_›
      · cases hs; exact .dequeue _ _ hp ‹_›
    · cases hs
  | stopUnlock c m => cases hs; exact .stopUnlock c m hp
  | stopMark c m =>
    simp only [advance] at hs
    split at hs
    · cases hs
    · cases hs; exact .start c m _ hp ‹_›
  | stopAfter c m d =>
    simp only [advance] at hs
    cases d with
    | true =>
      simp only [if_true] at hs
      split at hs
      · cases hs; exact .gone c m hp ‹_›
      · cases hs; exact .gone' c m hp (by simpa using ‹¬ m = true›)
    | false =>
      simp only [Bool.false_eq_true, if_false] at hs
      split at hs
      · cases hs
      · split at hs
        · cases hs; exact .finished c m _ hp ‹_› ‹_›
        · cases hs; exact .finished' c m _ hp (by simpa using ‹¬ m = true›) ‹_›
  | stopRelock =>
    simp only [advance] at hs
    split at hs
    · cases hs; exact .idle
    · cases hs; exact .relock hp (isSome_false _ ‹_›)
  | stopEnd => cases hs; exact .stopEnd hp
  | addTry c =>
    simp only [advance] at hs
    split at hs
    · cases hs
    · split at hs
      · cases hs; exact .inline c _ hp ‹_› ‹_›
      · have h0 : s.stop = false := by simpa using ‹¬ s.stop = true›
        split at hs
        · cases hs; exact .noSource c _ hp ‹_› h0 ‹_›
        · split at hs
          · cases hs; exact .idle
          · cases hs; exact .addLock c _ hp ‹_› h0 ‹_› (isSome_false _ ‹_›)
  | addPush c =>
    simp only [advance] at hs
    split at hs
    · cases hs
    · split at hs
      · cases hs; exact .push c _ hp ‹_›
      · cases hs
  | addUnlock c => cases hs; exact .addUnlock c hp
  | addRet c =>
    simp only [advance] at hs
    split at hs
    · cases hs
    · cases hs; exact .addRet c _ hp ‹_›
  | remLock c =>
    simp only [advance] at hs
    split at hs
    · cases hs; exact .idle
    · cases hs; exact .remLock c hp (isSome_false _ ‹_›)
  | remHave c =>
    simp only [advance] at hs
    split at hs
    · cases hs
    · split at hs
      · split at hs
        · cases hs; exact .unlink c _ hp ‹_› ‹_›
        · cases hs
      · cases hs; exact .notLinked c _ hp ‹_› ‹_›
  | remFree c => cases hs; exact .remFree c hp
  | remUnlock c => cases hs; exact .remUnlock c hp
  | remCheck c =>
    simp only [advance] at hs
    split at hs
    · split at hs
      · cases hs
      · split at hs
        · split at hs
          · cases hs
          · cases hs; exact .self c _ _ hp ‹_› ‹_› ‹_› ‹_›
        · cases hs; exact .done c _ hp ‹_› ‹_› (by simpa using ‹¬ _ = true›)
    · cases hs; exact .other c hp ‹_›
  | remWait c =>
    simp only [advance] at hs
    split at hs
    · cases hs
    · split at hs
      · cases hs; exact .waited c _ hp ‹_› ‹_›
      · cases hs; exact .idle
  | remRet c => cases hs; exact .remRet c hp

theorem step_tr (s s' : State) (t : Nat) (a : Act) (hs : step s t a = .ok s') : Tr s t s' := by
  cases a with
  | go => exact go_tr s s' t _ rfl hs
  | request =>
    simp only [step] at hs
    split at hs
    · cases hs; rename_i h; exact .request h.1 h.2
    · cases hs
  | construct =>
    simp only [step] at hs
    split at hs
    · cases hs; exact .construct ‹_›
    · cases hs
  | destroy c =>
    simp only [step] at hs
    split at hs
    · cases hs
    · split at hs
      · rename_i h
        split at hs
        · cases hs; exact .destroy c _ ‹_› h.1 h.2.1 h.2.2 ‹_›
        · cases hs; exact .destroy' c _ ‹_› h.1 h.2.1 h.2.2 (by simpa using ‹¬ _ = true›)
      · cases hs
  | ret =>
    simp only [step] at hs
    split at hs
    · split at hs
      · cases hs
      · cases hs; exact .ret _ _ _ _ ‹_› ‹_›
      · split at hs
        · cases hs
        · cases hs; exact .ret' _ _ _ ‹_› ‹_› ‹_›
    · cases hs
  | newSource =>
    simp only [step] at hs
    split at hs
    · cases hs; rename_i h; exact .newSource h.1 h.2
    · cases hs
  | dropSource =>
    simp only [step] at hs
    split at hs
    · cases hs; rename_i h; exact .dropSource h.1 h.2.1 h.2.2
    · cases hs

end Verif.Stop
