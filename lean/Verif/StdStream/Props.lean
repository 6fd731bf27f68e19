import Verif.StdStream.Model

/-! # C115: streams on `std::istream` and `std::ostream` -/

namespace Verif.StdStream

open Verif

/-! ### Specification -/

/-- A stream is the bytes that are left. -/
def Spec.step (l : Bytes) : InOp → InRes × Bytes
  | .read n => (.bytes (l.take n), l.drop n)
  | .atEnd => (.flag l.isEmpty, l)
  | .fault => (.nothing, l)

def Spec.run (l : Bytes) : List InOp → List InRes
  | [] => []
  | op :: ops => (Spec.step l op).1 :: Spec.run (Spec.step l op).2 ops

/-! ### Proofs -/

/-- In order: good, or at the end with nothing left. -/
def Inv (s : IS) : Prop := s.bad = false ∧ (s.good = true ∨ s.eof = true ∧ s.data = [])

theorem step_inv (s : IS) (op : InOp) (h : Inv s) (hf : op ≠ .fault) : Inv (inStep s op).2 ∧ (inStep s op).1 = (Spec.step s.data op).1 ∧ (inStep s op).2.data = (Spec.step s.data op).2 := by
  obtain ⟨h0, h⟩ := h
  cases op with
  | fault => exact absurd rfl hf
  | read n =>
    simp only [inStep, read, isRead, Spec.step]
    by_cases hg : s.good = true
    · rw [if_pos hg]
      split
      · next hl => exact ⟨⟨h0, .inr ⟨rfl, rfl⟩⟩, by rw [List.take_of_length_le (by omega)], by rw [List.drop_of_length_le (by omega)]⟩
      · exact ⟨⟨h0, .inl hg⟩, rfl, rfl⟩
    · rw [if_neg hg]
      obtain ⟨h1, h2⟩ := h.resolve_left hg
      exact ⟨⟨h0, .inr ⟨h1, h2⟩⟩, by simp [h2], by simp [h2]⟩
  | atEnd =>
    simp only [inStep, atEnd, isPeek, Spec.step]
    by_cases hg : s.good = true
    · rw [if_pos hg]
      by_cases he : s.data.isEmpty = true
      · rw [if_pos he]
        exact ⟨⟨h0, .inr ⟨rfl, by simpa using he⟩⟩, by simp [he], rfl⟩
      · rw [if_neg he]
        refine ⟨⟨h0, .inl hg⟩, ?_, rfl⟩
        have : s.eof = false := by simp [IS.good] at hg; exact hg.1.1
        simp [this, he]
    · rw [if_neg hg]
      obtain ⟨h1, h2⟩ := h.resolve_left hg
      exact ⟨⟨h0, .inr ⟨h1, h2⟩⟩, by simp [h1, h2], rfl⟩

theorem run_inv (ops : List InOp) (s : IS) (h : Inv s) (hf : InOp.fault ∉ ops) : (inRun s ops).1 = Spec.run s.data ops := by
  induction ops generalizing s with
  | nil => rfl
  | cons op ops ih =>
    have ⟨h1, h2, h3⟩ := step_inv s op h (fun e => hf (by simp [e]))
    simp only [inRun, Spec.run]
    rw [h2, ← h3, ih _ h1 (fun e => hf (by simp [e]))]

/-- C115, for streams without errors: `Read` gives the next bytes, as many as asked for or all that are left, and `End` says whether there are none left, after any calls.
Missing: streams with errors (`c115_failed_violated`). -/
theorem c115_read_partial (data : Bytes) (ops : List InOp) (h : InOp.fault ∉ ops) : (inRun { data } ops).1 = Spec.run data ops :=
  run_inv ops _ ⟨rfl, .inl rfl⟩ h

/-- C115: `ReadRaw` gives all the bytes or throws, also for a stream that has failed; without errors it throws exactly if there are not enough
(so it is the `readRaw` of the model of serialization). -/
theorem c115_read_raw (s : IS) (n : Nat) :
    (∀ b s', readRaw s n = .ok (b, s') → b = s.data.take n ∧ b.length = n ∧ s'.data = s.data.drop n) ∧ readRaw s n ≠ .ub ∧
    (Inv s → (Serialize.readRaw (σ := Unit) n () s.data = .throw .endOfFile ↔ readRaw s n = .throw .endOfFile)) := by
  have h1 : ∀ b s', readRaw s n = .ok (b, s') → b = s.data.take n ∧ b.length = n ∧ s'.data = s.data.drop n := by
    intro b s' h
    have hd : read s n = isRead s n := rfl
    simp only [readRaw] at h
    by_cases hl : (read s n).1.length < n
    · rw [if_pos hl] at h; cases h
    · rw [if_neg hl] at h
      simp only [Res.ok.injEq, Prod.mk.injEq] at h
      obtain ⟨rfl, rfl⟩ := h
      by_cases hg : s.good = true
      · by_cases hl2 : s.data.length < n
        · simp only [hd, isRead, if_pos hg, if_pos hl2] at hl
          exact absurd hl2 hl
        · simp only [hd, isRead, if_pos hg, if_neg hl2, true_and, and_true]
          simp; omega
      · simp only [hd, isRead, if_neg hg] at hl ⊢
        have : n = 0 := by simp at hl; omega
        subst this
        simp
  refine ⟨h1, ?_, fun hi => ?_⟩
  · simp only [readRaw]; split <;> simp
  · have ⟨_, h2, h3⟩ := step_inv s (.read n) hi (by simp)
    simp only [inStep, Spec.step, InRes.bytes.injEq] at h2
    simp only [Serialize.readRaw, readRaw, h2, List.length_take]
    constructor
    · intro h
      split at h
      · next hl => rw [if_pos (by omega)]
      · cases h
    · intro h
      split at h
      · next hl => rw [if_pos (by omega)]
      · cases h

/-- C115 is violated by streams that have failed (a file that could not be opened, an error of the device): there is never any data and never an end, so a loop that reads until `End` does not end. -/
theorem c115_failed_violated (s : IS) (ops : List InOp) (h1 : s.eof = false) (h2 : s.fail = true ∨ s.bad = true) :
    ∀ r ∈ (inRun s ops).1, r = .bytes [] ∨ r = .flag false ∨ r = .nothing := by
  induction ops generalizing s with
  | nil => simp [inRun]
  | cons op ops ih =>
    have hg : s.good = false := by rcases h2 with h | h <;> simp [IS.good, h]
    intro r hr
    simp only [inRun, List.mem_cons] at hr
    have h3 : (inStep s op).2.eof = false ∧ ((inStep s op).2.fail = true ∨ (inStep s op).2.bad = true) := by
      cases op <;> simp [inStep, read, isRead, atEnd, isPeek, hg, h1]
    rcases hr with rfl | hr
    · cases op <;> simp [inStep, read, isRead, atEnd, isPeek, hg, h1]
    · exact ih _ h3.1 h3.2 r hr

/-- The buffer and the device have what was written. -/
theorem write_ok (F : File) (s s' : OS) (b : Bytes) (h : write F s b = (.ok (), s')) : s'.dev ++ s'.buf = s.dev ++ s.buf ++ b ∧ s.failed = false ∧ s'.failed = false := by
  simp only [write, osWrite] at h
  by_cases hf : s.failed = true
  · simp [hf] at h
  · have hf' : s.failed = false := by simpa using hf
    rw [if_neg hf] at h
    split at h
    · simp only [Prod.mk.injEq] at h
      obtain ⟨_, rfl⟩ := h
      simp [hf']
    · split at h
      · simp only [Prod.mk.injEq] at h
        obtain ⟨_, rfl⟩ := h
        simp [hf']
      · simp at h

theorem writeAll_ok (F : File) (bs : List Bytes) (s s' : OS) (h : writeAll F s bs = (.ok (), s')) : s'.dev ++ s'.buf = s.dev ++ s.buf ++ bs.flatten := by
  induction bs generalizing s with
  | nil => cases h; simp
  | cons b bs ih =>
    simp only [writeAll] at h
    split at h
    · next s1 hw =>
      rw [ih _ h, (write_ok F s s1 b hw).1]
      simp
    · next r hne =>
      exact absurd h (hne () s')

/-- C115, for a device that is large enough: what was written without an exception is on the device at the end, in order.
Missing: a device that is not (`c115_lost_violated`). -/
theorem c115_write_partial (F : File) (bs : List Bytes) (s : OS) (h : writeAll F {} bs = (.ok (), s)) (hc : bs.flatten.length ≤ F.cap) :
    (closeOut F s).dev = bs.flatten := by
  have h1 := writeAll_ok F bs {} s h
  simp only [closeOut]
  rw [h1]
  simpa using List.take_of_length_le hc

/-- C115: without a buffer an error is reported by the call that causes it, and what was written before is on the device. -/
theorem c115_unbuffered (cap : Nat) (dev b : Bytes) (h : dev.length ≤ cap) :
    (dev.length + b.length ≤ cap → write ⟨0, cap⟩ ⟨[], dev, false⟩ b = (.ok (), ⟨[], dev ++ b, false⟩)) ∧
    (cap < dev.length + b.length → (write ⟨0, cap⟩ ⟨[], dev, false⟩ b).1 = .throw .io ∧ dev <+: (write ⟨0, cap⟩ ⟨[], dev, false⟩ b).2.dev) := by
  constructor
  · intro h1
    rcases b with _ | ⟨x, b⟩
    · simp [write, osWrite]
    · simp only [write, osWrite]
      simp at h1 ⊢
      simp [h1]
  · intro h1
    rcases b with _ | ⟨x, b⟩
    · simp at h1; omega
    · simp only [write, osWrite]
      simp at h1 ⊢
      rw [if_neg (by omega)]
      simp
      rw [List.take_append]
      exact ⟨_, by rw [List.take_of_length_le h]⟩

/-- C115: a stream that has failed throws in every call, and writes nothing. -/
theorem c115_write_failed (F : File) (s : OS) (b : Bytes) (h : s.failed = true) : write F s b = (.throw .io, s) := by simp [write, osWrite, h]

/-- and a call that throws is followed only by calls that throw and write nothing. -/
theorem c115_write_stays_failed (F : File) (s s' : OS) (b : Bytes) (h : write F s b = (.throw .io, s')) : ∀ b', write F s' b' = (.throw .io, s') := by
  intro b'
  refine c115_write_failed F s' b' ?_
  simp only [write, osWrite] at h
  by_cases hf : s.failed = true
  · simp [hf] at h; rw [← h]; exact hf
  · rw [if_neg hf] at h
    split at h
    · simp at h
    · split at h
      · simp at h
      · simp at h; rw [← h]

example : ∃ s', write ⟨2, 3⟩ {} [1, 2, 3, 4] = (.throw .io, s') ∧ s'.dev = [1, 2, 3] := ⟨⟨[], [1, 2, 3], true⟩, by decide, rfl⟩

/-- C115 is violated by errors that come after the last `Write`: data that fits the buffer is written without an exception, and is not on a device that is too small for it. -/
theorem c115_lost_violated (F : File) (bs : List Bytes) (h1 : bs.flatten.length ≤ F.room) (h2 : F.cap < bs.flatten.length) :
    ∃ s, writeAll F {} bs = (.ok (), s) ∧ (closeOut F s).dev ≠ bs.flatten := by
  have key : ∀ (bs : List Bytes) (pre : Bytes), (pre ++ bs.flatten).length ≤ F.room → writeAll F ⟨pre, [], false⟩ bs = (.ok (), ⟨pre ++ bs.flatten, [], false⟩) := by
    intro bs
    induction bs with
    | nil => intro pre _; simp [writeAll]
    | cons b bs ih =>
      intro pre hp
      simp at hp
      simp only [writeAll, write, osWrite]
      have : pre.length + b.length ≤ F.room := by omega
      simp only [Bool.false_eq_true, if_false, if_pos this, Bool.not_true]
      rw [ih _ (by simp; omega)]
      simp
  refine ⟨⟨bs.flatten, [], false⟩, by simpa using key bs [] (by simpa using h1), ?_⟩
  simp only [closeOut]
  intro h
  have := congrArg List.length h
  simp at this
  rw [List.length_flatten] at h2
  omega

/-! ### Samples -/

example : (inRun { data := [1, 2, 3] } [.read 2, .atEnd, .read 2, .atEnd, .read 1]).1 = [.bytes [1, 2], .flag false, .bytes [3], .flag true, .bytes []] := by decide
example : (inRun { data := [], fail := true } [.atEnd, .read 5, .atEnd]).1 = [.flag false, .bytes [], .flag false] := by decide
example : ∃ s, writeAll ⟨4, 100⟩ {} [[1, 2, 3], [4, 5]] = (.ok (), s) ∧ (closeOut ⟨4, 100⟩ s).dev = [1, 2, 3, 4, 5] := ⟨⟨[], [1, 2, 3, 4, 5], false⟩, by decide, by decide⟩
example : [[1, 2], [3]].flatten.length ≤ (⟨8, 2⟩ : File).room ∧ (⟨8, 2⟩ : File).cap < ([[1, 2], [3]] : List Bytes).flatten.length := by decide

end Verif.StdStream
