import Verif.FixedMem.Spec
import Mathlib.Tactic.Common

namespace Verif.FixedMem

/-- Copying byte by byte is moving the bytes. -/
theorem stdCopy_ok (bs : List UInt8) : ∀ (bytes : List UInt8) (i : Nat), i + bs.length ≤ bytes.length →
    stdCopy bytes i bs = .ok (bytes.take i ++ bs ++ bytes.drop (i + bs.length)) := by
  induction bs with
  | nil => intro bytes i h; simp [stdCopy]
  | cons b bs ih =>
    intro bytes i h
    have hi : i < bytes.length := by simp at h; omega
    simp only [stdCopy, put, hi, if_true, Out.bind]
    rw [ih (bytes.set i b) (i + 1) (by simp at h ⊢; omega)]
    congr 1
    apply List.ext_getElem?
    intro j
    simp only [List.append_assoc, List.getElem?_append, List.getElem?_take, List.getElem?_drop, List.length_take,
      List.length_set, List.getElem?_set, List.length_cons, List.getElem?_cons] at h ⊢
    rcases Nat.lt_trichotomy j i with hj | hj | hj
    · have h1 : j < min (i + 1) bytes.length := by omega
      have h2 : j < min i bytes.length := by omega
      have h3 : j < i + 1 := by omega
      simp [h1, h2, h3, hj, Nat.ne_of_gt hj]
    · subst hj
      have h1 : j < min (j + 1) bytes.length := by omega
      have h2 : ¬ j < min j bytes.length := by omega
      have h3 : j - min j bytes.length = 0 := by omega
      simp [h1, h2, h3, hi]
    · have h1 : ¬ j < min (i + 1) bytes.length := by omega
      have h2 : ¬ j < min i bytes.length := by omega
      have h3 : min (i + 1) bytes.length = i + 1 := by omega
      have h4 : min i bytes.length = i := by omega
      have h5 : ¬ j - i = 0 := by omega
      have h6 : j - i - 1 = j - (i + 1) := by omega
      rw [if_neg h1, if_neg h2, h3, h4]
      by_cases h7 : j - (i + 1) < bs.length
      · have h8 : j - i < bs.length + 1 := by omega
        rw [if_pos h7, if_pos h8, if_neg h5, h6]
      · have h8 : ¬ j - i < bs.length + 1 := by omega
        rw [if_neg h7, if_neg h8]
        have h9 : i + 1 + bs.length + (j - (i + 1) - bs.length) = j := by omega
        have h10 : i + (bs.length + 1) + (j - i - (bs.length + 1)) = j := by omega
        have h11 : ¬ i = j := by omega
        rw [h9, h10, if_neg h11]

/-- Copying more than there is room for is undefined. -/
theorem stdCopy_ub (bs : List UInt8) : ∀ (bytes : List UInt8) (i : Nat), bytes.length < i + bs.length → bs ≠ [] →
    stdCopy bytes i bs = .ub := by
  induction bs with
  | nil => intro _ _ _ h; exact absurd rfl h
  | cons b bs ih =>
    intro bytes i h _
    simp only [stdCopy, put]
    by_cases hi : i < bytes.length
    · simp only [hi, if_true, Out.bind]
      apply ih
      · simp at h ⊢; omega
      · intro h0; subst h0; simp at h; omega
    · simp [hi, Out.bind]

theorem memmove_ok {bytes bs : List UInt8} {i : Nat} (h : i + bs.length ≤ bytes.length) :
    memmove bytes i bs = .ok (bytes.take i ++ bs ++ bytes.drop (i + bs.length)) := if_pos h

theorem putNumber_ok (dbg : Bool) {m : Mem} {bs : List UInt8} (h : m.pos + bs.length ≤ m.bytes.length)
    (hal : (m.addr + m.pos) % bs.length = 0) : putNumber dbg m bs =
      .ok ⟨m.addr, m.bytes.take m.pos ++ bs ++ m.bytes.drop (m.pos + bs.length), m.pos + bs.length⟩ := by
  have h6 : ¬ (dbg = true ∧ ¬ m.pos + bs.length ≤ m.bytes.length) := fun hc => hc.2 h
  rw [putNumber, if_neg h6, if_pos hal, memmove_ok h]
  rfl

/-- The memory agrees with the abstract one. -/
structure Rel (addr size : Nat) (m : Mem) (a : Abs) : Prop where
  addr_eq : m.addr = addr
  bytes_eq : m.bytes = (List.range size).map a.at'
  pos_eq : m.pos = a.pos

theorem rel_fresh (addr size : Nat) : Rel addr size (create addr size) Abs.fresh := by
  refine ⟨rfl, ?_, rfl⟩
  apply List.ext_getElem <;> simp [create, Abs.fresh]

theorem rel_length {addr size : Nat} {m : Mem} {a : Abs} (h : Rel addr size m a) : m.bytes.length = size := by
  simp [h.bytes_eq]

theorem rel_moved {addr size : Nat} {m : Mem} {a : Abs} (h : Rel addr size m a) (bs : List UInt8)
    (hf : a.pos + bs.length ≤ size) :
    Rel addr size ⟨m.addr, m.bytes.take m.pos ++ bs ++ m.bytes.drop (m.pos + bs.length), m.pos + bs.length⟩ (a.write bs) := by
  refine ⟨h.addr_eq, ?_, by simp [Abs.write, h.pos_eq]⟩
  have hl := rel_length h
  apply List.ext_getElem?
  intro j
  simp only [h.bytes_eq, h.pos_eq, List.append_assoc, List.getElem?_append, List.getElem?_take, List.getElem?_drop,
    List.length_take, List.length_map, List.length_range, List.getElem?_map, Abs.write]
  have h0 : min a.pos size = a.pos := by omega
  rw [h0]
  by_cases h1 : j < a.pos
  · have h2 : j < size := by omega
    have h3 : ¬ (a.pos ≤ j ∧ j < a.pos + bs.length) := by omega
    simp only [h1, if_true, List.getElem?_range h2, Option.map_some, h3, if_false]
  · rw [if_neg h1]
    by_cases h2 : j - a.pos < bs.length
    · have h3 : j < size := by omega
      have h4 : a.pos ≤ j ∧ j < a.pos + bs.length := by omega
      simp only [h2, if_true, List.getElem?_range h3, Option.map_some, h4, and_self]
      simp [List.getD_eq_getElem?_getD, h2]
    · rw [if_neg h2]
      have h3 : a.pos + bs.length + (j - a.pos - bs.length) = j := by omega
      have h4 : ¬ (a.pos ≤ j ∧ j < a.pos + bs.length) := by omega
      rw [h3]
      by_cases h5 : j < size
      · simp [List.getElem?_range h5, h4]
      · simp [List.getElem?_eq_none_iff.mpr (by simp; omega : (List.range size).length ≤ j)]

theorem rel_slice {addr size : Nat} {m : Mem} {a : Abs} (h : Rel addr size m a) (n : Nat) (hf : a.pos + n ≤ size) :
    (m.bytes.drop m.pos).take n = (List.range n).map fun j => a.at' (a.pos + j) := by
  rw [h.bytes_eq, h.pos_eq]
  apply List.ext_getElem
  · simp; omega
  · intro j h1 h2
    simp

end Verif.FixedMem
