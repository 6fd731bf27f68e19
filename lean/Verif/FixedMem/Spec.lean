import Verif.FixedMem.Model

/-!
# What a memory of a fixed size keeps

Independent of the model of the code: every place of the memory has a value, there is one position.
-/

namespace Verif.FixedMem

/-- A value at every place and the position. -/
structure Abs where
  at' : Nat → UInt8
  pos : Nat

/-- Before the first call: zeros. -/
def Abs.fresh : Abs := ⟨fun _ => 0, 0⟩

/-- Writing `bs` changes exactly the places from the position on. -/
def Abs.write (a : Abs) (bs : List UInt8) : Abs :=
  ⟨fun i => if a.pos ≤ i ∧ i < a.pos + bs.length then bs.getD (i - a.pos) 0 else a.at' i, a.pos + bs.length⟩

/-- Reading `n` values from the position on. -/
def Abs.read (a : Abs) (n : Nat) : Abs × List UInt8 :=
  (⟨a.at', a.pos + n⟩, (List.range n).map fun j => a.at' (a.pos + j))

/-- One call on a memory of `size` bytes. -/
def Abs.step (size : Nat) (a : Abs) : Cmd → Abs × List UInt8
  | .write _ bs => (a.write bs, [])
  | .putNumber bs => (a.write bs, [])
  | .read n => a.read (min n (size - a.pos))
  | .getNumber n => a.read n
  | .reset => (⟨a.at', 0⟩, [])

/-- A program. -/
def Abs.run (size : Nat) (a : Abs) : List Cmd → Abs × List (List UInt8)
  | [] => (a, [])
  | c :: cs => let r := a.step size c
    let q := Abs.run size r.1 cs
    (q.1, r.2 :: q.2)

/-- The program keeps to the size, and numbers are written and read at multiples of their length (the memory is at the
address `addr`, the position is `p`). -/
def Keeps (addr size : Nat) (p : Nat) : List Cmd → Prop
  | [] => True
  | .write _ bs :: cs => p + bs.length ≤ size ∧ Keeps addr size (p + bs.length) cs
  | .putNumber bs :: cs => p + bs.length ≤ size ∧ bs.length ∣ addr + p ∧ Keeps addr size (p + bs.length) cs
  | .read n :: cs => Keeps addr size (p + min n (size - p)) cs
  | .getNumber n :: cs => p + n ≤ size ∧ n ∣ addr + p ∧ Keeps addr size (p + n) cs
  | .reset :: cs => Keeps addr size 0 cs

/-- The bytes of the pieces, one piece after the other. -/
def content (ws : List (Nat × List UInt8)) : List UInt8 := (ws.map Prod.snd).flatten

/-- The pieces of 2, 4 and 8 bytes come from, and go to, multiples of their length (for `SwitchMemoryOutputStream`). -/
def Aligned (addr : Nat) (p : Nat) : List (Nat × List UInt8) → Prop
  | [] => True
  | c :: cs => ((c.2.length = 2 ∨ c.2.length = 4 ∨ c.2.length = 8) →
      c.2.length ∣ addr + p ∧ c.2.length ∣ c.1) ∧ Aligned addr (p + c.2.length) cs

end Verif.FixedMem
