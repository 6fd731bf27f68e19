import Verif.FixedMem.ArenaModel

/-!
# What memory that is handed out is: every block is an array of its own
-/

namespace Verif.FixedMem

/-- The bytes that the blocks have together. -/
def used (a : List (List UInt8)) : Nat := (a.map List.length).sum

/-- One call on a space of `size` bytes: the blocks are arrays that have nothing to do with each other; a new one is
zero.  `none` is a program that asks for too much or for a byte that there is not. -/
def specStep (size : Nat) (a : List (List UInt8)) : ACmd → Option (List (List UInt8) × Obs)
  | .alloc n sz => if used a + n * sz ≤ size then some (a ++ [List.replicate (n * sz) 0], .none) else none
  | .store k i v =>
    match a[k]? with
    | some c => if i < c.length then some (a.set k (c.set i v), .none) else none
    | none => none
  | .load k i =>
    match a[k]? with
    | some c => (c[i]?).map fun v => (a, .byte v)
    | none => none
  | .length => some (a, .number (used a))
  | .full => some (a, .flag (decide (used a = size)))
  | .reset => some ([], .none)

/-- A program. -/
def specRun (size : Nat) (a : List (List UInt8)) : List ACmd → Option (List (List UInt8) × List Obs)
  | [] => some (a, [])
  | c :: cs => (specStep size a c).bind fun r => (specRun size r.1 cs).map fun q => (q.1, r.2 :: q.2)

end Verif.FixedMem
