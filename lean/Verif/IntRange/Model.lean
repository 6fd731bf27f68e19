import Verif.Common.Res

/-!
# Ranges of integers (Awl/IntRange.h)

`std::views::iota` as the standard specifies it: [range.iota.view] has the precondition that the bound is not less than the first value; the iterator has the value,
`++` of it increments that value, and it is compared with the bound.
-/

namespace Verif.IntRange

/-- The integral type `T` of IntRange.h 14 and 20. -/
structure Ty where
  bits : Nat
  signed : Bool
deriving DecidableEq

/-- The least value of the type (`T` of IntRange.h 13, 19). -/
def Ty.min (T : Ty) : Int := if T.signed then -(2 ^ (T.bits - 1)) else 0

/-- The greatest value of the type (`T` of IntRange.h 13, 19). -/
def Ty.max (T : Ty) : Int := if T.signed then 2 ^ (T.bits - 1) - 1 else 2 ^ T.bits - 1

/-- A conversion to the type (modulo 2^bits, as C++20 says; IntRange.h 22). -/
def Ty.convert (T : Ty) (v : Int) : Int := (v - T.min) % 2 ^ T.bits + T.min

/-- `++` of a value (in the `iota` of IntRange.h 16).  It is undefined if it overflows a signed type that is not narrower than `int` (32 bits); narrower ones are promoted and converted back. -/
def Ty.inc (T : Ty) (v : Int) : Res Int :=
  if v = T.max then
    if T.signed = true ∧ 32 ≤ T.bits then .ub else .ok (T.convert (v + 1))
  else .ok (v + 1)

/-- The view: the first value and the bound (IntRange.h 16). -/
structure Range where
  first : Int
  bound : Int
deriving DecidableEq

/-- IntRange.h 13-17; the arguments are converted to `T` if it is given explicitly. -/
def makeIntRange (T : Ty) (b e : Int) : Res Range :=
  let b := T.convert b
  let e := T.convert e
  if e < b then .ub else .ok ⟨b, e⟩

/-- IntRange.h 19-23 -/
def makeCount (T : Ty) (e : Int) : Res Range := makeIntRange T (T.convert 0) (T.convert e)

/-- A loop over the range (IntRange.h 16) from the value `v` on: the values the loop sees.  `none`: it does not end after `n` values. -/
def Range.loop (T : Ty) (r : Range) : Nat → Int → Res (Option (List Int))
  | 0, v => .ok (if v = r.bound then some [] else none)
  | n + 1, v =>
    if v = r.bound then .ok (some []) else do
      let v' ← T.inc v
      let l ← r.loop T n v'
      .ok (l.map (v :: ·))

/-- `for (auto i : range)` with a range of IntRange.h 13-23. -/
def Range.forEach (T : Ty) (r : Range) (n : Nat) : Res (Option (List Int)) := r.loop T n r.first

end Verif.IntRange
