import Verif.Convert.Model

/-!
# The text of an optional value: `Awl/String.h`
-/

namespace Verif.Convert

/-- The literal `"empty"`, String.h 350. -/
def emptyText : List Nat := [101, 109, 112, 116, 121]

/-- `operator << (std::basic_ostream<Char>&, const std::optional<T>&)`, String.h 339-354; `put` is the operator of `T`. -/
def putOpt {α : Type} (put : Out → α → Res Out) (o : Out) : Option α → Res Out
  | some v => put o v
  | none => .ok (o.put emptyText)

/-- The operator of strings (of the standard library, used by String.h 346). -/
def putStr (o : Out) (s : List Nat) : Res Out := .ok (o.put s)

/-- The operator of `__uint128_t` (String.h 397-453) as the one of the contained value, String.h 346. -/
def putNat (o : Out) (n : Nat) : Res Out := .ok (putU128 o n)

end Verif.Convert
