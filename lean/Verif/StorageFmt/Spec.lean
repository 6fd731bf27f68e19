import Verif.StorageFmt.Model
import Verif.Storage.Spec

/-! # What is expected of a stream format -/

namespace Verif.StorageFmt

variable {V : Type}

/-- The values satisfying `P` take at least one byte, can be read back from a stream whatever follows, and reading a
proper prefix of their bytes throws `EndOfFileException`. -/
structure SFormat.Good (f : SFormat V) (P : V → Prop) : Prop where
  nonempty : ∀ v, P v → f.ser v ≠ []
  roundTrip : ∀ v, P v → ∀ rest, f.rd (f.ser v ++ rest) = .ok (v, rest)
  truncated : ∀ v, P v → ∀ p, p <+: f.ser v → p ≠ f.ser v → f.rd p = .throw .endOfFile

end Verif.StorageFmt
