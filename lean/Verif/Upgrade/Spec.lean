import Verif.StorageFmt.Spec

/-! # What is expected of the formats of two versions of a program

`w` is the format of the program that wrote the files, `r` that of the program that reads them; `c v` is what has become of the value `v`. -/

namespace Verif.Upgrade

open Verif.Storage
open Verif.StorageFmt hiding Bytes

variable {V W : Type}

/-- Files: what was written is read as the converted value, truncated and empty files are rejected. -/
structure Reads (w : Format V) (r : Format W) (c : V → W) (P : V → Prop) : Prop where
  empty : Rejected r []
  converted : ∀ v, P v → Holds r (w.enc v) (c v)
  truncated : ∀ v, P v → ∀ k, k < (w.enc v).length → Rejected r ((w.enc v).take k)

/-- Streams. -/
structure SReads (w : SFormat V) (r : SFormat W) (c : V → W) (P : V → Prop) : Prop where
  nonempty : ∀ v, P v → w.ser v ≠ []
  converted : ∀ v, P v → ∀ rest, r.rd (w.ser v ++ rest) = .ok (c v, rest)
  truncated : ∀ v, P v → ∀ p, p <+: w.ser v → p ≠ w.ser v → r.rd p = .throw .endOfFile

end Verif.Upgrade
