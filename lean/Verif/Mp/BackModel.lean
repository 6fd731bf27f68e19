import Verif.Mp.Props

/-! # `CopyV`: model -/

namespace Verif.Mp

open Verif Verif.Serialize Verif.Vts

/-- `MeasureStream` after the bytes have been written to it, in any pieces (Awl/Io/MeasureStream.h:18-27; by pieces it is `measureWrite` of C42). -/
def measured (bs : List UInt8) : Nat := bs.length % 2 ^ 64

/-- `reserve` of a vector of bytes (called in Awl/Io/Vts.h:48): `length_error` or `bad_alloc`, here one exception, if there is no room. -/
def reserve (env : Env) (n : Nat) : Res Nat := if n ≤ env.cap then .ok n else .throw .general

/-- `CopyV(from_val, to_val)` (Awl/Io/Vts.h:37-61), with `WriteV` and `ReadV` (Awl/Io/Vts.h:15-35): the value of `to_val` afterwards and the number of bytes reserved and used.
`S₁`, `t₁` and `v`: the tables, the type and the value of `from_val`; `V₂`, `S₂`, `t₂` and `o`: the types, the tables, the type and the value of `to_val`.  The `Reader` is a new
one: no names are registered and fields may be missing (Awl/Io/Reader.h:321).  `fuel` is the depth of the recursion of `Verif.Vts.readV`. -/
def copyV (env : Env) (S₁ : Schema) (t₁ : Ty) (v : Val) (V₂ : List CTy) (S₂ : Schema) (t₂ : Ty) (o : Val) (fuel : Nat) : Res (Val × Nat × Nat) := do
  let a ← writeV env nameTy S₁ t₁ v                                                 -- Vts.h:43-46
  let n ← reserve env (measured a)                                                  -- Vts.h:48
  let b ← writeV env nameTy S₁ t₁ v                                                 -- Vts.h:52-54
  let (w, _) ← readV (cfgOf env S₂ (fun _ x => x) V₂ id true) fuel t₂ o b           -- Vts.h:58-60
  .ok (w, n, b.length)

end Verif.Mp
