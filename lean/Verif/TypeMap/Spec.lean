import Verif.TypeMap.Model
import Verif.Vts.Spec

/-!
# Types that have got other names: specification
-/

namespace Verif.TypeMap

open Verif.Serialize Verif.Vts

/-- The name `n` has become `n'`: the map says so, or it does not have the name and the name is the same. -/
def Renames (m : Renaming) (n n' : Name) : Prop := (n, n') ∈ m ∨ ((∀ x, (n, x) ∉ m) ∧ n' = n)

/-- The keys of a map are different. -/
def IsMap (m : Renaming) : Prop := (m.map Prod.fst).Nodup

end Verif.TypeMap
