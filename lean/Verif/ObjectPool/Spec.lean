import Verif.ObjectPool.Model

/-! # Correct programs -/

namespace Verif.ObjectPool

/-- Programs that use names as C++ does: `N` are the pointer variables that exist, `pool` tells whether the pool does.  The
pool is destroyed when there are no pointers. -/
def WF (N : List Nat) (pool : Bool) : List Op → Prop
  | [] => True
  | .make v :: ops => v ∉ N ∧ pool = true ∧ WF (v :: N) pool ops
  | .share v w :: ops => v ∉ N ∧ w ∈ N ∧ WF (v :: N) pool ops
  | .drop v :: ops => v ∈ N ∧ WF (N.filter (· != v)) pool ops
  | .clear :: ops => pool = true ∧ WF N pool ops
  | .destroy :: ops => pool = true ∧ N = [] ∧ WF N false ops

/-- Some variable points to the object. -/
def InUse (s : State) (p : Nat) : Prop := ∃ v, (v, p) ∈ s.vars

end Verif.ObjectPool
