import Verif.BitMap.Model

/-! # Sets of elements -/

namespace Verif.BitMap

abbrev Elems := Nat → Bool

/-- The elements a bitmap holds. -/
def elems {n : Nat} (s : BitVec n) : Elems := fun i => s.getLsbD i

/-- What the operation should do to a set of the elements `0 … n - 1`. -/
def specStep {n : Nat} (a : Elems) : Op n → Elems
  | .orE e => fun i => a i || i == e
  | .andE e => fun i => a i && i == e
  | .xorE e => fun i => if i = e then !a i else a i
  | .flip => fun i => if i < n then !a i else false
  | .or b => fun i => a i || elems b i
  | .and b => fun i => a i && elems b i
  | .xor b => fun i => a i != elems b i
  | .set e v => fun i => if i = e then v else a i
  | .ref e v => fun i => if i = e then v else a i

def specRun {n : Nat} (a : Elems) (ops : List (Op n)) : Elems := ops.foldl specStep a

/-- The operation is given an element of the enumeration. -/
def Op.Valid {n : Nat} : Op n → Prop
  | .orE e | .andE e | .xorE e | .set e _ | .ref e _ => e < n
  | _ => True

end Verif.BitMap
