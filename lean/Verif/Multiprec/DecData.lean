import Verif.Common.Res

/-!
# `Extras/Boost/BoostExtras/MultiprecisionDecimalData.h`

The word of the unsigned type of `w` bits (128 … 1024) is a `BitVec w`; `e` is `exp_len`.  An `int` mask (`~signMask`) is extended with ones, as Boost does for negative
numbers of unsigned unchecked types.
-/

namespace Verif.Multiprec

variable {w : Nat}

/-- `signMask`, MultiprecisionDecimalData.h:92. -/
def signMask (w : Nat) : BitVec w := 1#w

/-- `expMask`, :94. -/
def expMask (w e : Nat) : BitVec w := ((1#w <<< e) - 1#w) <<< 1

/-- `manMask`, :96. -/
def manMask (w e : Nat) : BitVec w := BitVec.allOnes w &&& ~~~(expMask w e ||| signMask w)

/-- `positive`, :43-46. -/
def positive (m : BitVec w) : Bool := m &&& signMask w == 0#w

/-- `set_positive`, :48-51. -/
def setPositive (m : BitVec w) (pos : Bool) : BitVec w := (m &&& ~~~signMask w) ||| (if pos then 0#w else 1#w)

/-- `exp`, :53-56: converted to `uint8_t`. -/
def exp (e : Nat) (m : BitVec w) : Nat := ((m &&& expMask w e) >>> 1).toNat % 256

/-- `set_exp`, :58-61: the value, a `uint8_t`, is not masked. -/
def setExp (e : Nat) (m : BitVec w) (val : Nat) : BitVec w := (m &&& ~~~expMask w e) ||| (BitVec.ofNat w val <<< 1)

/-- `man`, :63-66. -/
def man (e : Nat) (m : BitVec w) : BitVec w := m >>> (e + 1)

/-- `set_man`, :68-71. -/
def setMan (e : Nat) (m : BitVec w) (val : BitVec w) : BitVec w := (m &&& ~~~manMask w e) ||| (val <<< (e + 1))

/-- The constructor, :35-41: the word is zero first. -/
def make (e : Nat) (pos : Bool) (ex : Nat) (mn : BitVec w) : BitVec w := setMan e (setExp e (setPositive 0#w pos) ex) mn

end Verif.Multiprec
