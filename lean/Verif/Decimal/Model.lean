import Verif.Common.Res

/-!
# `Awl/Decimal.h`, `Awl/DecimalData.h`, `Awl/DecimalConstants.h`, `Awl/DecimalTime.h`

`decimal<UInt, exp_len>` for an unsigned integer type of `w` bits.  Everything the code does with `UInt` is done modulo
`2 ^ w`, assignment to a bit field is done modulo `2 ^` its width, signed overflow and reading behind the end of the table of
denominators are undefined behaviour.  What goes through `double`
is in `Verif.Double`.  Not modelled: locales and stream flags other than width and fill, the Boost data template.
For `UInt` narrower than `int` the arithmetic happens in `int` after promotion; what is stored is the same.
-/

namespace Verif.Decimal

/-- `UInt` has `w` bits, the digit count has `e` bits (the template parameters, Decimal.h 32, DecimalConstants.h 18-25). -/
structure Cfg where
  w : Nat
  e : Nat

namespace Cfg

/-- DecimalConstants.h 25 -/
def manLen (c : Cfg) : Nat := c.w - (c.e + 1)

/-- DecimalConstants.h 32-35 -/
def maxExp (c : Cfg) : Nat := 2 ^ c.e - 1

/-- DecimalConstants.h 37-40 -/
def maxMan (c : Cfg) : Nat := 2 ^ c.manLen - 1

/-- DecimalConstants.h 56-72: one multiplication by ten per element, modulo `2 ^ w`. -/
def denomLoop (c : Cfg) : Nat → Nat
  | 0 => 1 % 2 ^ c.w
  | k + 1 => denomLoop c k * 10 % 2 ^ c.w

/-- `m_denoms[k]` (Decimal.h 169, 670); the array has `2 ^ e` elements. -/
def denom (c : Cfg) (k : Nat) : Res Nat := if k < 2 ^ c.e then .ok (c.denomLoop k) else .ub

end Cfg

/-- DecimalData.h 16-29, 41-53, 99: `BuiltinDecimalData` (and `m_data` of the decimal). -/
structure Dec where
  pos : Bool
  exp : Nat
  man : Nat
deriving DecidableEq, Repr

variable (c : Cfg)

/-- The values of the fields that exist: what the bit fields can hold (DecimalData.h 23-29). -/
def Dec.WF (d : Dec) : Prop := d.exp < 2 ^ c.e ∧ d.man < 2 ^ c.manLen

/-- DecimalData.h 80-83 -/
def Dec.setMan (d : Dec) (v : Nat) : Dec := { d with man := v % 2 ^ c.manLen }

/-- DecimalData.h 70-73 -/
def Dec.setExp (d : Dec) (v : Nat) : Dec := { d with exp := v % 2 ^ c.e }

/-- A value of the signed type; arithmetic that leaves it is undefined (`Int`, Decimal.h 44, DecimalData.h 37). -/
def sint (x : Int) : Res Int := if -(2 ^ (c.w - 1) : Int) ≤ x ∧ x < 2 ^ (c.w - 1) then .ok x else .ub

/-- Decimal.h 47-49, 387-390; DecimalData.h 51 -/
def Dec.zero : Dec := ⟨true, 0, 0⟩

/-- Decimal.h 51-53 (the digit count is not checked, the bit field keeps its low bits) -/
def ofDigits (digits : Nat) : Dec := ⟨true, digits % 2 ^ c.e, 0⟩

/-- Decimal.h 116-119 -/
def Dec.negate (d : Dec) : Dec := { d with pos := !d.pos }

/-- Decimal.h 121-126 -/
def Dec.mantissa (d : Dec) : Int := if d.pos then d.man else -d.man

/-- Decimal.h 128-140 -/
def Dec.setMantissa (d : Dec) (v : Int) : Res Dec :=
  if v ≥ 0 then .ok ({ d with pos := true }.setMan c v.toNat)
  else do
    let n ← sint c (-v)
    .ok ({ d with pos := false }.setMan c n.toNat)

/-- Decimal.h 55-59: the constructor from mantissa and digits -/
def fromMantissa (man : Int) (digits : Nat) : Res Dec := (ofDigits c digits).setMantissa c man

/-- Decimal.h 650-656 -/
def checkExp (digits : Nat) : Res Unit := if digits > c.maxExp then .throw .logic else .ok ()

/-- Decimal.h 474-500 -/
def Dec.extendSelf (d : Dec) (digits : Nat) : Res Dec :=
  if d.exp < digits then do
    checkExp c digits
    let d ← (if d.man ≠ 0 then do
      let denom ← c.denom (digits - d.exp)
      let maxDiff := c.maxMan / d.man
      if denom > maxDiff then .throw .logic
      else .ok (d.setMan c (d.man * denom % 2 ^ c.w))
      else .ok d)
    .ok (d.setExp c digits)
  else .ok d

/-- Decimal.h 502-519; division by zero is undefined. -/
def Dec.trimSelf (d : Dec) (digits : Nat) (check : Bool) : Res Dec :=
  if digits < d.exp then do
    let denom ← c.denom (d.exp - digits)
    if denom = 0 then .ub
    else if check ∧ d.man % denom ≠ 0 then .throw .logic
    else .ok ((d.setMan c (d.man / denom)).setExp c digits)
  else .ok d

/-- Decimal.h 462-472 -/
def Dec.rescaleSelf (d : Dec) (digits : Nat) (check : Bool) : Res Dec :=
  if d.exp < digits then d.extendSelf c digits
  else if digits < d.exp then d.trimSelf c digits check
  else .ok d

/-- Decimal.h 521-541 -/
def Dec.ceilSelf (d : Dec) (digits : Nat) : Res Dec :=
  if digits < d.exp then do
    let denom ← c.denom (d.exp - digits)
    if denom = 0 then .ub
    else
      let newMan := d.man / denom
      let newMan := if d.man % denom ≠ 0 then (newMan + 1) % 2 ^ c.w else newMan
      .ok ((d.setMan c newMan).setExp c digits)
  else .ok d

/-- The loop of Decimal.h 545-556, `fuel` an upper bound of the number of iterations (the digit count decreases). -/
def normLoop (d : Dec) : Nat → Dec
  | 0 => d
  | fuel + 1 =>
    if d.man ≠ 0 ∧ d.exp ≠ 0 then
      if d.man % 10 ≠ 0 then d
      else normLoop ((d.setMan c (d.man / 10)).setExp c (d.exp - 1)) fuel
    else d

/-- Decimal.h 543-562, 363-368 -/
def Dec.normalize (d : Dec) : Dec :=
  let d := normLoop c d d.exp
  if d.man = 0 then d.setExp c 0 else d

/-- Decimal.h 349-354 -/
def Dec.extend (d : Dec) (digits : Nat) : Res Dec := d.extendSelf c digits

/-- Decimal.h 356-361 -/
def Dec.truncate (d : Dec) (digits : Nat) : Res Dec := d.trimSelf c digits false

/-- Decimal.h 342-347 -/
def Dec.rescale (d : Dec) (digits : Nat) (check : Bool) : Res Dec := d.rescaleSelf c digits check

/-- Decimal.h 370-373 -/
def Dec.floor (d : Dec) (digits : Nat) : Res Dec := d.truncate c digits

/-- Decimal.h 375-380 -/
def Dec.ceil (d : Dec) (digits : Nat) : Res Dec := d.ceilSelf c digits

/-- Decimal.h 658-668 -/
def align (a b : Dec) : Res (Dec × Dec) :=
  if a.exp > b.exp then do
    let b ← b.rescaleSelf c a.exp true
    .ok (a, b)
  else if b.exp > a.exp then do
    let a ← a.rescaleSelf c b.exp true
    .ok (a, b)
  else .ok (a, b)

/-- Decimal.h 219-226 -/
def Dec.neg (d : Dec) : Dec := d.negate

/-- Decimal.h 228-236 -/
def Dec.add (x y : Dec) : Res Dec := do
  let (a, b) ← align c x y
  let m ← sint c (a.mantissa + b.mantissa)
  fromMantissa c m a.exp

/-- Decimal.h 238-246 -/
def Dec.sub (x y : Dec) : Res Dec := do
  let (a, b) ← align c x y
  let m ← sint c (a.mantissa - b.mantissa)
  fromMantissa c m a.exp

/-- Decimal.h 842-850; the sum of the digit counts is cut to eight bits when it is passed as `uint8_t` -/
def multiply (a b : Dec) : Res Dec := do
  let m ← sint c (a.mantissa * b.mantissa)
  (ofDigits c ((a.exp + b.exp) % 256)).setMantissa c m

/-- Decimal.h 181-192 -/
def Dec.eq (x y : Dec) : Bool :=
  if x.pos = y.pos then
    let a := x.normalize c
    let b := y.normalize c
    a.exp == b.exp && a.man == b.man
  else false

/-- Decimal.h 584-623; division by zero is undefined. -/
def comparePositive (a b : Dec) (comp : Nat → Nat → Bool) : Res Bool := do
  let ad ← c.denom a.exp
  let bd ← c.denom b.exp
  if ad = 0 ∨ bd = 0 then .ub
  else if a.man / ad ≠ b.man / bd then .ok (comp (a.man / ad) (b.man / bd))
  else do
    let av := a.man % ad
    let bv := b.man % bd
    if a.exp > b.exp then do
      let k ← c.denom (a.exp - b.exp)
      .ok (comp av (bv * k % 2 ^ c.w))
    else if b.exp > a.exp then do
      let k ← c.denom (b.exp - a.exp)
      .ok (comp (av * k % 2 ^ c.w) bv)
    else .ok (comp av bv)

/-- Decimal.h 564-582 -/
def compare (a b : Dec) (comp : Nat → Nat → Bool) : Res Bool :=
  if !a.pos && !b.pos then comparePositive c b a comp
  else if a.pos && b.pos then comparePositive c a b comp
  else .ok (comp (if b.pos then 0 else 1) (if a.pos then 0 else 1))

/-- Decimal.h 199-202 -/
def Dec.lt (x y : Dec) : Res Bool := compare c x y (fun a b => decide (a < b))

/-- Decimal.h 204-207 -/
def Dec.gt (x y : Dec) : Res Bool := compare c x y (fun a b => decide (a > b))

/-- Decimal.h 209-212 -/
def Dec.le (x y : Dec) : Res Bool := compare c x y (fun a b => decide (a ≤ b))

/-- Decimal.h 214-217 -/
def Dec.ge (x y : Dec) : Res Bool := compare c x y (fun a b => decide (a ≥ b))

/-- Decimal.h 869-872: `numeric_limits` -/
def maxValue : Res Dec := fromMantissa c c.maxMan 0

/-- Decimal.h 864-867: `numeric_limits` -/
def minValue : Res Dec := do
  let d ← fromMantissa c c.maxMan 0
  .ok d.neg

/-- DecimalTime.h 14-23; the result type has 64 bits. -/
def toNanoseconds (d : Dec) : Res Int := do
  let x ← d.extend c 9
  .ok (x.mantissa.bmod (2 ^ 64))

/-! ## Bits -/

/-- DecimalData.h 92-95 (Decimal.h 87-90) with the layout of the bit fields used by GCC and Clang on little-endian machines: the first field
occupies the lowest bits. -/
def Dec.toBits (d : Dec) : Nat := (if d.pos then 0 else 1) + 2 * d.exp + 2 ^ (c.e + 1) * d.man

/-- DecimalData.h 85-90 (Decimal.h 80-85) -/
def fromBits (v : Nat) : Dec := ⟨v % 2 = 0, v / 2 % 2 ^ c.e, v / 2 ^ (c.e + 1)⟩

/-! ## Text -/

/-- Decimal.h 639-648: the characters are given by their codes. -/
def symbolToDigit (ch : Nat) : Res Nat := if 48 ≤ ch ∧ ch ≤ 57 then .ok (ch - 48) else .throw .logic

/-- The local variables of `parse_int` (Decimal.h 769-773); the two counters are `uint8_t`. -/
structure PS where
  digits : Nat
  zeros : Nat
  val : Nat
deriving DecidableEq, Repr

/-- Decimal.h 775-786 -/
def doAppend (p : PS) (digit : Nat) : Res PS :=
  let v := (p.val * 10 + digit) % 2 ^ c.w
  if v > c.maxMan then .throw .logic
  else .ok { p with val := v, digits := (p.digits + 1) % 256 }

/-- Decimal.h 808-812: the loop that flushes the zeros -/
def flush (p : PS) : Nat → Res PS
  | 0 => .ok p
  | n + 1 => do
    let p ← doAppend c p 0
    flush p n

/-- Decimal.h 788-819 -/
def append (point : Bool) (p : PS) (digit : Nat) : Res PS :=
  if point then
    if digit ≠ 0 ∨ p.val ≠ 0 then doAppend c p digit else .ok p
  else if digit = 0 then .ok { p with zeros := (p.zeros + 1) % 256 }
  else do
    let p ← flush c p p.zeros
    doAppend c { p with zeros := 0 } digit

/-- Decimal.h 821-836; the rest of the text is returned. -/
def parseLoop (point : Bool) (p : PS) : List Nat → Res (List Nat × PS)
  | [] => .ok ([], p)
  | ch :: rest =>
    if point ∧ ch = 46 then .ok (rest, p)
    else do
      let digit ← symbolToDigit ch
      let p ← append c point p digit
      parseLoop point p rest

/-- Decimal.h 764-839 -/
def parseInt (t : List Nat) (point : Bool) : Res (List Nat × PS) := parseLoop c point ⟨0, 0, 0⟩ t

/-- Decimal.h 675-736.  `*i` (687) is not defined for an empty text. -/
def fromString (t : List Nat) : Res Dec :=
  match t with
  | [] => .ub
  | ch :: rest => do
    let signed := ch = 43 ∨ ch = 45
    let positive := if signed then decide (ch = 43) else true
    let body := if signed then rest else ch :: rest
    let (tail, pi) ← parseInt c body true
    let (left, pf) ← parseInt c tail false
    if left ≠ [] then .throw .logic
    else do
      checkExp c pf.digits
      let denom ← c.denom pf.digits
      if denom = 0 then .ub
      else if pi.val > c.maxMan / denom then .throw .logic
      else
        let ip := pi.val * denom % 2 ^ c.w
        if pf.val > c.maxMan - ip then .throw .logic
        else
          let d := (Dec.zero.setMan c ((ip + pf.val) % 2 ^ c.w)).setExp c pf.digits
          .ok (if positive then d else d.negate)

/-- The decimal digits that an output stream writes for a number (`out << int_part`, Decimal.h 754, 758). -/
def digitsOf (n : Nat) : List Nat := if n < 10 then [n] else digitsOf (n / 10) ++ [n % 10]
termination_by n

/-- What `out << std::setfill('0') << std::setw(width)` makes of the digits (Decimal.h 758). -/
def pad (width : Nat) (ds : List Nat) : List Nat := List.replicate (width - ds.length) 0 ++ ds

/-- The characters of digits (what `<<` writes, Decimal.h 754, 758). -/
def chars (ds : List Nat) : List Nat := ds.map (· + 48)

/-- Decimal.h 738-762 (`to_string` and friends 317-340 use it) -/
def Dec.print (d : Dec) : Res (List Nat) := do
  let denom ← c.denom d.exp
  if denom = 0 then .ub
  else
    let sign := if d.pos then [] else [45]
    let ip := chars (digitsOf (d.man / denom))
    let fp := if d.exp ≠ 0 then 46 :: chars (pad d.exp (digitsOf (d.man % denom))) else []
    .ok (sign ++ ip ++ fp)

end Verif.Decimal
