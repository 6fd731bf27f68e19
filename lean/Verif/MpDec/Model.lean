import Verif.Multiprec.DecData
import Verif.Decimal.Model

/-!
# `decimal<UInt, exp_len, MultiprecisionDecimalData>`: `Awl/Decimal.h` over `Extras/Boost/BoostExtras/MultiprecisionDecimalData.h`

The same template as in `Verif.Decimal`, with the other data template: the decimal is one word of the Boost type.  Differences to built-in integers: a signed number
of Boost is a sign and a magnitude of as many bits as the word, of which too large results keep the low bits (unchecked types), division by zero throws
`std::overflow_error`, and `sizeof` of the type, from which `Awl/Decimal.h` 37 computes the length of the mantissa, need not be the number of its bits: it is a parameter.
Not modelled: what goes through `double`.
-/

namespace Verif.MpDec

open Verif.Multiprec

/-- The template arguments: the type has `w` bits and `sizeof` `sz`, the digit count has `e` bits (Decimal.h 32). -/
structure Ty where
  w : Nat
  e : Nat
  sz : Nat

/-- The word (MultiprecisionDecimalData.h:98). -/
abbrev Ty.Word (t : Ty) := BitVec t.w

variable (t : Ty)

/-- DecimalConstants.h 25, a `uint8_t`, with `sizeof(UInt)` (DecimalConstants.h 17, Decimal.h 37). -/
def Ty.manLen : Nat := (t.sz * 8 - (t.e + 1)) % 256

/-- DecimalConstants.h 37-40, 27-30 -/
def Ty.maxMan : t.Word := (1#t.w <<< t.manLen) - 1#t.w

/-- DecimalConstants.h 32-35; Decimal.h 162-165 converts it to `uint8_t`. -/
def Ty.maxExp : Nat := ((1#t.w <<< t.e) - 1#t.w).toNat % 256

/-- DecimalConstants.h 56-72 -/
def Ty.denomLoop (t : Ty) : Nat → t.Word
  | 0 => 1#t.w
  | k + 1 => denomLoop t k * 10#t.w

/-- `m_denoms[k]` (Decimal.h 169, 670); the array has `2 ^ e` elements. -/
def Ty.denom (k : Nat) : Res t.Word := if k < 2 ^ t.e then .ok (t.denomLoop k) else .ub

/-- A result of signed arithmetic: the low bits of the magnitude (the type `Int` of MultiprecisionDecimalData.h:33, MultiprecisionTraits.h:14-78). -/
def Ty.sint (x : Int) : Int := x.sign * (x.natAbs % 2 ^ t.w : Nat)

/-- `a / b` and `a % b` throw for `b = 0` (used at Decimal.h 485, 510-515, 529-533, 592-606, 716, 750-752). -/
def Ty.nonzero (b : t.Word) : Res Unit := if b = 0#t.w then .throw .runtime else .ok ()

/-- Decimal.h 47-49, 387-390; MultiprecisionDecimalData.h:35 -/
def zero : t.Word := make t.e true 0 0#t.w

/-- Decimal.h 51-53 -/
def ofDigits (digits : Nat) : t.Word := make t.e true digits 0#t.w

/-- Decimal.h 116-119 -/
def negate (m : t.Word) : t.Word := setPositive m (!positive m)

/-- Decimal.h 121-126 -/
def mantissa (m : t.Word) : Int := if positive m then ((man t.e m).toNat : Int) else -((man t.e m).toNat : Int)

/-- Decimal.h 128-140 -/
def setMantissa (m : t.Word) (v : Int) : t.Word :=
  if v ≥ 0 then setMan t.e (setPositive m true) (BitVec.ofNat t.w v.toNat)
  else setMan t.e (setPositive m false) (BitVec.ofNat t.w (-v).toNat)

/-- Decimal.h 55-59 -/
def fromMantissa (v : Int) (digits : Nat) : t.Word := setMantissa t (ofDigits t digits) v

/-- Decimal.h 650-656 -/
def checkExp (digits : Nat) : Res Unit := if digits > t.maxExp then .throw .logic else .ok ()

/-- Decimal.h 474-500 -/
def extendSelf (m : t.Word) (digits : Nat) : Res t.Word :=
  if exp t.e m < digits then do
    checkExp t digits
    let m ← (if man t.e m ≠ 0#t.w then do
      let denom ← t.denom (digits - exp t.e m)
      let maxDiff := t.maxMan / man t.e m
      if denom > maxDiff then .throw .logic
      else .ok (setMan t.e m (man t.e m * denom))
      else .ok m)
    .ok (setExp t.e m digits)
  else .ok m

/-- Decimal.h 502-519 -/
def trimSelf (m : t.Word) (digits : Nat) (check : Bool) : Res t.Word :=
  if digits < exp t.e m then do
    let denom ← t.denom (exp t.e m - digits)
    t.nonzero denom
    if check ∧ man t.e m % denom ≠ 0#t.w then .throw .logic
    else .ok (setExp t.e (setMan t.e m (man t.e m / denom)) digits)
  else .ok m

/-- Decimal.h 462-472 -/
def rescaleSelf (m : t.Word) (digits : Nat) (check : Bool) : Res t.Word :=
  if exp t.e m < digits then extendSelf t m digits
  else if digits < exp t.e m then trimSelf t m digits check
  else .ok m

/-- Decimal.h 521-541 -/
def ceilSelf (m : t.Word) (digits : Nat) : Res t.Word :=
  if digits < exp t.e m then do
    let denom ← t.denom (exp t.e m - digits)
    t.nonzero denom
    let newMan := man t.e m / denom
    let newMan := if man t.e m % denom ≠ 0#t.w then newMan + 1#t.w else newMan
    .ok (setExp t.e (setMan t.e m newMan) digits)
  else .ok m

/-- The loop of Decimal.h 545-556, `fuel` an upper bound of the number of iterations (the digit count decreases). -/
def normLoop (m : t.Word) : Nat → t.Word
  | 0 => m
  | fuel + 1 =>
    if man t.e m ≠ 0#t.w ∧ exp t.e m ≠ 0 then
      if man t.e m % 10#t.w ≠ 0#t.w then m
      else
        let m := setMan t.e m (man t.e m / 10#t.w)
        normLoop (setExp t.e m (exp t.e m - 1)) fuel
    else m

/-- Decimal.h 543-562, 363-368 -/
def normalize (m : t.Word) : t.Word :=
  let m := normLoop t m (exp t.e m)
  if man t.e m = 0#t.w then setExp t.e m 0 else m

/-- Decimal.h 658-668 -/
def align (a b : t.Word) : Res (t.Word × t.Word) :=
  if exp t.e a > exp t.e b then do
    let b ← rescaleSelf t b (exp t.e a) true
    .ok (a, b)
  else if exp t.e b > exp t.e a then do
    let a ← rescaleSelf t a (exp t.e b) true
    .ok (a, b)
  else .ok (a, b)

/-- Decimal.h 228-236 -/
def add (x y : t.Word) : Res t.Word := do
  let (a, b) ← align t x y
  .ok (fromMantissa t (t.sint (mantissa t a + mantissa t b)) (exp t.e a))

/-- Decimal.h 238-246 -/
def sub (x y : t.Word) : Res t.Word := do
  let (a, b) ← align t x y
  .ok (fromMantissa t (t.sint (mantissa t a - mantissa t b)) (exp t.e a))

/-- Decimal.h 842-850 -/
def multiply (a b : t.Word) : t.Word :=
  setMantissa t (ofDigits t ((exp t.e a + exp t.e b) % 256)) (t.sint (mantissa t a * mantissa t b))

/-- Decimal.h 181-192 -/
def eq (x y : t.Word) : Bool :=
  if positive x = positive y then
    let a := normalize t x
    let b := normalize t y
    exp t.e a == exp t.e b && man t.e a == man t.e b
  else false

/-- Decimal.h 584-623 -/
def comparePositive (a b : t.Word) (comp : Nat → Nat → Bool) : Res Bool := do
  let ad ← t.denom (exp t.e a)
  let bd ← t.denom (exp t.e b)
  t.nonzero ad
  t.nonzero bd
  if man t.e a / ad ≠ man t.e b / bd then .ok (comp (man t.e a / ad).toNat (man t.e b / bd).toNat)
  else do
    let av := man t.e a % ad
    let bv := man t.e b % bd
    if exp t.e a > exp t.e b then do
      let k ← t.denom (exp t.e a - exp t.e b)
      .ok (comp av.toNat (bv * k).toNat)
    else if exp t.e b > exp t.e a then do
      let k ← t.denom (exp t.e b - exp t.e a)
      .ok (comp (av * k).toNat bv.toNat)
    else .ok (comp av.toNat bv.toNat)

/-- Decimal.h 564-582 -/
def compare (a b : t.Word) (comp : Nat → Nat → Bool) : Res Bool :=
  if !positive a && !positive b then comparePositive t b a comp
  else if positive a && positive b then comparePositive t a b comp
  else .ok (comp (if positive b then 0 else 1) (if positive a then 0 else 1))

/-! ## Text -/

/-- The local variables of `parse_int` (Decimal.h 769-773). -/
structure PS where
  digits : Nat
  zeros : Nat
  val : t.Word

/-- Decimal.h 775-786 -/
def doAppend (p : PS t) (digit : Nat) : Res (PS t) :=
  let v := p.val * 10#t.w + BitVec.ofNat t.w digit
  if v > t.maxMan then .throw .logic
  else .ok { p with val := v, digits := (p.digits + 1) % 256 }

/-- Decimal.h 808-812: the loop that flushes the zeros -/
def flush (p : PS t) : Nat → Res (PS t)
  | 0 => .ok p
  | n + 1 => do
    let p ← doAppend t p 0
    flush p n

/-- Decimal.h 788-819 -/
def append (point : Bool) (p : PS t) (digit : Nat) : Res (PS t) :=
  if point then
    if digit ≠ 0 ∨ p.val ≠ 0#t.w then doAppend t p digit else .ok p
  else if digit = 0 then .ok { p with zeros := (p.zeros + 1) % 256 }
  else do
    let p ← flush t p p.zeros
    doAppend t { p with zeros := 0 } digit

/-- Decimal.h 821-836; the rest of the text is returned. -/
def parseLoop (point : Bool) (p : PS t) : List Nat → Res (List Nat × PS t)
  | [] => .ok ([], p)
  | ch :: rest =>
    if point ∧ ch = 46 then .ok (rest, p)
    else do
      let digit ← Decimal.symbolToDigit ch
      let p ← append t point p digit
      parseLoop point p rest

/-- Decimal.h 764-839 -/
def parseInt (s : List Nat) (point : Bool) : Res (List Nat × PS t) := parseLoop t point ⟨0, 0, 0#t.w⟩ s

/-- Decimal.h 675-736.  `*i` (687) is not defined for an empty text. -/
def fromString (s : List Nat) : Res t.Word :=
  match s with
  | [] => .ub
  | ch :: rest => do
    let signed := ch = 43 ∨ ch = 45
    let positive := if signed then decide (ch = 43) else true
    let body := if signed then rest else ch :: rest
    let (tail, pi) ← parseInt t body true
    let (left, pf) ← parseInt t tail false
    if left ≠ [] then .throw .logic
    else do
      checkExp t pf.digits
      let denom ← t.denom pf.digits
      t.nonzero denom
      if pi.val > t.maxMan / denom then .throw .logic
      else
        let ip := pi.val * denom
        if pf.val > t.maxMan - ip then .throw .logic
        else
          let d := setExp t.e (setMan t.e (zero t) (ip + pf.val)) pf.digits
          .ok (if positive then d else negate t d)

/-- Decimal.h 738-762; Boost writes the same digits as for a built-in integer. -/
def print (m : t.Word) : Res (List Nat) := do
  let denom ← t.denom (exp t.e m)
  t.nonzero denom
  let sign := if positive m then [] else [45]
  let ip := Decimal.chars (Decimal.digitsOf (man t.e m / denom).toNat)
  let fp := if exp t.e m ≠ 0 then 46 :: Decimal.chars (Decimal.pad (exp t.e m) (Decimal.digitsOf (man t.e m % denom).toNat)) else []
  .ok (sign ++ ip ++ fp)

/-- Decimal.h 869-872: `numeric_limits` -/
def maxValue : t.Word := fromMantissa t t.maxMan.toNat 0

/-- Decimal.h 864-867: `numeric_limits` -/
def minValue : t.Word := negate t (fromMantissa t t.maxMan.toNat 0)

/-! ## Programs -/

/-- What a program can do with a type of decimals, the public functions of the template (Decimal.h 47-408, 842-850). -/
structure Iface (D : Type) where
  zero : D
  ofMantissa : Int → Nat → Res D
  parse : List Nat → Res D
  neg : D → D
  add : D → D → Res D
  sub : D → D → Res D
  mul : D → D → Res D
  rescale : D → Nat → Bool → Res D
  extend : D → Nat → Res D
  truncate : D → Nat → Res D
  ceil : D → Nat → Res D
  normalize : D → D
  eq : D → D → Bool
  compare : D → D → (Nat → Nat → Bool) → Res Bool
  print : D → Res (List Nat)
  mantissa : D → Int
  exponent : D → Nat
  positive : D → Bool
  bits : D → Nat

/-- The functions over `BuiltinDecimalData` (Decimal.h 47-408, 842-850, DecimalData.h). -/
def builtin (c : Decimal.Cfg) : Iface Decimal.Dec where
  zero := .zero
  ofMantissa := Decimal.fromMantissa c
  parse := Decimal.fromString c
  neg := Decimal.Dec.neg
  add := Decimal.Dec.add c
  sub := Decimal.Dec.sub c
  mul := Decimal.multiply c
  rescale := Decimal.Dec.rescale c
  extend := Decimal.Dec.extend c
  truncate := Decimal.Dec.truncate c
  ceil := Decimal.Dec.ceil c
  normalize := Decimal.Dec.normalize c
  eq := Decimal.Dec.eq c
  compare := Decimal.compare c
  print := Decimal.Dec.print c
  mantissa := Decimal.Dec.mantissa
  exponent := Decimal.Dec.exp
  positive := Decimal.Dec.pos
  bits := Decimal.Dec.toBits c

/-- The functions over `MultiprecisionDecimalData` (Decimal.h 47-408, 842-850, MultiprecisionDecimalData.h). -/
def boost : Iface t.Word where
  zero := zero t
  ofMantissa v digits := .ok (fromMantissa t v digits)
  parse := fromString t
  neg := negate t
  add := add t
  sub := sub t
  mul a b := .ok (multiply t a b)
  rescale := rescaleSelf t
  extend := extendSelf t
  truncate m digits := trimSelf t m digits false
  ceil := ceilSelf t
  normalize := normalize t
  eq := eq t
  compare := compare t
  print := print t
  mantissa := mantissa t
  exponent := exp t.e
  positive m := Multiprec.positive m
  bits m := m.toNat

/-- A statement of a program with variables `0, 1, …` of the type of decimals (calls of Decimal.h 47-408, 842-850). -/
inductive Stmt where
  | ofMantissa (x : Nat) (v : Int) (digits : Fin 256)
  | parse (x : Nat) (s : List Nat)
  | neg (x a : Nat)
  | add (x a b : Nat)
  | sub (x a b : Nat)
  | mul (x a b : Nat)
  | rescale (x a : Nat) (digits : Fin 256) (check : Bool)
  | extend (x a : Nat) (digits : Fin 256)
  | truncate (x a : Nat) (digits : Fin 256)
  | ceil (x a : Nat) (digits : Fin 256)
  | normalize (x a : Nat)
  | eq (a b : Nat)
  | lt (a b : Nat)
  | le (a b : Nat)
  | gt (a b : Nat)
  | ge (a b : Nat)
  | print (a : Nat)
  | look (a : Nat)
deriving Repr

/-- What the user of the program sees (Decimal.h 106-170, 181-217, 317-340, 87-90). -/
inductive Seen where
  | done
  | bool (b : Bool)
  | text (s : List Nat)
  | parts (positive : Bool) (exponent : Nat) (mantissa : Int) (bits : Nat)
  | threw (e : Exn)
deriving DecidableEq, Repr

variable {t} {D : Type}

/-- An assignment to a variable, which is not reached if an exception is thrown (Decimal.h 74-75). -/
def assign (vars : Nat → D) (x : Nat) : Res D → Res ((Nat → D) × Seen)
  | .ok d => .ok (fun y => if y = x then d else vars y, .done)
  | .throw e => .ok (vars, .threw e)
  | .ub => .ub

/-- What is seen of a result; an exception is caught (Decimal.h 181-217, 317-340). -/
def show_ {α : Type} (vars : Nat → D) (f : α → Seen) : Res α → Res ((Nat → D) × Seen)
  | .ok a => .ok (vars, f a)
  | .throw e => .ok (vars, .threw e)
  | .ub => .ub

/-- One statement (Decimal.h 47-408, 842-850). -/
def exec (I : Iface D) (vars : Nat → D) : Stmt → Res ((Nat → D) × Seen)
  | .ofMantissa x v d => assign vars x (I.ofMantissa v d)
  | .parse x s => assign vars x (I.parse s)
  | .neg x a => assign vars x (.ok (I.neg (vars a)))
  | .add x a b => assign vars x (I.add (vars a) (vars b))
  | .sub x a b => assign vars x (I.sub (vars a) (vars b))
  | .mul x a b => assign vars x (I.mul (vars a) (vars b))
  | .rescale x a d check => assign vars x (I.rescale (vars a) d check)
  | .extend x a d => assign vars x (I.extend (vars a) d)
  | .truncate x a d => assign vars x (I.truncate (vars a) d)
  | .ceil x a d => assign vars x (I.ceil (vars a) d)
  | .normalize x a => assign vars x (.ok (I.normalize (vars a)))
  | .eq a b => show_ vars .bool (.ok (I.eq (vars a) (vars b)))
  | .lt a b => show_ vars .bool (I.compare (vars a) (vars b) (fun a b => decide (a < b)))
  | .le a b => show_ vars .bool (I.compare (vars a) (vars b) (fun a b => decide (a ≤ b)))
  | .gt a b => show_ vars .bool (I.compare (vars a) (vars b) (fun a b => decide (a > b)))
  | .ge a b => show_ vars .bool (I.compare (vars a) (vars b) (fun a b => decide (a ≥ b)))
  | .print a => show_ vars .text (I.print (vars a))
  | .look a => .ok (vars, .parts (I.positive (vars a)) (I.exponent (vars a)) (I.mantissa (vars a)) (I.bits (vars a)))

/-- A program (of calls of Decimal.h 47-408, 842-850): all that is seen. -/
def run (I : Iface D) (vars : Nat → D) : List Stmt → Res (List Seen)
  | [] => .ok []
  | s :: ss => do
    let (vars, o) ← exec I vars s
    let os ← run I vars ss
    .ok (o :: os)

/-- All the variables are zero at first (Decimal.h 47-49). -/
def start (I : Iface D) (p : List Stmt) : Res (List Seen) := run I (fun _ => I.zero) p

end Verif.MpDec
