import Verif.Common.Res

/-!
# `bitmap`: `Awl/BitMap.h`

`std::bitset<N>` is `BitVec n`: bit `i` is `getLsbD i`.  Enumeration values are their underlying numbers; a value that is
not an element (`≥ n`) is possible, by a cast.
-/

namespace Verif.BitMap

/-- `Enum2Bits` (Awl/BitMap.h:183-188): `bitset::set` throws `out_of_range`. -/
def enum2Bits (n e : Nat) : Res (BitVec n) := if e < n then .ok (BitVec.twoPow n e) else .throw .outOfRange

/-- `MakeLong` (Awl/BitMap.h:190-200): a shift by 64 or more is undefined. -/
def makeLong : List Nat → BitVec 64 → Res (BitVec 64)
  | [], val => .ok val
  | v :: vs, val => if v < 64 then makeLong vs (val ||| (BitVec.ofNat 64 1 <<< v)) else .ub

/-- The constructor with an initializer list (Awl/BitMap.h:33-39); `bitset(unsigned long long)` keeps the lower bits. -/
def ofList (n : Nat) (vs : List Nat) : Res (BitVec n) := makeLong vs 0 >>= fun l => .ok (l.setWidth n)

/-- The operations that change a bitmap (Awl/BitMap.h:62-85, 108-124, 137-152). -/
inductive Op (n : Nat) where
  | orE (e : Nat)             -- operator|=(Enum), 69-73
  | andE (e : Nat)            -- operator&=(Enum), 75-79
  | xorE (e : Nat)            -- operator^=(Enum), 81-85
  | flip                      -- bm = ~bm, 62-67
  | or (b : BitVec n)         -- operator|=(bitmap), 108-112
  | and (b : BitVec n)        -- operator&=(bitmap), 114-118
  | xor (b : BitVec n)        -- operator^=(bitmap), 120-124
  | set (e : Nat) (v : Bool)  -- set(value, b), 137-142
  | ref (e : Nat) (v : Bool)  -- bm[value] = v, 149-152

/-- `bitset::set(i, v)` (used by Awl/BitMap.h:137-142 and the reference of 149-152). -/
def setBit {n : Nat} (s : BitVec n) (i : Nat) (v : Bool) : BitVec n :=
  if v then s ||| BitVec.twoPow n i else s &&& ~~~ BitVec.twoPow n i

/-- One operation; the binary operators without assignment (41-60, 87-106) compute the same in a copy (Awl/BitMap.h:41-124, 137-152). -/
def step {n : Nat} (s : BitVec n) : Op n → Res (BitVec n)
  | .orE e => enum2Bits n e >>= fun b => .ok (s ||| b)
  | .andE e => enum2Bits n e >>= fun b => .ok (s &&& b)
  | .xorE e => enum2Bits n e >>= fun b => .ok (s ^^^ b)
  | .flip => .ok (~~~ s)
  | .or b => .ok (s ||| b)
  | .and b => .ok (s &&& b)
  | .xor b => .ok (s ^^^ b)
  | .set e v => if e < n then .ok (setBit s e v) else .throw .outOfRange
  | .ref e v => if e < n then .ok (setBit s e v) else .ub     -- `bitset::operator[]` does not check

/-- A history of operations (Awl/BitMap.h:41-152). -/
def run {n : Nat} : BitVec n → List (Op n) → Res (BitVec n)
  | s, [] => .ok s
  | s, op :: ops => step s op >>= fun s => run s ops

/-- `test` (Awl/BitMap.h:126-129). -/
def test {n : Nat} (s : BitVec n) (e : Nat) : Res Bool := if e < n then .ok (s.getLsbD e) else .throw .outOfRange

/-- `operator[] const` (Awl/BitMap.h:144-147). -/
def at' {n : Nat} (s : BitVec n) (e : Nat) : Res Bool := if e < n then .ok (s.getLsbD e) else .ub

/-- `any`, `all`, `none` (Awl/BitMap.h:131-135, `operator bool` 174). -/
def any {n : Nat} (s : BitVec n) : Bool := s != 0
/-- `all` (Awl/BitMap.h:132). -/
def all {n : Nat} (s : BitVec n) : Bool := s == ~~~ (0 : BitVec n)
/-- `none` (Awl/BitMap.h:134). -/
def none {n : Nat} (s : BitVec n) : Bool := !any s

/-- `count` (Awl/BitMap.h:154-157), converted to the underlying type of the enumeration, with `w` bits. -/
def count (w : Nat) {n : Nat} (s : BitVec n) : Nat := ((List.range n).filter (fun i => s.getLsbD i)).length % 2 ^ w

end Verif.BitMap
