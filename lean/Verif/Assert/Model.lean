/-!
# Assertions of tests: `Awl/Testing/TestAssert.h`

An exception is its class; `isA x e` says that `catch (const e &)` catches an `x` (the same class, or a base of it that is public and not ambiguous).  Messages are left out.
The values compared by `AreEqual` are integers of types with 8 to 64 bits, `int` has 32 bits; they are compared after the usual arithmetic conversions ([expr.arith.conv], C++20:
two's complement).  That formatting the message fails is left out.
-/

namespace Verif.Assert

/-- The classes of exceptions of a program (they are what `catch (const E &)` tests, Awl/Testing/TestAssert.h:59; `TestException` is thrown at 23). -/
structure Classes where
  Cls : Type
  isA : Cls → Cls → Bool
  refl : ∀ x, isA x x = true
  trans : ∀ x y z, isA x y = true → isA y z = true → isA x z = true
  /-- `TestException` -/
  test : Cls

variable (K : Classes)

/-- How a call ends (of the function that Awl/Testing/TestAssert.h:56 calls). -/
inductive End where
  | ret
  | thrown (x : K.Cls)

/-- `Assert::Fail`, TestAssert.h:20-24. -/
def fail : End K := .thrown K.test

/-- `Assert::IsTrue`, TestAssert.h:26-32. -/
def isTrue (val : Bool) : End K := if !val then fail K else .ret

/-- `Assert::IsFalse`, TestAssert.h:34-40. -/
def isFalse (val : Bool) : End K := if val then fail K else .ret

/-- `Assert::Throws<E>(func)`, TestAssert.h:51-62, by how `func` ends: `Fail` is called inside of the `try` block. -/
def throws (e : K.Cls) (func : End K) : End K :=
  let body : End K := match func with
    | .ret => fail K
    | .thrown x => .thrown x
  match body with
  | .ret => .ret
  | .thrown x => if K.isA x e then .ret else .thrown x

/-- A type of integers (of the operands of Awl/Testing/TestAssert.h:45). -/
structure IntTy where
  bits : Nat
  signed : Bool
deriving DecidableEq, Repr

/-- A type has the value (the operands of Awl/Testing/TestAssert.h:45 have values of their types). -/
def IntTy.Has (t : IntTy) (v : Int) : Prop := if t.signed then -(2 ^ (t.bits - 1) : Int) ≤ v ∧ v < 2 ^ (t.bits - 1) else 0 ≤ v ∧ v < 2 ^ t.bits

/-- Integral promotion: types smaller than `int` become `int` (part of `!=` of Awl/Testing/TestAssert.h:45). -/
def promote (t : IntTy) : IntTy := if t.bits < 32 then ⟨32, true⟩ else t

/-- The common type of promoted types (part of `!=` of Awl/Testing/TestAssert.h:45). -/
def common (a b : IntTy) : IntTy :=
  if a.signed = b.signed then (if a.bits ≤ b.bits then b else a)
  else
    let u := if a.signed then b else a
    let s := if a.signed then a else b
    if s.bits ≤ u.bits then u else s

/-- Conversion of a value to a type: the value of the type that is congruent modulo 2^bits (part of `!=` of Awl/Testing/TestAssert.h:45). -/
def conv (t : IntTy) (v : Int) : Int :=
  let r := v % 2 ^ t.bits
  if t.signed ∧ 2 ^ (t.bits - 1) ≤ r then r - 2 ^ t.bits else r

/-- `expected != actual` for integers (Awl/Testing/TestAssert.h:45). -/
def notEqual (ta tb : IntTy) (a b : Int) : Bool :=
  let c := common (promote ta) (promote tb)
  conv c a != conv c b

/-- `Assert::AreEqual(expected, actual)`, TestAssert.h:42-49. -/
def areEqual (ta tb : IntTy) (a b : Int) : End K := if notEqual ta tb a b then fail K else .ret

end Verif.Assert
