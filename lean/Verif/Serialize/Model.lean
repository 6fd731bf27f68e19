import Verif.Common.Res

/-!
# Serialization: `Awl/Io/Rw/*.h`

The overloads `Read(stream, value, ctx)` / `Write(stream, value, ctx)` are selected by the C++ type of the value.  The
model has a universe of type codes `Ty` and untyped values `Val`; `readTy` and `writeTy` are defined by recursion over
the type code with one equation per overload.

`Read` works *in place*: it gets the object that already exists.  `readTy t old` therefore takes the previous value of
the object and what it returns is the value of the object afterwards.

Structures are read by a *hook*: with a plain context `Read` of a structure reads the fields one after another
(`plainHook`), with a version tolerant context it calls `ctx.ReadV` (the component `Vts`).

Simplifications: a machine with 8-bit bytes, little-endian integers and 8-byte `size_t` (x64, the only platforms the
library is built for); floating point numbers, characters, decimals and integers are bit patterns; the iteration
order of hash containers is their insertion order.
-/

namespace Verif.Serialize

/-- Values of serializable objects (what the overloads of Awl/Io/Rw/*.h read and write). -/
inductive Val where
  | num (n : Nat)            -- bit pattern of an arithmetic type, decimal or enumeration
  | int (i : Int)            -- tick count of a time point
  | bool (b : Bool)
  | list (vs : List Val)     -- contents of a container, fields of a structure, pair of key and value
  | none                     -- empty optional, null pointer
  | some (v : Val)           -- optional or pointer with an object
  | alt (i : Nat) (v : Val)  -- variant holding alternative number `i`

/-- Kinds of containers that are filled element by element with `push_back` or `insert` (`CollectionReadWrite.h:101-212`). -/
inductive Coll where
  | deque                              -- std::deque
  | ring (cap : Nat)                   -- awl::ring with its limit set
  | ordered (lt : Val → Val → Bool)    -- std::set, std::map, awl::vector_set, awl::observable_set
  | hashed (eq : Val → Val → Bool)     -- std::unordered_set, std::unordered_map

/-- What `AWL_REFLECT` adds to a structure: its index in the variant of all structures, the names of the fields (used by `Writer.h:59-63`, `Reader.h`). -/
structure SInfo where
  idx : Nat
  names : List (List UInt8)

/-- Type codes (the argument types of the overloads of Awl/Io/Rw/*.h, cited at `readTy`). -/
inductive Ty where
  -- types with the same representation, such as int32_t, float and an enumeration, differ in `tag`
  | num (n : Nat) (tag : Nat := 0)      -- arithmetic type of `n` bytes except bool; std::atomic of it; decimal; non-sequential enum
  | bool
  | enm (n count : Nat)                 -- AWL_SEQUENTIAL_ENUM
  | time (p q : Nat)                    -- time_point, one tick is p/q nanoseconds
  | str (c : Nat)                       -- basic_string of characters of c bytes
  | vec (t : Ty)                        -- std::vector
  | arr (n : Nat) (t : Ty)              -- std::array; std::bitset and awl::bitmap are arrays of bool
  | opt (t : Ty) (ptr : Bool := false)  -- std::optional, std::shared_ptr, std::unique_ptr
  | coll (k : Coll) (t : Ty)            -- deque, ring, sets
  | map (k : Coll) (kt vt : Ty)         -- maps
  | var (ts : List Ty)                  -- std::variant
  | struct (info : Option SInfo) (ts : List Ty) -- structure with AWL_TUPLIZABLE (none) or AWL_REFLECT (some)

/-! ### Integers in memory -/

/-- The bytes of an unsigned integer of `n` bytes in memory: `reinterpret_cast<const uint8_t *>(&val)`,
`ArithmeticReadWrite.h:28-35`, on a little-endian machine. -/
def leBytes : Nat → Nat → List UInt8
  | 0, _ => []
  | n + 1, v => UInt8.ofNat v :: leBytes n (v / 256)

/-- The value of the bytes stored into the memory of an integer, `ArithmeticReadWrite.h:16-23`. -/
def leVal : List UInt8 → Nat
  | [] => 0
  | b :: bs => b.toNat + 256 * leVal bs

/-! ### Readers -/

/-- A reader: state of the context (only used by the version tolerant reader), the bytes that are left (a call `Read(s, val, ctx)`, `ReadWrite.h` and Awl/Io/Rw/*.h). -/
def Rd (σ : Type) (α : Type) : Type := σ → List UInt8 → Res (α × σ × List UInt8)

namespace Rd

/-- A reader that reads nothing: `return`, Awl/Io/Rw/CollectionReadWrite.h. -/
@[inline] protected def pure {σ α : Type} (a : α) : Rd σ α := fun c s => .ok (a, c, s)

/-- One call of `Read` after another: an exception skips the rest, Awl/Io/Rw/TuplizableReadWrite.h:21-24. -/
@[inline] protected def bind {σ α β : Type} (f : Rd σ α) (g : α → Rd σ β) : Rd σ β := fun c s =>
  match f c s with
  | .ok (a, c', s') => g a c' s'
  | .throw e => .throw e
  | .ub => .ub

instance {σ : Type} : Monad (Rd σ) where
  pure := Rd.pure
  bind := Rd.bind

/-- `throw e` (`ReadRaw.h:29`, `StringReadWrite.h:21`, `EnumReadWrite.h:61`). -/
def fail {σ α : Type} (e : Exn) : Rd σ α := fun _ _ => .throw e

/-- Undefined behaviour (for example `VariantReadWrite.h:58-60`). -/
def ub {σ α : Type} : Rd σ α := fun _ _ => .ub

/-- A call that does not touch the stream (for example `VectorReadWrite.h:102`). -/
def lift {σ α : Type} (r : Res α) : Rd σ α := fun c s =>
  match r with
  | .ok a => .ok (a, c, s)
  | .throw e => .throw e
  | .ub => .ub

end Rd

/-- `ReadRaw`, `ReadRaw.h:21-31`, on a stream whose `Read` returns fewer bytes than asked for only at the end of the
data (`VectorInputStream::Read`, `VectorStream.h:33-64`). -/
def readRaw {σ : Type} (count : Nat) : Rd σ (List UInt8) := fun c s =>
  if s.length < count then .throw .endOfFile else .ok (s.take count, c, s.drop count)

/-- Parameters of the environment: the length limit of `LimitedContext` (`SerializationContext.h:34-48`; `none` for
contexts without `max_length`) and the largest number of elements for which `resize` succeeds; above it
`std::length_error` or `std::bad_alloc` is thrown. -/
structure Env where
  limit : Option Nat
  cap : Nat

/-- `Read` of a `size_t`, `ArithmeticReadWrite.h:16-23`. -/
def readSize {σ : Type} : Rd σ Nat := do
  let bs ← readRaw 8
  pure (leVal bs)

/-- The default value of an object declared as `T val;` or created by `resize`.  Numbers are indeterminate in the C++
code; every reader of a number overwrites them, so zero stands for any value (`VectorReadWrite.h:102`, `OptionalReadWrite.h:25`, `CollectionReadWrite.h:40, 58, 77, 80`, `VariantReadWrite.h:34`). -/
def dflt : Ty → Val
  | .num _ _ => .num 0
  | .bool => .bool false
  | .enm _ _ => .num 0
  | .time _ _ => .int 0
  | .str _ => .list []
  | .vec _ => .list []
  | .arr n t => .list (List.replicate n (dflt t))
  | .opt _ _ => .none
  | .coll _ _ => .list []
  | .map _ _ _ => .list []
  | .var ts => match ts with
    | [] => .none
    | t :: _ => .alt 0 (dflt t)
  | .struct _ ts => .list (dflts ts)
where
  dflts : List Ty → List Val
    | [] => []
    | t :: ts => dflt t :: dflts ts

/-- `v.resize(n)`, `VectorReadWrite.h:102`: keeps the existing elements. -/
def resize (env : Env) (d : Val) (n : Nat) (vs : List Val) : Res (List Val) :=
  if env.cap < n then .throw .general
  else .ok (vs.take n ++ List.replicate (n - vs.length) d)

/-- How `ReadVector` and `WriteVector` are selected by the element type, `VectorReadWrite.h:16-92`. -/
inductive EK where
  | raw (n : Nat)   -- arithmetic elements, lines 16-30
  | each            -- class elements, lines 33-51
  | packed          -- bool elements, lines 53-92
  | bad             -- enumerations: no overload, does not compile

/-- Selection of the overload (the constraints of `VectorReadWrite.h:17, 34, 54`; an enumeration meets none of them). -/
def elemKind : Ty → EK
  | .num n _ => .raw n
  | .bool => .packed
  | .enm _ _ => .bad
  | _ => .each

/-- The elements of a block of memory holding `k` numbers of `n` bytes each (`VectorReadWrite.h:21`). -/
def splitNums (n : Nat) : Nat → List UInt8 → List Val
  | 0, _ => []
  | k + 1, bs => .num (leVal (bs.take n)) :: splitNums n k (bs.drop n)

/-- The loops of `ReadVector` for bool elements, `VectorReadWrite.h:55-70`; the two nested loops are one recursion
whose state is `aggr` and `mask`.  `mask` = 0 means that the inner loop is over and the next byte is to be read. -/
def readBits {σ : Type} : Nat → UInt8 → UInt8 → Rd σ (List Val)
  | 0, _, _ => pure []
  | n + 1, aggr, mask =>
    if mask = 0 then do
      let bs ← readRaw 1
      let aggr := UInt8.ofNat (leVal bs)
      let rest ← readBits n aggr ((1 : UInt8) <<< 1)
      pure (.bool (aggr &&& 1 != 0) :: rest)
    else do
      let rest ← readBits n aggr (mask <<< 1)
      pure (.bool (aggr &&& mask != 0) :: rest)

/-- The loop over the elements of `ReadVector` for class elements, `VectorReadWrite.h:35-41`, and `for_each` over the
fields of a structure. -/
def readEach {σ : Type} (rd : Val → Rd σ Val) : List Val → Rd σ (List Val)
  | [] => pure []
  | v :: vs => do
    let v' ← rd v
    let vs' ← readEach rd vs
    pure (v' :: vs')

/-- `ReadVector`, `VectorReadWrite.h:16-70`; `vs` is the container with its final size. -/
def readVector {σ : Type} (k : EK) (rd : Val → Rd σ Val) (vs : List Val) : Rd σ (List Val) :=
  match k with
  | .raw n => do
    let bs ← readRaw (vs.length * n)
    pure (splitNums n vs.length bs)
  | .each => readEach rd vs
  | .packed => readBits vs.length 0 0
  | .bad => .ub

/-- `std::set::insert`, `vector_set::insert` and the like: nothing happens if there is an equivalent element (called by `CollectionReadWrite.h:44, 83`). -/
def insertOrdered (lt : Val → Val → Bool) (key : Val → Val) (x : Val) : List Val → List Val
  | [] => [x]
  | y :: ys =>
    if lt (key y) (key x) then y :: insertOrdered lt key x ys
    else if lt (key x) (key y) then x :: y :: ys
    else y :: ys

/-- `coll.insert(elem)` (`CollectionReadWrite.h:44, 83`), `coll.push_back(elem)` (`:62`). `push_back` into a ring
whose limit is not set (capacity zero) is undefined (`Verif.Ring`); a full ring drops its oldest element. -/
def collInsert (k : Coll) (key : Val → Val) (x : Val) (l : List Val) : Res (List Val) :=
  match k with
  | .deque => .ok (l ++ [x])
  | .ring cap =>
    if cap = 0 then .ub
    else if l.length < cap then .ok (l ++ [x])
    else .ok (l.tail ++ [x])
  | .ordered lt => .ok (insertOrdered lt key x l)
  | .hashed eq => .ok (if l.any (fun y => eq (key y) (key x)) then l else l ++ [x])

/-- The loops of `ReadCollection`, `ReadDeque` and `ReadMap`, `CollectionReadWrite.h:38-45, 56-63, 75-84`; `coll` is
not cleared before. -/
def readColl {σ : Type} (k : Coll) (key : Val → Val) (rd : Rd σ Val) : Nat → List Val → Rd σ (List Val)
  | 0, acc => pure acc
  | n + 1, acc => do
    let x ← rd
    let acc' ← Rd.lift (collInsert k key x acc)
    readColl k key rd n acc'

/-- The key of a map element (`CollectionReadWrite.h:77, 83`). -/
def fstVal : Val → Val
  | .list (k :: _) => k
  | v => v

/-- One element of a map, `CollectionReadWrite.h:77-83`. -/
def readPair {σ : Type} (rk rv : Rd σ Val) : Rd σ Val := do
  let k ← rk
  let v ← rv
  pure (.list [k, v])

/-- Conversion of the 64 bits read to `int64_t` (`ChronoReadWrite.h:24-26`). -/
def toInt64 (n : Nat) : Int := if n < 2 ^ 63 then (n : Int) else (n : Int) - 2 ^ 64

/-- `i` is representable as `int64_t`; a signed overflow is undefined (in `ChronoReadWrite.h:28, 37`). -/
def fits64 (i : Int) : Bool := decide (-2 ^ 63 ≤ i ∧ i < 2 ^ 63)

/-- `duration_cast` between two durations whose ratio is `p/q`: `count * p / q` in `intmax_t` arithmetic, rounding
towards zero (`ChronoReadWrite.h:28, 37`). -/
def durationCast (p q : Nat) (i : Int) : Res Int :=
  if fits64 (i * p) then .ok ((i * p).tdiv q) else .ub

/-- The hook for structures: description of the structure, the readers of its fields, the current values of its
fields (`TuplizableReadWrite.h:57-67`). -/
abbrev Hook (σ : Type) : Type := Option SInfo → List (Val → Rd σ Val) → List Val → Rd σ (List Val)

/-- `ReadEach`, `TuplizableReadWrite.h:21-24`: the fields one after another. -/
def readFields {σ : Type} : List (Val → Rd σ Val) → List Val → Rd σ (List Val)
  | [], [] => pure []
  | rd :: rds, v :: vs => do
    let v' ← rd v
    let vs' ← readFields rds vs
    pure (v' :: vs')
  | _, _ => .ub

/-- `Read` of a structure with a context without `ReadV`, `TuplizableReadWrite.h:57-66`. -/
def plainHook {σ : Type} : Hook σ := fun _ rds vs => readFields rds vs

mutual

/-- `Read(s, val, ctx)` for every type (Awl/Io/Rw/ArithmeticReadWrite.h:16-23 and the headers beside it; the lines are cited at the cases). -/
def readTy {σ : Type} (env : Env) (h : Hook σ) : Ty → Val → Rd σ Val
  -- ArithmeticReadWrite.h:16-23; AtomicReadWrite.h:17-24; DecimalReadWrite.h:16-25; EnumReadWrite.h:18-27, 42-45
  | .num n _, _ => do
    let bs ← readRaw n
    pure (.num (leVal bs))
  -- ArithmeticReadWrite.h:41-48
  | .bool, _ => do
    let bs ← readRaw 1
    pure (.bool (leVal bs != 0))
  -- EnumReadWrite.h:67-72, ValidateEnum 55-63
  | .enm n count, _ => do
    let bs ← readRaw n
    if count ≤ leVal bs then Rd.fail .io else pure (.num (leVal bs))
  -- ChronoReadWrite.h:20-29
  | .time p q, _ => do
    let bs ← readRaw 8
    let i ← Rd.lift (durationCast q p (toInt64 (leVal bs)))
    pure (.int i)
  -- StringReadWrite.h:42-58; len * sizeof(Char) wraps around
  | .str c, _ => do
    let len ← readSize
    let byteLen := len * c % 2 ^ 64
    if env.limit.any (· < byteLen) then Rd.fail .io
    else do
      let vs ← Rd.lift (resize env (.num 0) len [])
      let bs ← readRaw byteLen
      pure (.list (splitNums c vs.length (bs ++ List.replicate (vs.length * c - byteLen) 0)))
  -- VectorReadWrite.h:96-105
  | .vec t, old => do
    let n ← readSize
    match old with
    | .list vs => do
      let vs' ← Rd.lift (resize env (dflt t) n vs)
      let r ← readVector (elemKind t) (readTy env h t) vs'
      pure (.list r)
    | _ => .ub
  -- VectorReadWrite.h:121-124; BitMapReadWrite.h:22-27, 40-45
  | .arr _ t, old =>
    match old with
    | .list vs => do
      let r ← readVector (elemKind t) (readTy env h t) vs
      pure (.list r)
    | _ => .ub
  -- OptionalReadWrite.h:17-31; PointerReadWrite.h:17-31, 49-63
  | .opt t _, old => do
    let bs ← readRaw 1
    if leVal bs != 0 then do
      let v ← readTy env h t (dflt t)
      pure (.some v)
    else pure old
  -- CollectionReadWrite.h:32-64
  | .coll k t, old => do
    let n ← readSize
    match old with
    | .list vs => do
      let r ← readColl k id (readTy env h t (dflt t)) n vs
      pure (.list r)
    | _ => .ub
  -- CollectionReadWrite.h:69-85
  | .map k kt vt, old => do
    let n ← readSize
    match old with
    | .list vs => do
      let r ← readColl k fstVal (readPair (readTy env h kt (dflt kt)) (readTy env h vt (dflt vt))) n vs
      pure (.list r)
    | _ => .ub
  -- VariantReadWrite.h:30-37, 50-61: the index is only asserted
  | .var ts, _ => do
    let i ← readSize
    match (readTys env h ts)[i]?, (dflt.dflts ts)[i]? with
    | some rd, some d => do
      let v ← rd d
      pure (.alt i v)
    | _, _ => .ub
  -- TuplizableReadWrite.h:57-66
  | .struct info ts, old =>
    match old with
    | .list vs => do
      let r ← h info (readTys env h ts) vs
      pure (.list r)
    | _ => .ub

/-- The readers of the fields of a structure or of the alternatives of a variant (`TuplizableReadWrite.h:23`, `VariantReadWrite.h:52`). -/
def readTys {σ : Type} (env : Env) (h : Hook σ) : List Ty → List (Val → Rd σ Val)
  | [] => []
  | t :: ts => readTy env h t :: readTys env h ts

end

/-! ### Writers -/

/-- The loops of `WriteVector` for bool elements, `VectorReadWrite.h:74-92`; the nested loops as one recursion with
the state `aggr` and `mask`, `mask` = 1 at the beginning of the inner loop. -/
def writeBits : List Bool → UInt8 → UInt8 → List UInt8
  | [], aggr, mask => if mask = 1 then [] else [aggr]
  | b :: bs, aggr, mask =>
    let aggr' := if b then aggr ||| mask else aggr
    let mask' := mask <<< 1
    if mask' = 0 then aggr' :: writeBits bs 0 1 else writeBits bs aggr' mask'

/-- Bytes of the elements of a vector of numbers (`VectorReadWrite.h:29`). -/
def numBytes (n : Nat) : List Val → Res (List UInt8)
  | [] => .ok []
  | .num v :: vs => do
    let bs ← numBytes n vs
    .ok (leBytes n v ++ bs)
  | _ => .ub

/-- Elements of a `vector<bool>` (`VectorReadWrite.h:84`). -/
def toBools : List Val → Res (List Bool)
  | [] => .ok []
  | .bool b :: vs => do
    let bs ← toBools vs
    .ok (b :: bs)
  | _ => .ub

/-- The loop over the elements, `VectorReadWrite.h:45-51`, `CollectionReadWrite.h:95-98`. -/
def writeEach (wr : Val → Res (List UInt8)) : List Val → Res (List UInt8)
  | [] => .ok []
  | v :: vs => do
    let a ← wr v
    let b ← writeEach wr vs
    .ok (a ++ b)

/-- `WriteVector`, `VectorReadWrite.h:24-92`. -/
def writeVector (k : EK) (wr : Val → Res (List UInt8)) (vs : List Val) : Res (List UInt8) :=
  match k with
  | .raw n => numBytes n vs
  | .each => writeEach wr vs
  | .packed => do
    let bs ← toBools vs
    .ok (writeBits bs 0 1)
  | .bad => .ub

/-- `Write` of a pair, `CollectionReadWrite.h:24-28`. -/
def writePair (wk wv : Val → Res (List UInt8)) : Val → Res (List UInt8)
  | .list [k, v] => do
    let a ← wk k
    let b ← wv v
    .ok (a ++ b)
  | _ => .ub

/-- The bits of an `int64_t` (`ChronoReadWrite.h:39-41`). -/
def ofInt64 (i : Int) : Nat := (i % 2 ^ 64).toNat

/-- The fields one after another, `TuplizableReadWrite.h:28-31`. -/
def writeFields : List (Val → Res (List UInt8)) → List Val → Res (List UInt8)
  | [], [] => .ok []
  | w :: ws, v :: vs => do
    let a ← w v
    let b ← writeFields ws vs
    .ok (a ++ b)
  | _, _ => .ub

mutual

/-- `Write(s, val, ctx)` for every type: the bytes appended to the stream.  `pre` is what is written in front of the
fields of a structure: nothing with a plain context (`TuplizableReadWrite.h:71-80`), the index of the structure with a
version tolerant one (`Writer.h:59-63`). -/
def writeTy (env : Env) (pre : Option SInfo → List UInt8) : Ty → Val → Res (List UInt8)
  -- ArithmeticReadWrite.h:28-35; AtomicReadWrite.h:28-33; DecimalReadWrite.h:29-32; EnumReadWrite.h:31-38, 49-52
  | .num n _, .num v => .ok (leBytes n v)
  -- ArithmeticReadWrite.h:52-57
  | .bool, .bool b => .ok (leBytes 1 (if b then 1 else 0))
  -- EnumReadWrite.h:76-81, ValidateEnum 55-63
  | .enm n count, .num v => if count ≤ v then .throw .io else .ok (leBytes n v)
  -- ChronoReadWrite.h:33-42
  | .time p q, .int i => do
    let ns ← durationCast p q i
    .ok (leBytes 8 (ofInt64 ns))
  -- StringReadWrite.h:68-79
  | .str c, .list vs =>
    let byteLen := vs.length * c % 2 ^ 64
    if env.limit.any (· < byteLen) then .throw .io
    else do
      let bs ← numBytes c vs
      .ok (leBytes 8 vs.length ++ bs)
  -- VectorReadWrite.h:109-116
  | .vec t, .list vs => do
    let bs ← writeVector (elemKind t) (writeTy env pre t) vs
    .ok (leBytes 8 vs.length ++ bs)
  -- VectorReadWrite.h:128-131; BitMapReadWrite.h:31-36, 49-54
  | .arr _ t, .list vs => writeVector (elemKind t) (writeTy env pre t) vs
  -- OptionalReadWrite.h:35-45; PointerReadWrite.h:35-45, 67-77
  | .opt _ _, .none => .ok (leBytes 1 0)
  | .opt t _, .some v => do
    let bs ← writeTy env pre t v
    .ok (leBytes 1 1 ++ bs)
  -- CollectionReadWrite.h:89-99
  | .coll _ t, .list vs => do
    let bs ← writeEach (writeTy env pre t) vs
    .ok (leBytes 8 vs.length ++ bs)
  | .map _ kt vt, .list vs => do
    let bs ← writeEach (writePair (writeTy env pre kt) (writeTy env pre vt)) vs
    .ok (leBytes 8 vs.length ++ bs)
  -- VariantReadWrite.h:75-81, 94-103
  | .var ts, .alt i v =>
    match (writeTys env pre ts)[i]? with
    | some w => do
      let bs ← w v
      .ok (leBytes 8 i ++ bs)
    | none => .ub
  -- TuplizableReadWrite.h:71-80; Writer.h:57-76
  | .struct info ts, .list vs => do
    let bs ← writeFields (writeTys env pre ts) vs
    .ok (pre info ++ bs)
  | _, _ => .ub

/-- The writers of the fields of a structure or of the alternatives of a variant (`TuplizableReadWrite.h:30`, `VariantReadWrite.h:96`). -/
def writeTys (env : Env) (pre : Option SInfo → List UInt8) : List Ty → List (Val → Res (List UInt8))
  | [] => []
  | t :: ts => writeTy env pre t :: writeTys env pre ts

end

/-- `awl::io::Read(stream, val)` with a plain context (`FakeContext` or `LimitedContext`): the value of the object
afterwards and the bytes that are left (`SerializationContext.h:30-48`, the overloads of Awl/Io/Rw/*.h). -/
def read (env : Env) (t : Ty) (old : Val) (s : List UInt8) : Res (Val × List UInt8) :=
  match readTy env (plainHook (σ := Unit)) t old () s with
  | .ok (v, _, s') => .ok (v, s')
  | .throw e => .throw e
  | .ub => .ub

/-- `awl::io::Write(stream, val)` with a plain context (`SerializationContext.h:30-48`, the overloads of Awl/Io/Rw/*.h). -/
def write (env : Env) (t : Ty) (v : Val) : Res (List UInt8) := writeTy env (fun _ => []) t v

end Verif.Serialize
