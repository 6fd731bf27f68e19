import Verif.Vts.Model

/-!
# What I/O exceptions say: `Awl/Io/IoException.h`, `Awl/Io/Rw/ReadRaw.h`, `Awl/Io/Reader.h`, `Awl/Io/AtomicStorage.cpp`

`Verif.Vts` has the exceptions without their data.  Here the functions that throw them are modelled with the data, so
that the texts a program shows or logs can be compared with what has happened.
-/

namespace Verif.IoMsg

open Verif.Vts

/-- The exceptions of `Awl/Io/IoException.h:17-130` with their members; `ReadFailException` and `WriteFailException`,
which have none, are not thrown by the modelled functions. -/
inductive Err where
  /-- `EndOfFileException`, `IoException.h:17-35`. -/
  | eof (requested actual : Nat)
  /-- `CorruptionException`, `IoException.h:37-66`; the position `size_t(-1)` means none. -/
  | corruption (pos : Nat)
  /-- `FieldNotFoundException`, `IoException.h:99-115`. -/
  | fieldNotFound (name : List Char)
  /-- `TypeMismatchException`, `IoException.h:117-136`: the arguments in their order. -/
  | typeMismatch (name : List Char) (actual expected : Nat)
  /-- `IoError`, `IoException.h:79-97`. -/
  | ioError (message : List Char)
  deriving DecidableEq, Repr

/-- The outcome of a call: a value, an exception with its data, undefined behaviour (`IoException.h:12-136`). -/
inductive Out (α : Type) where
  | ok (a : α)
  | throw (e : Err)
  | ub
  deriving DecidableEq, Repr

/-- One call after another (an exception leaves the function, as in `Reader.h:153-290`). -/
def Out.bind {α β : Type} (r : Out α) (f : α → Out β) : Out β :=
  match r with
  | .ok a => f a
  | .throw e => .throw e
  | .ub => .ub

/-- `out << n` of an unsigned number, `StringFormat.h:20-27`: decimal digits.  Simplified: the global locale is the
classic one. -/
def dec (n : Nat) : List Char := Nat.toDigits 10 n

/-- `What()`, `IoException.h:26-29, 45-60, 93-96, 107-110, 126-129`; `2 ^ 64 - 1` is `size_t(-1)`, which means that there
is no position (`IoException.h:41, 51`), and elsewhere `Field::NoType` (`Prototype.h:20`).  Simplified: `awl::Char` is `char`, so that
`FromAString` is the identity. -/
def what : Err → List Char
  | .eof r a => "Requested ".toList ++ (dec r ++ (" actually read ".toList ++ (dec a ++ " .".toList)))
  | .corruption p =>
    "The stream is corrupted".toList ++ ((if p ≠ 2 ^ 64 - 1 then " at ".toList ++ dec p else []) ++ " .".toList)
  | .fieldNotFound n => "Field '".toList ++ (n ++ "' not found. .".toList)
  | .typeMismatch n a e =>
    "Expected '".toList ++ (n ++ ("' type: ".toList ++ (dec e ++ (" actually read type: ".toList ++ (dec a ++ " .".toList)))))
  | .ioError m => m

/-- The line that `AtomicStorage::LoadFromFile` logs for an exception, `AtomicStorage.cpp:81-100`; the handlers are
tried from the first to the last. -/
def logLine (file : List Char) : Err → List Char
  | .corruption _ => "Corrupted settings file '".toList ++ (file ++ "'.".toList)
  | .eof _ _ => "Unexpected end of settings file '".toList ++ (file ++ "'.".toList)
  | .typeMismatch n a e =>
    "Type mismatch error ".toList ++ (what (.typeMismatch n a e) ++ (" in the settings file '".toList ++ (file ++
      "' Did you include all the types including those that were removed ? .".toList)))
  | e => "General IO exception in '".toList ++ (file ++ ("': ".toList ++ what e))

/-- `ReadRaw`, `Awl/Io/Rw/ReadRaw.h:22-31`, of a stream that holds the bytes `s`: `Read` gives as many as there are. -/
def readRaw (s : List UInt8) (count : Nat) : Out (List UInt8 × List UInt8) :=
  let actuallyRead := min count s.length
  if actuallyRead < count then .throw (.eof count actuallyRead)
  else .ok (s.take actuallyRead, s.drop actuallyRead)

/-- The characters of a name, `FromAString` in `IoException.h:109, 128`. -/
def text (n : Name) : List Char := n.map fun b => Char.ofNat b.toNat

/-- The inner loop of `AttachMetadata`, `Reader.h:183-215`. -/
def attachFields (old_tm new_tm : List Name) : List (Name × Nat) → Out Proto
  | [] => .ok []
  | (n, ty) :: fs =>
    if ty = 2 ^ 64 - 1 then (attachFields old_tm new_tm fs).bind fun r => .ok ((n, none) :: r)
    else
      match old_tm[ty]? with
      | none => .throw (.corruption (2 ^ 64 - 1))
      | some tn =>
        match findName new_tm tn with
        | none => .throw (.typeMismatch (text n) ty (2 ^ 64 - 1))
        | some k => (attachFields old_tm new_tm fs).bind fun r => .ok ((n, some k) :: r)

/-- `Reader::AttachMetadata`, `Reader.h:172-219`. -/
def attachMetadata (old_tm new_tm : List Name) : List (List (Name × Nat)) → Out (List Proto)
  | [] => .ok []
  | p :: ps =>
    (attachFields old_tm new_tm p).bind fun a => (attachMetadata old_tm new_tm ps).bind fun b => .ok (a :: b)

/-- `AreTypeNamesEqual`, `Reader.h:471-478`. -/
def areTypeNamesEqual (names : List Name) (a b : Nat) : Out Bool :=
  match names[a]?, names[b]? with
  | some x, some y => .ok (x == y)
  | _, _ => .ub

/-- `CheckTypesCompatible`, `Reader.h:446-464`. -/
def checkTypesCompatible (names : List Name) (o n : Option Nat) : Out Unit :=
  if o = n then .ok ()
  else
    match o, n with
    | some a, some b =>
      (areTypeNamesEqual names a b).bind fun eq => if eq then .ok () else .throw (.ioError "Type mismatch.".toList)
    | _, _ => .throw (.ioError "A structure can't map to a scalar type.".toList)

/-- `AreTypesEqual`, `Reader.h:466-469`. -/
def areTypesEqual (names : List Name) (o n : Option Nat) : Out Bool :=
  if o = n then .ok true
  else
    match o, n with
    | some a, some b => areTypeNamesEqual names a b
    | _, _ => .ub

/-- The outer loop of `MapPrototypes`, `Reader.h:404-426`; the inner loop is `findIdx?`. -/
def mapFields (names : List Name) (rn : Name → Name) (right : Proto) : Proto → Out (List (Option Nat))
  | [] => .ok []
  | (n, ty) :: fs =>
    match right.findIdx? (fun f => f.1 == rn n) with
    | none => (mapFields names rn right fs).bind fun r => .ok (none :: r)
    | some j =>
      match right[j]? with
      | none => .ub
      | some f =>
        (checkTypesCompatible names ty f.2).bind fun _ =>
          (mapFields names rn right fs).bind fun r => .ok (some j :: r)

/-- `MapPrototypes`, `Reader.h:399-444`. -/
def mapPrototypes (names : List Name) (rn : Name → Name) (left right : Proto) : Out (List (Option Nat)) :=
  (mapFields names rn right left).bind fun v =>
    if left.length = right.length ∧ v = (List.range v.length).map some then .ok [] else .ok v

/-- `Field::type` as a number, `Prototype.h:20`. -/
def typeNo : Option Nat → Nat
  | some k => k
  | none => 2 ^ 64 - 1

/-- The loop over the fields in `ReadV`, `Reader.h:250-279`.  `skip` is `SkipField` of a field of the given type and
`rd j` is `ReadField` of the field number `j` of the object; they change the state `σ`, the object and the stream. -/
def readMapped {σ : Type} (names : List Name) (allowDelete : Bool) (skip : Option Nat → σ → Out σ) (right : Proto)
    (rd : Nat → σ → Out σ) : List ((Name × Option Nat) × Option Nat) → σ → Out σ
  | [], s => .ok s
  | (f, none) :: ps, s =>
    if allowDelete then (skip f.2 s).bind fun s' => readMapped names allowDelete skip right rd ps s'
    else .throw (.fieldNotFound (text f.1))
  | (f, some j) :: ps, s =>
    match right[j]? with
    | some nf =>
      (areTypesEqual names f.2 nf.2).bind fun eq =>
        if eq then (rd j s).bind fun s' => readMapped names allowDelete skip right rd ps s'
        else .throw (.typeMismatch (text nf.1) (typeNo nf.2) (typeNo f.2))
    | none => .ub

/-- `Reader::ReadV`, `Reader.h:227-281`, of a structure that is read for the first time (`FindProtoMap`,
`Reader.h:376-392`, has no map yet), after its index has been read: `left` and `right` are its prototypes in the
stream and in the program, `all` is `ReadTuplizable`. -/
def readStruct {σ : Type} (names : List Name) (rn : Name → Name) (allowDelete : Bool) (left right : Proto)
    (skip : Option Nat → σ → Out σ) (all : σ → Out σ) (rd : Nat → σ → Out σ) (s : σ) : Out σ :=
  (mapPrototypes names rn left right).bind fun m =>
    if m.isEmpty then all s else readMapped names allowDelete skip right rd (left.zip m) s

end Verif.IoMsg
