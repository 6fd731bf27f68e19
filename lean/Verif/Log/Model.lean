import Verif.Common.Res
import Verif.Text.Model
import Verif.Convert.Model

/-!
# Logging: `Awl/Logger.h`, `Awl/LogLevel.h`, `Awl/LogString.h`, `Awl/ConsoleLogger.h`

A character is a number.  `Char` is `char`, as it is except with Visual C++ (`Awl/String.h:32-46`), and there is no Qt.
-/

namespace Verif.Log

open Verif Verif.Text

/-- The text of the arguments of `AWL_SEQUENTIAL_ENUM(LogLevel, ...)`, `Awl/LogLevel.h:12-18`: "Debug, Trace, Info, Warning, Error" (the preprocessor makes one blank of
the end of a line and the blanks behind it). -/
def levelArgs : Str :=
  [68, 101, 98, 117, 103, 44, 32, 84, 114, 97, 99, 101, 44, 32, 73, 110, 102, 111, 44, 32, 87, 97, 114, 110, 105, 110, 103, 44, 32, 69, 114, 114, 111, 114]

/-- `EnumTraits<LogLevel>`, `Awl/LogLevel.h:12-21`. -/
def levels : Enum :=
  match memberList levelArgs with
  | .ok names => ⟨5, names⟩
  | _ => ⟨0, []⟩

/-- What is given to the constructors of `LogString`, `Awl/LogString.h:50-56`: a `char` or `wchar_t` string (the C strings end at the zero, too). -/
inductive Message
  | narrow (s : Str)
  | wide (s : Str)
deriving Repr, DecidableEq

/-- The constructors of `LogString`, `Awl/LogString.h:50-56`. -/
def logString (K : Convert.Codec) : Message → Res Str
  | .narrow s => Convert.fromAString K false s
  | .wide s => Convert.fromWString K s

/-- A `std::ostream`, `Awl/ConsoleLogger.h:30`: what has been written, whether it is bad (it then ignores what is written; it does not throw, since `exceptions()` is not
set), and how many characters the device takes. -/
structure Out where
  text : Str
  bad : Bool
  room : Nat
deriving Repr, DecidableEq

/-- `out << s`, `Awl/ConsoleLogger.h:24-25`; what the device does not take makes the stream bad. -/
def Out.put (o : Out) (s : Str) : Out :=
  if o.bad then o
  else if s.length ≤ o.room then ⟨o.text ++ s, false, o.room - s.length⟩
  else ⟨o.text ++ s.take o.room, true, 0⟩

/-- The compilers whose output of a time differs, `Awl/Time.h:138-149`. -/
inductive Compiler
  | gcc
  | clang
deriving Repr, DecidableEq

/-- The texts of times: `std` is the one of the standard library, `ctime` the first 24 characters of `std::ctime`, which is null for times it cannot show
(parameters of `Awl/Time.h:146` and `Awl/ConsoleLogger.h:24`). -/
structure Clock where
  std : Nat → Str
  ctime : Nat → Option Str

/-- `out << std::chrono::system_clock::now()`, `Awl/ConsoleLogger.h:24`, `Awl/Time.h:141-147`; `std::ctime` ends with a line feed, and writing a null pointer makes the
stream bad. -/
def putTime (T : Clock) : Compiler → Nat → Out → Out
  | .gcc, t, o => o.put (T.std t)
  | .clang, t, o =>
    match T.ctime t with
    | some s => o.put (s ++ [10])
    | none => { o with bad := true }

/-- `ConsoleLogger::log`, `Awl/ConsoleLogger.h:22-26`, at the time `t`: the operands of `<<` are evaluated from left to right. -/
def consoleLog (T : Clock) (cc : Compiler) (t : Nat) (level : Nat) (message : Str) (o : Out) : Res Unit × Out :=
  let o := (putTime T cc t o).put [9]
  match Text.toString levels level with
  | .ok name =>
    -- the name has no zero, and `FromAString` shows it as it is
    (.ok (), (((o.put (Convert.cstr name)).put [9]).put message).put [10])
  | .throw e => (.throw e, o)
  | .ub => (.ub, o)

/-- A call of `log`: the message is converted first (`Awl/Logger.h:20`, an argument of the type `LogString`). -/
def log (K : Convert.Codec) (T : Clock) (cc : Compiler) (t : Nat) (level : Nat) (m : Message) (o : Out) : Res Unit × Out :=
  match logString K m with
  | .ok s => consoleLog T cc t level s o
  | .throw e => (.throw e, o)
  | .ub => (.ub, o)

/-- The functions of `Logger`, `Awl/Logger.h:22-45`. -/
inductive Method
  | debug
  | trace
  | info
  | warning
  | error
deriving Repr, DecidableEq

/-- The value of the enumerator that they pass to `log`, `Awl/Logger.h:24, 29, 34, 39, 44`. -/
def Method.level : Method → Nat
  | .debug => 0
  | .trace => 1
  | .info => 2
  | .warning => 3
  | .error => 4

/-- A call `logger.info(message)` at a time, `Awl/Logger.h:22-45`. -/
structure Call where
  time : Nat
  method : Method
  message : Message
deriving Repr, DecidableEq

/-- Calls one after the other, up to an exception (`Awl/Logger.h:22-45`). -/
def run (K : Convert.Codec) (T : Clock) (cc : Compiler) : List Call → Out → Res Unit × Out
  | [], o => (.ok (), o)
  | c :: cs, o =>
    match log K T cc c.time c.method.level c.message o with
    | (.ok (), o') => run K T cc cs o'
    | r => r

/-- What the operators `<<` of one call of `log` write, one after the other, with GCC (`Awl/ConsoleLogger.h:24-25`); there is no mutex in `ConsoleLogger`, so what
two threads write may come in between each other. -/
def pieces (T : Clock) (t : Nat) (name message : Str) : List Str := [T.std t, [9], name, [9], message, [10]]

/-- What two threads may write together: the operators of each in their order (`Awl/ConsoleLogger.h:22-26`). -/
inductive Mixed : List Str → List Str → List Str → Prop
  | nil : Mixed [] [] []
  | left (x : Str) (xs ys zs : List Str) : Mixed xs ys zs → Mixed (x :: xs) ys (x :: zs)
  | right (y : Str) (xs ys zs : List Str) : Mixed xs ys zs → Mixed xs (y :: ys) (y :: zs)

end Verif.Log
