import Verif.Common.Res

/-!
# The test runner: `Awl/Testing/CommandLineProvider.cpp`, `LocalAttribute.h`, `TestMap.cpp`, `TestConsole.cpp`, `Main/main.cpp`

Texts are lists of character codes.  What the locale and the regular expressions do is a parameter.  The text written to the
console, the watch dog and the time are left out.
-/

namespace Verif.Testing

/-- Texts: the arguments and names, Awl/Testing/CommandLineProvider.cpp:29; a character is a number. -/
abbrev Str := List Nat

/-- The character `-`, Awl/Testing/CommandLineProvider.cpp:19. -/
def dash : Nat := 45
/-- The character `_`, Awl/Testing/CommandLineProvider.cpp:19. -/
def underscore : Nat := 95

/-- The classes `[:alpha:]` and `[:digit:]`, and white space (Awl/Testing/CommandLineProvider.cpp:19: what the regular expressions ask of the locale). -/
structure Locale where
  alpha : Nat → Bool
  digit : Nat → Bool
  space : Nat → Bool

/-! ## The command line -/

/-- `std::regex_match(val, match, "--([[:alpha:]][_[:alpha:][:digit:]]+)")` (Awl/Testing/CommandLineProvider.cpp:19, 31-33):
`match[1]`. -/
def optionName (L : Locale) : Str → Option Str
  | a :: b :: c :: d :: rest =>
    if a = dash ∧ b = dash ∧ L.alpha c = true ∧
        (d :: rest).all (fun x => x == underscore || L.alpha x || L.digit x) = true then some (c :: d :: rest)
    else none
  | _ => none

/-- `Option` (Awl/Testing/CommandLineProvider.h:29-49); `val = none` is the null pointer. -/
structure Opt where
  val : Option Str
  usage : Nat
deriving DecidableEq, Repr

/-- `OptionsMap` (Awl/Testing/CommandLineProvider.h:51). -/
abbrev Options := List (Str × Opt)

/-- `allOptions.find(name)`, Awl/Testing/CommandLineProvider.cpp:35, 73. -/
def find (o : Options) (name : Str) : Option Opt := (o.find? (fun p => p.1 == name)).map (·.2)

/-- Assignment to the option found, Awl/Testing/CommandLineProvider.cpp:48, 77. -/
def update (o : Options) (name : Str) (x : Opt) : Options := o.map (fun p => if p.1 == name then (name, x) else p)

/-- The loop of the constructor (Awl/Testing/CommandLineProvider.cpp:17-58); `current` is the key of `current_option`,
`none` when it is `end()`. -/
def parseLoop (L : Locale) : Options → Option Str → List Str → Res Options
  | o, _, [] => .ok o
  | o, current, val :: args =>
    match optionName L val with
    | some name =>
      match find o name with
      | some _ => .throw .test
      | none => parseLoop L (o ++ [(name, ⟨none, 0⟩)]) (some name) args
    | none =>
      match current with
      | some name => parseLoop L (update o name ⟨some val, 0⟩) none args
      | none => .throw .test

/-- `CommandLineProvider(argc, argv)`; `args` are `argv[1] … argv[argc - 1]` (Awl/Testing/CommandLineProvider.cpp:17-58). -/
def parse (L : Locale) (args : List Str) : Res Options := parseLoop L [] none args

/-- `TryFind` (Awl/Testing/CommandLineProvider.cpp:71-94): the value, and the counter. -/
def tryFind (o : Options) (name : Str) : Option Str × Options :=
  match find o name with
  | some x => (some (x.val.getD []), update o name { x with usage := x.usage + 1 })
  | none => (none, o)

/-- The names written by the destructor (Awl/Testing/CommandLineProvider.cpp:60-69). -/
def unused (o : Options) : List Str := (o.filter (fun p => p.2.usage == 0)).map (·.1)

/-! ## Tests -/

/-- What the function of a test does: it returns, throws a `TestException`, or throws something else (Awl/Testing/TestChain.h:34, Awl/Testing/TestMap.cpp:151). -/
inductive Outcome where
  | pass
  | fail
  | other
deriving DecidableEq, Repr

/-- A `TestLink`: the name, and the outcome of each repetition (Awl/Testing/TestChain.h:21-42). -/
structure Test where
  name : Str
  outcome : Nat → Outcome

/-- `CStringLess` (Awl/String.h:102-111, used at Awl/Testing/TestMap.h:64). -/
def strLess : Str → Str → Bool
  | [], [] => false
  | [], _ :: _ => true
  | _ :: _, [] => false
  | a :: as, b :: bs => if a < b then true else if b < a then false else strLess as bs

/-- `testMap.emplace` (Awl/Testing/TestMap.cpp:27); `none` if the name is there. -/
def emplace (t : Test) : List Test → Option (List Test)
  | [] => some [t]
  | u :: m =>
    if strLess t.name u.name then some (t :: u :: m)
    else if strLess u.name t.name then (emplace t m).map (u :: ·)
    else none

/-- `TestMap()` (Awl/Testing/TestMap.cpp:23-32). -/
def testMap : List Test → List Test → Res (List Test)
  | m, [] => .ok m
  | m, t :: chain =>
    match emplace t m with
    | some m => testMap m chain
    | none => .throw .test

/-- The repetitions of a test (Awl/Testing/TestMap.cpp:117-159). -/
def repeatTest (t : Test) : Nat → Nat → Res Unit
  | _, 0 => .ok ()
  | i, n + 1 =>
    match t.outcome i with
    | .pass => repeatTest t (i + 1) n
    | .fail => .throw .test
    | .other => .throw .general

/-- The options the runner looks at.  `loop`: the number given, 0 if there is none or it is not a number.  `validOutput`:
`output` is absent, `all`, `failed` or `null` (Awl/Testing/TestMap.cpp:74-76, Awl/Testing/TestConsole.cpp:72, 78, 91, 99). -/
structure Config where
  list : Bool
  filter : Option Str
  run : List Str
  loop : Nat
  validOutput : Bool

/-- `InternalRun` (Awl/Testing/TestMap.cpp:72-160). -/
def internalRun (c : Config) (t : Test) : Res Unit :=
  if c.validOutput then repeatTest t 0 (if c.loop ≠ 0 then c.loop else 1) else .throw .test

/-- A filter function (Awl/Testing/TestConsole.cpp:44-66); `rx f s = none`: `f` is no valid regular expression. -/
def matches' (rx : Str → Str → Option Bool) (f s : Str) : Res Bool :=
  if f.isEmpty then .ok true
  else match rx f s with
    | some b => .ok b
    | none => .throw .test

/-- `GetCount` (Awl/Testing/TestMap.h:44-47) and `PrintNames` (Awl/Testing/TestMap.cpp:59-70): the filter is applied to all
names. -/
def countNames (rx : Str → Str → Option Bool) (f : Str) : List Test → Res Nat
  | [] => .ok 0
  | t :: m => matches' rx f t.name >>= fun b => countNames rx f m >>= fun n => .ok (if b then n + 1 else n)

/-- `RunAll` (Awl/Testing/TestMap.cpp:46-57). -/
def runAll (rx : Str → Str → Option Bool) (c : Config) (f : Str) : List Test → Res Unit
  | [] => .ok ()
  | t :: m =>
    matches' rx f t.name >>= fun b =>
      if b then internalRun c t >>= fun _ => runAll rx c f m else runAll rx c f m

/-- The loop over `run` with `TestMap::Run` (Awl/Testing/TestConsole.cpp:111-114, Awl/Testing/TestMap.cpp:34-44). -/
def runNames (c : Config) (m : List Test) : List Str → Res Unit
  | [] => .ok ()
  | n :: ns =>
    match m.find? (fun t => t.name == n) with
    | none => .throw .test
    | some t => internalRun c t >>= fun _ => runNames c m ns

/-- The default filter `.*_Test` (Awl/Testing/TestConsole.cpp:99). -/
def defaultFilter : Str := [46, 42, 95, 84, 101, 115, 116]

/-- The part of `RunTests` inside `try` (Awl/Testing/TestConsole.cpp:97-119). -/
def runSelected (rx : Str → Str → Option Bool) (c : Config) (m : List Test) : Res Unit :=
  if c.run.isEmpty then
    countNames rx (c.filter.getD defaultFilter) m >>= fun _ => runAll rx c (c.filter.getD defaultFilter) m
  else runNames c m c.run

/-- `RunTests` (Awl/Testing/TestConsole.cpp:68-131). -/
def runTests (rx : Str → Str → Option Bool) (c : Config) (chain : List Test) : Res Bool :=
  if c.list then
    testMap [] chain >>= fun m =>
      countNames rx (c.filter.getD []) m >>= fun _ => .ok false      -- return 0
  else
    testMap [] chain >>= fun m =>
      match runSelected rx c m with
      | .ok () => .ok true
      | .throw .test => .ok false
      | .throw e => .throw e
      | .ub => .ub

/-- How the process ends (Awl/Testing/TestConsole.cpp:133-145, Main/main.cpp:15-25). -/
inductive Exit where
  | code (n : Nat)
  | terminate        -- an exception nobody catches
  | ub
deriving DecidableEq, Repr

/-- `TestConsole::Run` (Awl/Testing/TestConsole.cpp:133-145): `return RunTests()` converts `bool` to `int`; other exceptions
leave `main`. -/
def consoleRun (rx : Str → Str → Option Bool) (c : Config) (chain : List Test) : Exit :=
  match runTests rx c chain with
  | .ok passed => .code passed.toNat
  | .throw .test => .code 2
  | .throw _ => .terminate
  | .ub => .ub

/-- `main` (Main/main.cpp:15-25) and `Run(argc, argv)` (Awl/Testing/TestConsole.cpp:29-36); `config` reads the options.  At
the end of `main` the value is 0. -/
def main (L : Locale) (rx : Str → Str → Option Bool) (config : Options → Config) (args : List Str) (chain : List Test) : Exit :=
  match parse L args with
  | .ok o => consoleRun rx (config o) chain
  | .throw .test => .code 0
  | .throw _ => .terminate
  | .ub => .ub

end Verif.Testing
