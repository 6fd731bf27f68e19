import Verif.Testing.Model
import Verif.SingleList.Model

/-!
# The output of tests, and the chain of tests: `Awl/Testing/TestMap.cpp`, `Awl/Testing/TestConsole.cpp`, `Awl/Testing/TestChain.h`

Only what the tests write is modelled, not the names and times that the runner writes beside it.
-/

namespace Verif.Testing

/-- The attribute `output` (Awl/Testing/TestMap.cpp:98-115). -/
inductive Mode where
  | all | failed | null | invalid
deriving DecidableEq, Repr

/-- A test: what the function writes in each repetition, and how it ends (Awl/Testing/TestChain.h:16, 32-35). -/
structure OTest where
  written : Nat → Str
  outcome : Nat → Outcome

/-- What is on `context.out` of the tests' output, and `lastOutput` (Awl/Testing/TestMap.h:62, Awl/Testing/TestMap.cpp:96-106). -/
structure Out where
  shown : Str := []
  last : Str := []
deriving DecidableEq, Repr

/-- The test writes to `p_out` (Awl/Testing/TestMap.cpp:98-111, 147-151). -/
def put (m : Mode) (o : Out) (s : Str) : Out :=
  match m with
  | .all => { o with shown := o.shown ++ s }
  | .failed => { o with last := o.last ++ s }
  | _ => o

/-- The repetitions (Awl/Testing/TestMap.cpp:117-159), `i` is the number of the next one. -/
def repeatOut (m : Mode) (t : OTest) : Nat → Nat → Out → Res Unit × Out
  | _, 0, o => (.ok (), o)
  | i, n + 1, o =>
    let o := put m o (t.written i)
    match t.outcome i with
    | .pass => repeatOut m t (i + 1) n (if m = .failed then { o with last := [] } else o)
    | .fail => (.throw .test, o)
    | .other => (.throw .general, o)

/-- `InternalRun` (Awl/Testing/TestMap.cpp:72-160). -/
def runOut (m : Mode) (loop : Nat) (t : OTest) (o : Out) : Res Unit × Out :=
  if m = .invalid then (.throw .test, o) else repeatOut m t 0 (if loop ≠ 0 then loop else 1) o

/-- `RunAll` (Awl/Testing/TestMap.cpp:46-57), for the tests that the filter accepts; also the loop over `run` (Awl/Testing/TestConsole.cpp:111-114). -/
def runAllOut (m : Mode) (loop : Nat) : List OTest → Out → Res Unit × Out
  | [], o => (.ok (), o)
  | t :: ts, o =>
    match runOut m loop t o with
    | (.ok _, o) => runAllOut m loop ts o
    | r => r

/-- The output of `RunTests` (Awl/Testing/TestConsole.cpp:93-126) with a new `TestMap`: how it ends and what is shown. -/
def runTestsOut (m : Mode) (loop : Nat) (ts : List OTest) : Res Bool × Str :=
  match runAllOut m loop ts {} with
  | (.ok _, o) => (.ok true, o.shown)
  | (.throw .test, o) => (.ok false, o.shown ++ o.last)
  | (.throw e, o) => (.throw e, o.shown)
  | (.ub, o) => (.ub, o.shown)

/-- `Shutdown` (Awl/Testing/TestChain.h:61-69); `none`: not ended after `fuel` steps. -/
def shutdown (h : SingleList.St) (chain : Nat) : Nat → Res (Option SingleList.St)
  | 0 => .ok none
  | fuel + 1 => do
    let e ← SingleList.empty h chain
    if !e then
      let r ← SingleList.popFront h chain
      shutdown r.2 chain fuel
    else return some h

/-- The constructors of the links (Awl/Testing/TestChain.h:54-58) after that of the chain (:47-52). -/
def linkTests (chain : Nat) (links : List Nat) : List SingleList.Op :=
  .newList chain :: links.flatMap fun a => [.newElem a, .push chain a]

end Verif.Testing
