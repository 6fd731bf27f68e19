import Verif.Coro.Model

/-!
# `is_ready` and `get`: `Awl/Coro/ProcessTask.h`
-/

namespace Verif.Coro

/-- What `is_ready` tells (Awl/Coro/ProcessTask.h:201-208): `rethrow` throws the exception of the body (lines 22-28). -/
inductive Answer where
  | no
  | yes
  | throws (e : Nat)
deriving DecidableEq, Repr

/-- `x.is_ready()` (Awl/Coro/ProcessTask.h:201-208, 219-226): `terminate` without a handle.  `moved` is an `optional` that has a
value, too.  It does not compile for `UpdateTask` and `ProcessTask<void>`, which have no `m_value`.  Simplification: the value is
stored when the locals of the body are gone, in the code just before that. -/
def isReady (s : State) (x : Nat) : Res Answer :=
  match lookup s x with
  | none => .throw .logic
  | some v =>
    match v.handle with
    | none => .throw .general
    | some t =>
      match s.frames t with
      | none => .ub
      | some fr =>
        if fr.kind = .update then .throw .logic
        else match fr.result with
          | none => .ok .no
          | some .unit => .throw .logic
          | some (.exc e) => .ok (.throws e)
          | some (.value _) => .ok .yes
          | some .moved => .ok .yes

/-- `x.get()` (Awl/Coro/ProcessTask.h:210-217, 219-226), called by `c`, which is a coroutine or other code: the exception is
thrown again or the value is moved out.  `ub`: `*m_value` of an empty `optional`. -/
def get (s : State) (c x : Nat) : Res State :=
  match lookup s x with
  | none => .throw .logic
  | some v =>
    match v.handle with
    | none => .throw .general
    | some t =>
      match s.frames t with
      | none => .ub
      | some fr =>
        if fr.kind = .update then .throw .logic
        else match fr.result with
          | none => .ub
          | some .unit => .throw .logic
          | some (.exc e) => .ok { s with log := .got c t (.exc e) :: s.log }
          | some (.value v) =>
            .ok { setFrame s t (some { fr with result := some .moved }) with log := .got c t (.value v) :: s.log }
          | some .moved => .ok { s with log := .got c t .moved :: s.log }

end Verif.Coro
