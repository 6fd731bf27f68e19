import Verif.Common.Res

/-!
# Coroutine tasks: `Awl/Coro/UpdateTask.h`, `Awl/Coro/ProcessTask.h`

A program is any sequence of the operations below, done by coroutines and by ordinary code; the bodies of the coroutines are
not modelled otherwise.  Which of the running coroutines acts next is left open.  Outcomes: `throw .logic`: no program does
this (a variable is used that does not exist); `throw .general`: `std::terminate`; `throw (.user _)`: undefined because of
what the program itself does with handles or running coroutines; `ub`: undefined because the library uses a frame that is
destroyed, or resumes a coroutine that is not suspended.
-/

namespace Verif.Coro

/-- `UpdateTask` or `ProcessTask<T>` (Awl/Coro/UpdateTask.h:11, Awl/Coro/ProcessTask.h:173-174). -/
inductive Kind where
  | update
  | process
deriving DecidableEq, Repr

/-- Where a coroutine is: it runs, is suspended by something outside the library, waits for a task, or is at its final
suspend point (`done()` is `final`, Awl/Coro/UpdateTask.h:53-56, 174-177; Awl/Coro/ProcessTask.h:273-277). -/
inductive Phase where
  | running
  | suspended
  | waiting (t : Nat)
  | final
deriving DecidableEq, Repr

/-- How a body ends, and what is left of it when it was read (`moved`) (Awl/Coro/UpdateTask.h:137, Awl/Coro/ProcessTask.h:51-62, 131-140). -/
inductive Result where
  | unit
  | value (v : Nat)
  | exc (e : Nat)
  | moved
deriving DecidableEq, Repr

/-- A frame with its promise (Awl/Coro/UpdateTask.h:61-67, Awl/Coro/ProcessTask.h:19-32). -/
structure Frame where
  kind : Kind
  phase : Phase
  awaiting : Option Nat
  owned : Bool
  result : Option Result
deriving DecidableEq, Repr

/-- A task variable: a local of a coroutine, or (`owner = none`) outside of coroutines; `handle` is `m_h` (Awl/Coro/UpdateTask.h:16-20, 58; Awl/Coro/ProcessTask.h:179-183, 238). -/
structure Var where
  name : Nat
  owner : Option Nat
  handle : Option Nat
deriving DecidableEq, Repr

/-- What is observed: the end of a body (Awl/Coro/UpdateTask.h:95-137, Awl/Coro/ProcessTask.h:51-92), what `await_resume` gives (Awl/Coro/UpdateTask.h:187-189, Awl/Coro/ProcessTask.h:287-295), and the destruction of a frame (Awl/Coro/UpdateTask.h:42, Awl/Coro/ProcessTask.h:232). -/
inductive Event where
  | finished (t : Nat) (r : Result)
  | got (c t : Nat) (r : Result)
  | destroyed (t : Nat)
deriving DecidableEq, Repr

/-- The frames with their promises (Awl/Coro/UpdateTask.h:61-67, Awl/Coro/ProcessTask.h:19-32), the task variables (Awl/Coro/UpdateTask.h:58, Awl/Coro/ProcessTask.h:238) and what was observed, last first. -/
structure State where
  next : Nat
  frames : Nat → Option Frame
  vars : List Var
  log : List Event

/-- No coroutine and no variable of Awl/Coro/UpdateTask.h and Awl/Coro/ProcessTask.h exists. -/
def init : State := ⟨0, fun _ => none, [], []⟩

/-- The frame `f` is changed or destroyed (the promise, Awl/Coro/UpdateTask.h:65-67, Awl/Coro/ProcessTask.h:19-32). -/
def setFrame (s : State) (f : Nat) (x : Option Frame) : State :=
  { s with frames := fun g => if g = f then x else s.frames g }

/-- The variable `x` (Awl/Coro/UpdateTask.h:58, Awl/Coro/ProcessTask.h:238). -/
def lookup (s : State) (x : Nat) : Option Var := s.vars.find? (fun v => v.name == x)

/-- `x.m_h = h` (Awl/Coro/UpdateTask.h:58, Awl/Coro/ProcessTask.h:238). -/
def setHandle (s : State) (x : Nat) (h : Option Nat) : State :=
  { s with vars := s.vars.map (fun v => if v.name = x then { v with handle := h } else v) }

/-- The frames held by the locals of a coroutine (the `m_h` of Awl/Coro/UpdateTask.h:58, Awl/Coro/ProcessTask.h:238). -/
def locals (s : State) (f : Nat) : List Nat := (s.vars.filter (fun v => v.owner == some f)).filterMap (·.handle)

/-- `coroutine_handle::destroy`: the frame and its locals, whose destructors destroy further frames (Awl/Coro/UpdateTask.h:31-46,
Awl/Coro/ProcessTask.h:194-236).  Simplification: the frames of the locals are destroyed after the frame itself is gone, not
while it is being destroyed.  The fuel is not used up, every step removes a frame. -/
def destroy : Nat → State → List Nat → Res State
  | _, s, [] => .ok s
  | 0, _, _ :: _ => .ub
  | n + 1, s, f :: fs =>
    match s.frames f with
    | none => .ub
    | some fr =>
      if fr.phase = .running then .throw (.user 1)
      else destroy n
        { setFrame s f none with vars := s.vars.filter (fun v => v.owner != some f), log := .destroyed f :: s.log }
        (locals s f ++ fs)

/-- `free()` (Awl/Coro/UpdateTask.h:38-46, Awl/Coro/ProcessTask.h:228-236). -/
def free (s : State) (x : Nat) : Res State :=
  match lookup s x with
  | none => .throw .logic
  | some v =>
    match v.handle with
    | none => .ok s
    | some f =>
      destroy (s.next + 1) s [f] >>= fun s =>
        match lookup s x with
        | none => .ub                       -- m_h = nullptr in a variable that is gone
        | some _ => .ok (setHandle s x none)

/-- What `await_resume` gives (Awl/Coro/UpdateTask.h:187-189, Awl/Coro/ProcessTask.h:287-295); `UpdateTask` does not touch the frame.
The value is moved out, an exception stays. -/
def deliver (s : State) (c t : Nat) (k : Kind) : Res State :=
  match k with
  | .update => .ok { s with log := .got c t .unit :: s.log }
  | .process =>
    match s.frames t with
    | none => .ub
    | some fr =>
      match fr.result with
      | none => .ub
      | some (.value v) =>
        .ok { setFrame s t (some { fr with result := some .moved }) with log := .got c t (.value v) :: s.log }
      | some r => .ok { s with log := .got c t r :: s.log }

/-- What a program does (Awl/Coro/UpdateTask.h:16-46, 80-137, 155-193; Awl/Coro/ProcessTask.h:179-197, 253-299); the lines are in `step`. -/
inductive Op where
  | declare (x : Nat) (owner : Option Nat)                 -- UpdateTask x;
  | start (k : Kind) (x : Nat) (owner : Option Nat)        -- UpdateTask x = f();
  | moveCtor (x : Nat) (owner : Option Nat) (y : Nat)      -- UpdateTask x(std::move(y));
  | moveAssign (x y : Nat)                                 -- x = std::move(y);
  | release (x : Nat)
  | free (x : Nat)
  | drop (x : Nat)                                         -- ~UpdateTask()
  | await (c x : Nat)                                      -- co_await x in the coroutine c
  | suspend (c : Nat)                                      -- co_await something else
  | resume (c : Nat)                                       -- handle.resume() by something else
  | finish (c : Nat) (r : Result)                          -- co_return, or an exception leaves the body
deriving DecidableEq, Repr

/-- May code declare a variable with this owner: outside, or a coroutine that runs (a rule about the programs that use Awl/Coro/UpdateTask.h, not a part of it). -/
def canOwn (s : State) : Option Nat → Bool
  | none => true
  | some c => match s.frames c with
    | some fr => decide (fr.phase = .running)
    | none => false

/-- `final_suspend` (Awl/Coro/UpdateTask.h:114-129, Awl/Coro/ProcessTask.h:79-86): `s` is the state at the final suspend point. -/
def finalSuspend (s : State) (c : Nat) (fr : Frame) : Res State :=
  (if fr.owned then .ok s else destroy (s.next + 1) s [c]) >>= fun s =>
    match fr.awaiting with
    | none => .ok s
    | some a =>
      match s.frames a with
      | none => .ub
      | some ar =>
        if ar.phase = .waiting c then deliver (setFrame s a (some { ar with phase := .running })) a c fr.kind
        else .ub

/-- Is this an end the promise accepts: `UpdateTask` has `return_void` and terminates on an exception
(Awl/Coro/UpdateTask.h:85-89, 137), `ProcessTask` has a value or an exception (Awl/Coro/ProcessTask.h:51-62, 131-140). -/
def accepts : Kind → Result → Res Unit
  | .update, .unit => .ok ()
  | .update, .exc _ => .throw .general
  | .process, .unit => .ok ()
  | .process, .value _ => .ok ()
  | .process, .exc _ => .ok ()
  | _, _ => .throw .logic

/-- One operation of Awl/Coro/UpdateTask.h and Awl/Coro/ProcessTask.h, the lines are at the cases; `ProcessTask` differs where the kind is looked at. -/
def step (s : State) : Op → Res State
  | .declare x o =>
    -- UpdateTask() (Awl/Coro/UpdateTask.h:16)
    if (lookup s x).isSome ∨ canOwn s o = false then .throw .logic
    else .ok { s with vars := ⟨x, o, none⟩ :: s.vars }
  | .start k x o =>
    -- get_return_object and initial_suspend (Awl/Coro/UpdateTask.h:80-83, 140-143): the body runs at once
    if (lookup s x).isSome ∨ canOwn s o = false then .throw .logic
    else .ok { setFrame s s.next (some ⟨k, .running, none, true, none⟩) with
      next := s.next + 1, vars := ⟨x, o, some s.next⟩ :: s.vars }
  | .moveCtor x o y =>
    -- (Awl/Coro/UpdateTask.h:20)
    if (lookup s x).isSome ∨ canOwn s o = false then .throw .logic
    else match lookup s y with
      | none => .throw .logic
      | some v =>
        let s := setHandle s y none
        .ok { s with vars := ⟨x, o, v.handle⟩ :: s.vars }
  | .moveAssign x y =>
    -- (Awl/Coro/UpdateTask.h:22-29)
    match lookup s y with
    | none => .throw .logic
    | some _ =>
      free s x >>= fun s =>
        match lookup s y with
        | none => .ub
        | some v => .ok (setHandle (setHandle s y none) x (if x = y then none else v.handle))
  | .release x =>
    -- (Awl/Coro/UpdateTask.h:145-153)
    match lookup s x with
    | none => .throw .logic
    | some v =>
      match v.handle with
      | none => .ok s
      | some f =>
        match s.frames f with
        | none => .ub
        | some fr =>
          if fr.kind = .update then .ok (setHandle (setFrame s f (some { fr with owned := false })) x none)
          else .throw .logic
  | .free x => free s x
  | .drop x =>
    -- ~UpdateTask() (Awl/Coro/UpdateTask.h:31-34)
    free s x >>= fun s => .ok { s with vars := s.vars.filter (fun v => v.name != x) }
  | .await c x =>
    -- operator co_await (Awl/Coro/UpdateTask.h:155-193, Awl/Coro/ProcessTask.h:253-299)
    match s.frames c with
    | none => .throw .logic
    | some cr =>
      if cr.phase ≠ .running then .throw .logic
      else match lookup s x with
        | none => .throw .logic
        | some v =>
          match v.handle with
          | none => .throw .general
          | some t =>
            match s.frames t with
            | none => .ub
            | some tr =>
              if tr.awaiting.isSome then .throw .general
              else if tr.phase = .final then deliver s c t tr.kind
              else
                let s := setFrame s t (some { tr with awaiting := some c })
                match s.frames c with
                | none => .ub
                | some cr => .ok (setFrame s c (some { cr with phase := .waiting t }))
  | .suspend c =>
    match s.frames c with
    | none => .throw .logic
    | some cr =>
      if cr.phase = .running then .ok (setFrame s c (some { cr with phase := .suspended })) else .throw .logic
  | .resume c =>
    match s.frames c with
    | none => .throw (.user 2)
    | some cr =>
      if cr.phase = .suspended then .ok (setFrame s c (some { cr with phase := .running })) else .throw (.user 2)
  | .finish c r =>
    -- the locals are gone by then
    match s.frames c with
    | none => .throw .logic
    | some cr =>
      if cr.phase ≠ .running ∨ (s.vars.any (fun v => v.owner == some c)) = true then .throw .logic
      else accepts cr.kind r >>= fun _ =>
        let fr := { cr with phase := .final, result := some r }
        finalSuspend { setFrame s c (some fr) with log := .finished c r :: s.log } c fr

/-- A history of operations of Awl/Coro/UpdateTask.h and Awl/Coro/ProcessTask.h. -/
def run (s : State) : List Op → Res State
  | [] => .ok s
  | o :: os => step s o >>= fun s => run s os

end Verif.Coro
