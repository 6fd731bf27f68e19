import Verif.Common.Res

/-!
# The synchronous generator: `Awl/Coro/Generator.h`

Any number of generator objects, iterators and coroutine frames; one thread.  What the body of a coroutine does between two
suspensions is a function of where it is suspended (`body`): it yields a value, returns, throws, or its behaviour is undefined.
Simplification: a body always reaches its next suspension, and it does not touch the generators of the model (`fmap`, which does, is
modelled apart).  Objects (`generator`, its iterator) are named by numbers; using an object that does not exist is `throw .logic`, i.e. not a
history of a program.
-/

namespace Verif.Generator

/-- What a coroutine does when it is resumed (`yield_value`, Generator.h:39-52; `return_void`, 59-61; `unhandled_exception`, 54-57). -/
inductive Next (σ α : Type) where
  | yield (a : α) (s : σ)   -- co_yield a
  | ret                     -- co_return, or the end of the body
  | throw (e : Exn)
  | ub

/-- A coroutine frame with its promise (Generator.h:23-85): suspended (`v`: what `m_value` points to, nothing before the first
co_yield), at its final suspension (`m_exception`), or destroyed. -/
inductive Frame (σ α : Type) where
  | susp (v : Option α) (s : σ)
  | done (e : Option Exn)
  | dead

/-- What an operation gives: `got`/`ended`/`thrown` of `begin` and `++`: suspended at a co_yield, finished, rethrown (Generator.h:132-141, 199-211). -/
inductive Ans (α : Type) where
  | unit
  | got (a : α)
  | ended
  | thrown (e : Exn)
  | value (a : α)
  | bool (b : Bool)
deriving DecidableEq, Repr

/-- `gens g`, `iters i`: none if the object does not exist, else its `m_coroutine`.  `log`: the frames resumed, last first, and what it gave (`m_coroutine`, Generator.h:161, 231). -/
structure State (σ α : Type) where
  frames : Nat → Frame σ α
  start : Nat → Option σ
  count : Nat
  gens : Nat → Option (Option Nat)
  iters : Nat → Option (Option Nat)
  log : List (Nat × Ans α)

/-- No object of Generator.h exists. -/
def init {σ α : Type} : State σ α := ⟨fun _ => .dead, fun _ => none, 0, fun _ => none, fun _ => none, []⟩

/-- A changed `m_coroutine` or promise (Generator.h:82-83, 161, 231). -/
def upd {β : Type} (f : Nat → β) (i : Nat) (v : β) : Nat → β := fun j => if j = i then v else f j

/-- `m_coroutine.resume()`: undefined if the coroutine is finished or destroyed (Generator.h:134, 203). -/
def resume {σ α : Type} (body : σ → Next σ α) : Frame σ α → Res (Frame σ α)
  | .susp _ s =>
    match body s with
    | .yield a s' => .ok (.susp (some a) s')
    | .ret => .ok (.done none)
    | .throw e => .ok (.done (some e))
    | .ub => .ub
  | .done _ => .ub
  | .dead => .ub

/-- Generator.h:132-141 (`operator++`) and :199-211 (`begin`): resume, and if done rethrow the exception. -/
def answer {σ α : Type} : Frame σ α → Ans α
  | .susp (some a) _ => .got a
  | .susp none _ => .unit
  | .done none => .ended
  | .done (some e) => .thrown e
  | .dead => .unit

/-- What a program does with Generator.h; `create`: `get_return_object`, :243-248, and the suspension at the begin, :36. -/
inductive Act (σ : Type) where
  | create (g : Nat) (s : σ)    -- a call of a generator function
  | empty (g : Nat)             -- :173-175
  | move (g h : Nat)            -- :177-181  g constructed from h
  | assign (g h : Nat)          -- :193-197  g = std::move(h)
  | swap (g h : Nat)            -- :218-221
  | destroy (g : Nat)           -- :185-191
  | begin (g i : Nat)           -- :199-211  i = g.begin()
  | inc (i : Nat)               -- :132-141
  | deref (i : Nat)             -- :149-152
  | atEnd (i : Nat)             -- :112-115  i == g.end()

/-- `~generator` with the handle `h`, Generator.h:185-191. -/
def release {σ α : Type} (s : State σ α) : Option Nat → Res (State σ α)
  | none => .ok s
  | some h =>
    match s.frames h with
    | .dead => .ub
    | _ => .ok { s with frames := upd s.frames h .dead }

/-- Resume the coroutine `h` (Generator.h:134, 203). -/
def advance {σ α : Type} (body : σ → Next σ α) (s : State σ α) (h : Nat) : Res (State σ α × Ans α) :=
  resume body (s.frames h) >>= fun f => .ok ({ s with frames := upd s.frames h f, log := (h, answer f) :: s.log }, answer f)

/-- One act, the lines of Generator.h are at `Act`. -/
def step {σ α : Type} (body : σ → Next σ α) (s : State σ α) : Act σ → Res (State σ α × Ans α)
  | .create g x =>
    match s.gens g with
    | none => .ok ({ s with frames := upd s.frames s.count (.susp none x), start := upd s.start s.count (some x), count := s.count + 1,
                            gens := upd s.gens g (some (some s.count)) }, .unit)
    | some _ => .throw .logic
  | .empty g =>
    match s.gens g with
    | none => .ok ({ s with gens := upd s.gens g (some none) }, .unit)
    | some _ => .throw .logic
  | .move g h =>
    match s.gens g, s.gens h with
    | none, some c => .ok ({ s with gens := upd (upd s.gens g (some c)) h (some none) }, .unit)
    | _, _ => .throw .logic
  | .assign g h =>
    match s.gens g, s.gens h with
    | some _, some c =>
      -- the parameter `other` is constructed from h (which becomes empty), swapped with g, destroyed
      let s1 := { s with gens := upd s.gens h (some none) }
      match s1.gens g with
      | some old => release { s1 with gens := upd s1.gens g (some c) } old >>= fun s2 => .ok (s2, .unit)
      | none => .throw .logic
    | _, _ => .throw .logic
  | .swap g h =>
    match s.gens g, s.gens h with
    | some c, some d => .ok ({ s with gens := upd (upd s.gens g (some d)) h (some c) }, .unit)
    | _, _ => .throw .logic
  | .destroy g =>
    match s.gens g with
    | some c => release { s with gens := upd s.gens g none } c >>= fun s1 => .ok (s1, .unit)
    | none => .throw .logic
  | .begin g i =>
    match s.gens g with
    | some none => .ok ({ s with iters := upd s.iters i (some none) }, .unit)
    | some (some h) =>
      advance body s h >>= fun r =>
        match r.2 with
        | .thrown _ => .ok r          -- there is no iterator
        | _ => .ok ({ r.1 with iters := upd r.1.iters i (some (some h)) }, r.2)
    | none => .throw .logic
  | .inc i =>
    match s.iters i with
    | some (some h) => advance body s h
    | some none => .ub
    | none => .throw .logic
  | .deref i =>
    match s.iters i with
    | some (some h) =>
      match s.frames h with
      | .susp (some a) _ => .ok (s, .value a)
      | _ => .ub
    | some none => .ub
    | none => .throw .logic
  | .atEnd i =>
    match s.iters i with
    | some (some h) =>
      match s.frames h with
      | .susp .. => .ok (s, .bool false)
      | .done _ => .ok (s, .bool true)
      | .dead => .ub
    | some none => .ok (s, .bool true)
    | none => .throw .logic

/-- A history of acts (Generator.h:18-233). -/
def run {σ α : Type} (body : σ → Next σ α) : State σ α → List (Act σ) → Res (State σ α)
  | s, [] => .ok s
  | s, a :: l => step body s a >>= fun r => run body r.1 l

/-- `for (auto&& v : g) …`, Generator.h:254-257: the loop of at most `n` rounds over the coroutine after `begin` or `++`; the values seen and the exception
that left the loop. -/
def loop {σ α : Type} (body : σ → Next σ α) : Nat → Frame σ α → Res (List α × Option Exn)
  | 0, _ => .throw .logic
  | n + 1, f =>
    resume body f >>= fun f =>
      match f with
      | .done e => .ok ([], e)
      | .susp (some a) s => loop body n (.susp (some a) s) >>= fun r => .ok (a :: r.1, r.2)
      | _ => .ub

/-- The coroutine `fmap(func, source)`, Generator.h:251-258: its state is the frame of `source`; the first resumption calls `begin`, the next
ones `++`; both resume `source`.  An exception of `source` or of `func` leaves the loop and the body. -/
def fmapBody {σ α β : Type} (body : σ → Next σ α) (f : α → Except Exn β) (src : Frame σ α) : Next (Frame σ α) β :=
  match resume body src with
  | .ok (.susp (some a) s) =>
    match f a with
    | .ok b => .yield b (.susp (some a) s)
    | .error e => .throw e
  | .ok (.done none) => .ret
  | .ok (.done (some e)) => .throw e
  | _ => .ub

end Verif.Generator
