import Verif.Common.Res

/-!
# The asynchronous generator: `Awl/Coro/AsyncGenerator.h`

Any number of producers (generator coroutines), consumers (coroutines that await `begin()` and `++`), generator objects and iterators; one
thread.  What a producer does when it is resumed is a function of where it is suspended (`body`): it yields, returns, throws, or awaits something
else, to be resumed later (`Act.external`).  Simplification: a producer always suspends again.  A generator may be destroyed while a consumer
awaits it; what its producer awaits is not told.  `throw .logic`: not a history of a program (the object does not exist, or the consumer is suspended).
-/

namespace Verif.AsyncGen

/-- What the body of a producer does next; `co_yield` is `yield_value` (AsyncGenerator.h:179-188), the end is `return_void` (56-58) or `unhandled_exception` (51-54). -/
inductive Next (σ α : Type) where
  | yield (a : α) (s : σ)
  | ret
  | throw (e : Exn)
  | await (s : σ)      -- co_await of something that is not ready

/-- What the consumer does when it is resumed: the `await_resume` of `begin` (AsyncGenerator.h:323-340), which gives the iterator `i`, or of `++`
(:289-300), which changes the iterator `i`. -/
inductive Kind where
  | begin (i : Nat)
  | inc (i : Nat)
deriving DecidableEq, Repr

/-- A producer with its promise (AsyncGenerator.h:28-93): suspended before the body or at a co_yield (`v`: `m_currentValue`; the pointer is uninitialised before the
first co_yield), suspended at another co_await (`c`: `m_consumerCoroutine`), at its final suspension (`e`: `m_exception`), destroyed, destroyed while it was suspended at
another co_await. -/
inductive Frame (σ α : Type) where
  | susp (v : Option α) (s : σ)
  | busy (s : σ) (c : Nat) (k : Kind)
  | done (e : Option Exn)
  | dead
  | gone (c : Nat) (k : Kind)

/-- What a consumer learns: there is a value, the end (`finished`, AsyncGenerator.h:64-67), or an exception (69-75). -/
inductive Ans (α : Type) where
  | got (a : α)
  | ended
  | thrown (e : Exn)
deriving DecidableEq, Repr

/-- `wait c`: the producer the consumer `c` awaits.  `asked`: the awaits, last first; `told`: their results (generators and iterators hold a handle or null, AsyncGenerator.h:285, 406; promises 86-92). -/
structure State (σ α : Type) where
  frames : Nat → Frame σ α
  start : Nat → Option σ
  count : Nat
  gens : Nat → Option (Option Nat)
  iters : Nat → Option (Option Nat)
  wait : Nat → Option (Nat × Kind)
  asked : List (Nat × Nat)
  told : List (Nat × Nat × Ans α)

/-- Nothing exists (the objects of AsyncGenerator.h:238-287, 344-408 are made by `create`, `empty` and `begin`). -/
def init {σ α : Type} : State σ α := ⟨fun _ => .dead, fun _ => none, 0, fun _ => none, fun _ => none, fun _ => none, [], []⟩

/-- A changed member (of the promise, AsyncGenerator.h:86-92, of an iterator, 285, or a generator, 406). -/
def upd {β : Type} (f : Nat → β) (i : Nat) (v : β) : Nat → β := fun j => if j = i then v else f j

/-- `await_resume` of the consumer `c`, resumed by the producer `h` (AsyncGenerator.h:289-300, 323-340): the iterator is `h` or null; an exception is rethrown. -/
def deliver {σ α : Type} (s : State σ α) (h c : Nat) (k : Kind) (r : Ans α) : State σ α :=
  let s := { s with wait := upd s.wait c none, told := (c, h, r) :: s.told }
  match k, r with
  | .begin i, .got _ => { s with iters := upd s.iters i (some (some h)) }
  | .begin i, .ended => { s with iters := upd s.iters i (some none) }
  | .begin _, .thrown _ => s
  | .inc _, .got _ => s
  | .inc i, _ => { s with iters := upd s.iters i (some none) }

/-- The producer `h` runs from `x` for the consumer `c`: yield_value (AsyncGenerator.h:179-188), final_suspend (122-126), then the symmetric transfer to the
consumer (108-112). -/
def produce {σ α : Type} (body : σ → Next σ α) (s : State σ α) (h : Nat) (x : σ) (c : Nat) (k : Kind) : State σ α :=
  match body x with
  | .yield a y => deliver { s with frames := upd s.frames h (.susp (some a) y) } h c k (.got a)
  | .ret => deliver { s with frames := upd s.frames h (.done none) } h c k .ended
  | .throw e => deliver { s with frames := upd s.frames h (.done none) } h c k (.thrown e)     -- the exception is moved out, :69-75
  | .await y => { s with frames := upd s.frames h (.busy y c k), wait := upd s.wait c (some (h, k)) }

/-- `await_suspend` of `begin` and `++` (AsyncGenerator.h:154-159): `m_consumerCoroutine = c`, the producer is resumed, which is undefined if it is finished, destroyed
or suspended elsewhere. -/
def advance {σ α : Type} (body : σ → Next σ α) (s : State σ α) (h c : Nat) (k : Kind) : Res (State σ α) :=
  match s.frames h with
  | .susp _ x => .ok (produce body { s with asked := (c, h) :: s.asked } h x c k)
  | _ => .ub

/-- What a program does with the functions of AsyncGenerator.h. -/
inductive Act (σ : Type) where
  | create (g : Nat) (x : σ)
  | empty (g : Nat)
  | move (g h : Nat)            -- :360-364
  | assign (g h : Nat)          -- :374-379
  | swap (g h : Nat)            -- :399-402
  | destroy (g : Nat)           -- :366-372
  | begin (c g i : Nat)         -- :384-392  i = co_await g.begin()
  | inc (c i : Nat)             -- :261-264  co_await ++i
  | deref (c i : Nat)           -- :266-269
  | external (h : Nat)          -- what the producer awaits is ready: it is resumed

/-- The destructor with the handle `h` (`~async_generator`, AsyncGenerator.h:366-372). -/
def release {σ α : Type} (s : State σ α) : Option Nat → Res (State σ α)
  | none => .ok s
  | some h =>
    match s.frames h with
    | .dead | .gone .. => .ub
    | .busy _ c k => .ok { s with frames := upd s.frames h (.gone c k) }
    | _ => .ok { s with frames := upd s.frames h .dead }

/-- One act: construction by `get_return_object` (AsyncGenerator.h:418-422) and the functions named at `Act`. -/
def step {σ α : Type} (body : σ → Next σ α) (s : State σ α) : Act σ → Res (State σ α)
  | .create g x =>
    match s.gens g with
    | none => .ok { s with frames := upd s.frames s.count (.susp none x), start := upd s.start s.count (some x), count := s.count + 1,
                           gens := upd s.gens g (some (some s.count)) }
    | some _ => .throw .logic
  | .empty g =>
    match s.gens g with
    | none => .ok { s with gens := upd s.gens g (some none) }
    | some _ => .throw .logic
  | .move g h =>
    match s.gens g, s.gens h with
    | none, some c => .ok { s with gens := upd (upd s.gens g (some c)) h (some none) }
    | _, _ => .throw .logic
  | .assign g h =>
    match s.gens g, s.gens h with
    | some _, some c =>
      -- temp takes h, is swapped with g and destroyed
      let s1 := { s with gens := upd s.gens h (some none) }
      match s1.gens g with
      | some old => release { s1 with gens := upd s1.gens g (some c) } old
      | none => .throw .logic
    | _, _ => .throw .logic
  | .swap g h =>
    match s.gens g, s.gens h with
    | some c, some d => .ok { s with gens := upd (upd s.gens g (some d)) h (some c) }
    | _, _ => .throw .logic
  | .destroy g =>
    match s.gens g with
    | some c => release { s with gens := upd s.gens g none } c
    | none => .throw .logic
  | .begin c g i =>
    if s.wait c = none then
      match s.gens g with
      | some none => .ok { s with iters := upd s.iters i (some none) }    -- await_ready, :318-321, 325-329
      | some (some h) => advance body s h c (.begin i)
      | none => .throw .logic
    else .throw .logic
  | .inc c i =>
    if s.wait c = none then
      match s.iters i with
      | some (some h) => advance body s h c (.inc i)
      | some none => .ub
      | none => .throw .logic
    else .throw .logic
  | .deref c i =>
    if s.wait c = none then
      match s.iters i with
      | some (some h) =>
        match s.frames h with
        | .susp (some _) _ => .ok s
        | _ => .ub
      | some none => .ub
      | none => .throw .logic
    else .throw .logic
  | .external h =>
    match s.frames h with
    | .busy x c k => .ok (produce body s h x c k)
    | .gone .. => .ub
    | _ => .throw .logic

/-- What `*i` gives (AsyncGenerator.h:266-269, 190-193). -/
def value {σ α : Type} (s : State σ α) (i : Nat) : Option α :=
  match s.iters i with
  | some (some h) =>
    match s.frames h with
    | .susp v _ => v
    | _ => none
  | _ => none

/-- A history of acts (AsyncGenerator.h:344-408). -/
def run {σ α : Type} (body : σ → Next σ α) : State σ α → List (Act σ) → Res (State σ α)
  | s, [] => .ok s
  | s, a :: l => step body s a >>= fun s => run body s l

end Verif.AsyncGen
