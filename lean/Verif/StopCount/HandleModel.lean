import Verif.StopCount.Model

/-!
# Handles of stop states: `stop_token`, `stop_source` and `stop_callback` as objects

`Model` has the accesses to the word of one stop state.  Here a program has any number of stop states and of objects that refer to them by pointers: construction, copy, move, assignment, swap,
comparison and destruction of tokens and sources, callbacks, requests (Extras/JThread/JThreadExtras/stop_token.hpp:326-561).  Every call is written as its accesses to the words.

Simplified: calls do not overlap (C56 and C94 have threads; a call of `request_stop` here runs the callbacks between its two accesses, without releasing the lock in between); callbacks
do not touch the handles.  `throw .logic`: there is no such member function, or the limit of C94 is exceeded.  The use of a destroyed object and of a deleted state is undefined behaviour.
-/

namespace Verif.Stop.Handle

open Count (State Op)

/-- An object with its `__state_`; a callback also has the number of its calls (stop_token.hpp:326-401, 408-480, 487-561). -/
inductive Hd where
  | src (p : Option Nat)
  | tok (p : Option Nat)
  | cb (p : Option Nat) (calls : Nat)
deriving DecidableEq, Repr

/-- The stop states that were ever made and the objects; those that are destroyed are none (stop_token.hpp:301, 400, 479, 556). -/
structure World where
  st : List State
  hs : List (Option Hd)
deriving DecidableEq, Repr

/-- Nothing yet (before stop_token.hpp:410). -/
def init : World := ⟨[], []⟩

/-- An access to the word of a state (stop_token.hpp:301). -/
def acc (w : World) (p : Nat) (o : Op) : Res World :=
  match w.st[p]? with
  | some s => Count.step s o >>= fun s => .ok { w with st := w.st.set p s }
  | none => .ub

/-- The word of a state is read (stop_token.hpp:133-139). -/
def word (w : World) (p : Nat) : Res Nat :=
  acc w p .ask >>= fun w => match w.st[p]? with
    | some s => .ok s.word
    | none => .ub

/-- The reference that a copy takes (stop_token.hpp:336-338, 422-424). -/
def addRef (w : World) : Hd → Res World
  | .src (some p) => acc w p .newSource
  | .tok (some p) => acc w p .newToken
  | .cb _ _ => .throw .logic
  | _ => .ok w

/-- What the destructors do (stop_token.hpp:345-349, 414-418, 527-536; `__remove_callback` 182-221). -/
def dropRef (w : World) : Hd → Res World
  | .src (some p) => acc w p .dropSource
  | .tok (some p) => acc w p .dropToken
  | .cb (some p) calls =>
    if calls = 0 then acc w p .lock >>= fun w => acc w p .unlink
    else acc w p .lock >>= fun w => acc w p .unlock >>= fun w => acc w p .dropCallback
  | _ => .ok w

/-- A new object (stop_token.hpp:326-561). -/
def push (w : World) (h : Hd) : World := { w with hs := w.hs ++ [some h] }

/-- A changed object (stop_token.hpp:326-561). -/
def put (w : World) (i : Nat) (h : Option Hd) : World := { w with hs := w.hs.set i h }

/-- An object that exists (stop_token.hpp:326-561). -/
def get (w : World) (i : Nat) : Res Hd :=
  match w.hs[i]? with
  | some (some h) => .ok h
  | _ => .ub

/-- The calls (stop_token.hpp:326-561); objects are numbered in the order in which they are made. -/
inductive Call where
  | source                         -- stop_source(), stop_token.hpp:410
  | noSource                       -- stop_source(nostopstate), :412
  | noToken                        -- stop_token(), :329-331
  | copy (i : Nat)                 -- :334-339, 420-425
  | move (i : Nat)                 -- :341-343, 427-428
  | token (i : Nat)                -- get_token, :459-461
  | destroy (i : Nat)              -- :345-349, 414-418, 527-536
  | assign (i j : Nat)             -- i = j, :351-357, 436-442
  | moveAssign (i j : Nat)         -- i = std::move(j), :359-363, 430-434
  | swap (i j : Nat)               -- :365-367, 463-465
  | same (i j : Nat)               -- i == j, :378-387, 467-476
  | requested (i : Nat)            -- stop_requested, :370-372, 444-446
  | possible (i : Nat)             -- stop_possible, :374-376, 448-450
  | request (i : Nat)              -- request_stop, :452-457
  | callback (i : Nat) (move : Bool)  -- stop_callback(token, …), :493-508; stop_callback(std::move(token), …), :510-525
deriving DecidableEq, Repr

/-- The bit is set (`__is_stop_requested`, stop_token.hpp:228-230). -/
def isStop (w : Nat) : Bool := w % 2 == 1

/-- `__is_stop_requestable` (stop_token.hpp:232-236). -/
def isPossible (w : Nat) : Bool := isStop w || !Count.less w Count.sourceInc

/-- The callbacks that are registered with a state are called (stop_token.hpp:84-126). -/
def callAll (p : Nat) : Option Hd → Option Hd
  | some (.cb (some q) n) => if q = p then some (.cb (some q) (n + 1)) else some (.cb (some q) n)
  | h => h

/-- The pointer of an object (stop_token.hpp:400, 479, 556). -/
def Hd.ptr : Hd → Option Nat
  | .src p => p
  | .tok p => p
  | .cb p _ => p

/-- One call and its answer (stop_token.hpp:326-561, line by line as cited at `Call`). -/
def step (w : World) : Call → Res (World × Option Bool)
  | .source => .ok ({ st := w.st ++ [Count.init], hs := w.hs ++ [some (.src (some w.st.length))] }, none)
  | .noSource => .ok (push w (.src none), none)
  | .noToken => .ok (push w (.tok none), none)
  | .copy i => get w i >>= fun h => addRef w h >>= fun w => .ok (push w h, none)
  | .move i => get w i >>= fun h =>
    match h with
    | .src p => .ok (push (put w i (some (.src none))) (.src p), none)
    | .tok p => .ok (push (put w i (some (.tok none))) (.tok p), none)
    | .cb _ _ => .throw .logic
  | .token i => get w i >>= fun h =>
    match h with
    | .src p => addRef w (.tok p) >>= fun w => .ok (push w (.tok p), none)
    | _ => .throw .logic
  | .destroy i => get w i >>= fun h => dropRef w h >>= fun w => .ok (put w i none, none)
  | .assign i j => get w i >>= fun x => get w j >>= fun y =>
    match x, y with
    | .src p, .src q =>
      -- the temporary is a copy of j; swap; the temporary is destroyed
      if p = q then .ok (w, none)
      else addRef w (.src q) >>= fun w => dropRef (put w i (some (.src q))) (.src p) >>= fun w => .ok (w, none)
    | .tok p, .tok q =>
      if p = q then .ok (w, none)
      else addRef w (.tok q) >>= fun w => dropRef (put w i (some (.tok q))) (.tok p) >>= fun w => .ok (w, none)
    | _, _ => .throw .logic
  | .moveAssign i j => get w i >>= fun _ => get w j >>= fun y =>
    match y with
    | .src q =>
      -- the temporary is moved from j; then i is read, which may be j
      let w := put w j (some (.src none))
      get w i >>= fun x =>
        match x with
        | .src p => dropRef (put w i (some (.src q))) (.src p) >>= fun w => .ok (w, none)
        | _ => .throw .logic
    | .tok q =>
      let w := put w j (some (.tok none))
      get w i >>= fun x =>
        match x with
        | .tok p => dropRef (put w i (some (.tok q))) (.tok p) >>= fun w => .ok (w, none)
        | _ => .throw .logic
    | .cb _ _ => .throw .logic
  | .swap i j => get w i >>= fun x => get w j >>= fun y =>
    match x, y with
    | .src p, .src q => .ok (put (put w i (some (.src q))) j (some (.src p)), none)
    | .tok p, .tok q => .ok (put (put w i (some (.tok q))) j (some (.tok p)), none)
    | _, _ => .throw .logic
  | .same i j => get w i >>= fun x => get w j >>= fun y =>
    match x, y with
    | .src p, .src q => .ok (w, some (p == q))
    | .tok p, .tok q => .ok (w, some (p == q))
    | _, _ => .throw .logic
  | .requested i => get w i >>= fun h =>
    match h with
    | .cb _ _ => .throw .logic
    | .src none | .tok none => .ok (w, some false)
    | .src (some p) | .tok (some p) => word w p >>= fun x => .ok (w, some (isStop x))
  | .possible i => get w i >>= fun h =>
    match h with
    | .cb _ _ => .throw .logic
    | .src p => .ok (w, some p.isSome)
    | .tok none => .ok (w, some false)
    | .tok (some p) => word w p >>= fun x => .ok (w, some (isPossible x))
  | .request i => get w i >>= fun h =>
    match h with
    | .src none => .ok (w, some false)
    | .src (some p) => word w p >>= fun x =>
      if isStop x then .ok (w, some false)
      else acc w p .signal >>= fun w => acc { w with hs := w.hs.map (callAll p) } p .unlock >>= fun w => .ok (w, some true)
    | _ => .throw .logic
  | .callback i mv => get w i >>= fun h =>
    match h with
    | .tok none => .ok (push w (.cb none 0), none)
    | .tok (some p) => word w p >>= fun x =>
      if isStop x then .ok (push w (.cb none 1), none)
      else if isPossible x then
        acc w p .lock >>= fun w =>
          if mv then acc w p .unlock >>= fun w => .ok (push (put w i (some (.tok none))) (.cb (some p) 0), none)
          else acc w p .register >>= fun w => .ok (push w (.cb (some p) 0), none)
      else .ok (push w (.cb none 0), none)
    | _ => .throw .logic

/-- A program (stop_token.hpp:326-561). -/
def run : World → List Call → Res World
  | w, [] => .ok w
  | w, c :: l => step w c >>= fun r => run r.1 l

end Verif.Stop.Handle
