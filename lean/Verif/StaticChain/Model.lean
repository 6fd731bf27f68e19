import Verif.SingleList.Model

/-!
# Static chains and factories: `Awl/StaticChain.h`, `Awl/StaticFactory.h`, `Awl/StaticSingleton.h`

A chain per type of the value: there is one chain for each type of factory function (`Sig`).  The `static` chain object has its place from the beginning (`Env.sent`, the
address of the sentinel) and is constructed by the first call of `static_singleton`.  A link is an address; names are C strings, texts are lists of characters.  Types of
parameters and arguments are those that matter for the deduction of `Args`.
-/

namespace Verif.StaticChain

open Verif
open Verif.QuickList (Ptr rd)

/-- How a parameter is passed: `T`, `T&`, `const T&`, `T&&` (of the functions of StaticFactory.h:19). -/
inductive Cat where
  | val | lref | clref | rref
deriving DecidableEq, Repr

/-- The type of a parameter (StaticFactory.h:19). -/
structure PTy where
  base : Nat
  cat : Cat
deriving DecidableEq, Repr

/-- The type of a factory function: the type of the result and those of the parameters (StaticFactory.h:18-19). -/
structure Sig where
  ret : Nat
  params : List PTy
deriving DecidableEq, Repr

/-- An argument of a call: its type, and whether it is `const`, and an lvalue (a variable) (`args` of StaticFactory.h:22). -/
structure Arg where
  base : Nat
  isConst : Bool
  lvalue : Bool
deriving DecidableEq, Repr

/-- The parameter `Args` deduced from an argument for `Args&&` ([temp.deduct.call]), as the type of a parameter of `T(Args...)` (where `const` of a value is dropped);
StaticFactory.h:19, 22-24. -/
def deduce (a : Arg) : PTy :=
  if a.lvalue then (if a.isConst then ⟨a.base, .clref⟩ else ⟨a.base, .lref⟩) else ⟨a.base, .val⟩

/-- A C string: the characters before the terminating zero (StaticChain.h:36, 56). -/
abbrev Str := List Nat

/-- Where the chains are (the objects of StaticSingleton.h:13). -/
structure Env where
  sent : Sig → Nat

/-- The links and lists, the chains that are constructed, the members `pName` and `m_val` (a function) of the links (StaticChain.h:36-39, 72). -/
structure St where
  heap : SingleList.St := {}
  inited : Sig → Bool := fun _ => false
  data : Nat → Option (Str × Nat) := fun _ => none

/-- `static_singleton<StaticChain<T>>()`, StaticSingleton.h:11-15. -/
def chain (E : Env) (s : St) (g : Sig) : Res St :=
  if s.inited g then .ok s
  else do
    let h ← SingleList.step s.heap (.newList (E.sent g))
    return { s with heap := h, inited := fun x => if x = g then true else s.inited x }

/-- The constructor of the link at `a`, StaticChain.h:81-89: the base class (no next link), the members, and then `push_front`. -/
def link (E : Env) (s : St) (g : Sig) (a : Nat) (name : Str) (f : Nat) : Res St := do
  let h ← SingleList.step s.heap (.newElem a)
  let s1 ← chain E { s with heap := h, data := QuickList.upd s.data a (some (name, f)) } g
  let h ← SingleList.step s1.heap (.push (E.sent g) a)
  return { s1 with heap := h }

/-- The end of a link: it has no destructor (StaticChain.h:16-40). -/
def unlink (s : St) (a : Nat) : Res St := do
  let h ← SingleList.step s.heap (.delElem a)
  return { s with heap := h }

/-- The loop of `find`, StaticChain.h:56-63; `none`: not ended after `fuel` steps. -/
def findLoop (s : St) (e : Nat) (name : Str) : Nat → Ptr → Res (Option Ptr)
  | 0, _ => .ok none
  | fuel + 1, i =>
    if i = some e then .ok (some i) else
      match i with
      | none => .ub
      | some x =>
        if s.heap.al x then
          match s.data x with
          | none => .ub
          | some (n, _) =>
            if n = name then .ok (some i)
            else do
              let n ← rd s.heap.al s.heap.next (some x)
              findLoop s e name fuel n
        else .ub

/-- `find(const char*)`, StaticChain.h:56-63. -/
def find (E : Env) (s : St) (g : Sig) (name : Str) (fuel : Nat) : Res (Option Ptr) := do
  let i ← rd s.heap.al s.heap.next (some (E.sent g))
  findLoop s (E.sent g) name fuel i

/-- `find(const std::string&)`, StaticChain.h:65: a text ends at a zero character. -/
def findString (E : Env) (s : St) (g : Sig) (name : Str) (fuel : Nat) : Res (Option Ptr) := find E s g (name.takeWhile (· != 0)) fuel

/-- `create<T>(name, args...)`, StaticFactory.h:21-38: the function that is called. -/
def create (E : Env) (s : St) (ret : Nat) (name : Str) (args : List Arg) (fuel : Nat) : Res (Option Nat) := do
  let g : Sig := ⟨ret, args.map deduce⟩
  let s ← chain E s g
  let i ← find E s g name fuel
  match i with
  | none => .ok none
  | some i =>
    if i = some (E.sent g) then .throw .general
    else
      match i with
      | none => .ub
      | some x =>
        match s.data x with
        | none => .ub
        | some (_, f) => .ok (some f)

/-- A link that was constructed (`AWL_REGISTER_FACTORY`, `AWL_FACTORY`, StaticFactory.h:52-60). -/
structure Reg where
  sig : Sig
  addr : Nat
  name : Str
  func : Nat
deriving DecidableEq, Repr

/-- The links are constructed one after the other (as static variables of StaticFactory.h:52-60 are). -/
def links (E : Env) (s : St) : List Reg → Res St
  | [] => .ok s
  | r :: rs => do
    let s ← link E s r.sig r.addr r.name r.func
    links E s rs

end Verif.StaticChain
