import Verif.StopCount.HandleModel

/-! # What tokens, sources and callbacks mean: values that name a flag

There are no counts, locks and deletions here: a source or a token is empty or names one of the flags, a copy names the same flag. -/

namespace Verif.Stop.Handle

/-- The flags and the objects. -/
structure View where
  flag : List Bool
  hs : List (Option Hd)
deriving DecidableEq, Repr

namespace View

def at' (v : View) (i : Nat) : Option Hd := (v.hs[i]?).join

def add (v : View) (h : Hd) : View := { v with hs := v.hs ++ [some h] }

def put (v : View) (i : Nat) (h : Option Hd) : View := { v with hs := v.hs.set i h }

/-- A stop was requested. -/
def raised (v : View) (p : Nat) : Bool := v.flag[p]? == some true

/-- There is a source that names this flag. -/
def sourced (v : View) (p : Nat) : Bool := v.hs.any (· == some (.src (some p)))

/-- A registered callback is called once more. -/
def tell (p : Nat) (h : Option Hd) : Option Hd :=
  match h with
  | some (.cb q n) => if q = some p then some (.cb q (n + 1)) else h
  | _ => h

end View

/-- The same object without a flag. -/
def Hd.empty : Hd → Hd
  | .src _ => .src none
  | .tok _ => .tok none
  | .cb _ n => .cb none n

/-- Both are sources or both are tokens. -/
def alike : Hd → Hd → Bool
  | .src _, .src _ => true
  | .tok _, .tok _ => true
  | _, _ => false

/-- What a call does and answers; `none`: there is no such object or no such member function. -/
def spec (v : View) : Call → Option (View × Option Bool)
  | .source => some ({ flag := v.flag ++ [false], hs := v.hs ++ [some (.src (some v.flag.length))] }, none)
  | .noSource => some (v.add (.src none), none)
  | .noToken => some (v.add (.tok none), none)
  | .copy i => (v.at' i).bind fun h => if alike h h then some (v.add h, none) else none
  | .move i => (v.at' i).bind fun h => if alike h h then some ((v.put i (some h.empty)).add h, none) else none
  | .token i => (v.at' i).bind fun h => match h with
    | .src p => some (v.add (.tok p), none)
    | _ => none
  | .destroy i => (v.at' i).bind fun _ => some (v.put i none, none)
  | .assign i j => (v.at' i).bind fun x => (v.at' j).bind fun y => if alike x y then some (v.put i (some y), none) else none
  | .moveAssign i j => (v.at' i).bind fun x => (v.at' j).bind fun y =>
    if alike x y then some ((v.put j (some y.empty)).put i (some y), none) else none
  | .swap i j => (v.at' i).bind fun x => (v.at' j).bind fun y =>
    if alike x y then some ((v.put i (some y)).put j (some x), none) else none
  | .same i j => (v.at' i).bind fun x => (v.at' j).bind fun y => if alike x y then some (v, some (x.ptr == y.ptr)) else none
  | .requested i => (v.at' i).bind fun h =>
    if alike h h then some (v, some (match h.ptr with | none => false | some p => v.raised p)) else none
  | .possible i => (v.at' i).bind fun h => match h with
    | .src p => some (v, some p.isSome)
    | .tok none => some (v, some false)
    | .tok (some p) => some (v, some (v.raised p || v.sourced p))
    | .cb _ _ => none
  | .request i => (v.at' i).bind fun h => match h with
    | .src none => some (v, some false)
    | .src (some p) =>
      if v.raised p then some (v, some false)
      else some ({ flag := v.flag.set p true, hs := v.hs.map (View.tell p) }, some true)
    | _ => none
  | .callback i mv => (v.at' i).bind fun h => match h with
    | .tok none => some (v.add (.cb none 0), none)
    | .tok (some p) =>
      if v.raised p then some (v.add (.cb none 1), none)       -- called at once
      else if v.sourced p then
        some ((if mv then v.put i (some (.tok none)) else v).add (.cb (some p) 0), none)
      else some (v.add (.cb none 0), none)                       -- never called
    | _ => none

/-- A world without its counts. -/
def abs (w : World) : View := ⟨w.st.map (·.stop), w.hs⟩

/-- The number of the sources that name a flag. -/
def sources (l : List (Option Hd)) (p : Nat) : Nat := l.countP (· == some (.src (some p)))

/-- A token or a callback that names the flag. -/
def isRef (p : Nat) : Option Hd → Bool
  | some (.tok q) => q == some p
  | some (.cb q _) => q == some p
  | _ => false

/-- The number of the tokens and callbacks that name a flag. -/
def refs (l : List (Option Hd)) (p : Nat) : Nat := l.countP (isRef p)

/-- The object that gives up its flag in this call. -/
def gone (w : World) : Call → Option Hd
  | .destroy i => (abs w).at' i
  | .assign i j => if (((abs w).at' i).bind (·.ptr)) = (((abs w).at' j).bind (·.ptr)) then none else (abs w).at' i
  | .moveAssign i j => if i = j then none else (abs w).at' i
  | _ => none

/-- A token or a callback that was called is given up only while a source exists, or as the last one. -/
def carefulCall (w : World) (c : Call) : Bool :=
  match gone w c with
  | some (.tok (some p)) => sources w.hs p != 0 || refs w.hs p == 1
  | some (.cb (some p) n) => n == 0 || sources w.hs p != 0 || refs w.hs p == 1
  | _ => true

/-- Fewer than 2^31 - 1 objects exist. -/
def few (w : World) : Bool := decide (w.hs.countP (·.isSome) < 2 ^ 31 - 1)

/-- All the way. -/
def carefulRun : World → List Call → Bool
  | _, [] => true
  | w, c :: l => carefulCall w c && few w && match step w c with
    | .ok r => carefulRun r.1 l
    | _ => true

/-- The meaning of a program. -/
def specRun : View → List Call → Option View
  | v, [] => some v
  | v, c :: l => (spec v c).bind fun r => specRun r.1 l

end Verif.Stop.Handle
