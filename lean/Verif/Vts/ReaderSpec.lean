import Verif.Vts.ReaderModel
import Verif.Vts.Spec
import Verif.Serialize.Spec

/-!
# A `Reader` that is used for several objects and streams: specification
-/

namespace Verif.Vts

open Verif.Serialize

/-- A stream as the program meets it: whether there are tables, the objects to be read, the bytes. -/
structure Job where
  start : Start
  objs : List (Ty × Val)
  bytes : List UInt8

/-- What the program gets from one stream: the objects and the bytes that are left, or an exception. -/
abbrev Outcome := Res (List Val × List UInt8)

/-- What a `Reader` made for the stream gives. -/
def freshOutcome (dbg : Bool) (g : Cfg) (fuel : Nat) (j : Job) : Outcome :=
  match Reader.new.session dbg g fuel j.start j.objs j.bytes with
  | .ok (vs, _, s) => .ok (vs, s)
  | .throw e => .throw e
  | .ub => .ub

/-- One `Reader` is used for the streams one after another, with `ClearPrototypes` after every stream, also if an
exception has been thrown.  Nothing is said about the state of the `Reader` an exception leaves. -/
inductive Uses (dbg : Bool) (g : Cfg) (fuel : Nat) : Reader → List Job → List Outcome → Prop
  | nil (r : Reader) : Uses dbg g fuel r [] []
  | ok {r r' : Reader} {j : Job} {js : List Job} {outs : List Outcome} {vs : List Val} {s : List UInt8} :
      r.session dbg g fuel j.start j.objs j.bytes = .ok (vs, r', s) → Uses dbg g fuel r'.clear js outs →
      Uses dbg g fuel r (j :: js) (.ok (vs, s) :: outs)
  | throw {r : Reader} (r' : Reader) {j : Job} {js : List Job} {outs : List Outcome} {e : Exn} :
      r.session dbg g fuel j.start j.objs j.bytes = .throw e → Uses dbg g fuel r'.clear js outs →
      Uses dbg g fuel r (j :: js) (.throw e :: outs)

/-- An object as it was written (`t`, `v`) and the object it is read into (`u`, `o`). -/
structure Pair where
  t : Ty
  v : Val
  u : Ty
  o : Val

/-- The object can be read by the other version. -/
structure Pair.Ok (nm₁ : Ty → Name) (g : Cfg) (φ : Nat → Nat) (S₁ : Schema) (x : Pair) : Prop where
  value : HasTy g.env x.t x.v
  written : Described S₁ x.t
  readAs : Described g.S x.u
  evolves : Evolves nm₁ g φ x.t x.u
  fresh : Fresh x.u x.o

end Verif.Vts
