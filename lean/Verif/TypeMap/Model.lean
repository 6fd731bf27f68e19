import Verif.Vts.Model
import Verif.Mp.Model

/-!
# Types that have got other names: the argument `type_map` of `Reader::ReadOldPrototypes`, `Awl/Io/Reader.h`

The names of the types are a part of the data.  A program in which a type has another name than in the version that wrote the data passes the old and the new name to
`ReadOldPrototypes`, which replaces the names in the tables before they are compared with those of the program.
-/

namespace Verif.TypeMap

open Verif.Serialize Verif.Vts

/-- `std::unordered_map<std::string, std::string>` (Reader.h:154): the pairs of a key and a value. -/
abbrev Renaming := List (Name × Name)

/-- `type_map.find(type_name)`, `i->second` (Reader.h:161-166). -/
def find (m : Renaming) (n : Name) : Option Name := m.lookup n

/-- The loop over `meta.typeNames`, Reader.h:159-167. -/
def renameLoop (m : Renaming) : List Name → List Name
  | [] => []
  | n :: ns =>
    match find m n with
    | some n' => n' :: renameLoop m ns
    | none => n :: renameLoop m ns

/-- `Reader::ReadOldPrototypes(s, type_map)`, Reader.h:153-170, of a new `Reader`. -/
def readTables (g : Cfg) (m : Renaming) (s : List UInt8) : Res (List Proto × List UInt8) := do
  let (v, s') ← read ⟨none, g.env.cap⟩ metaTy (dflt metaTy) s
  match decMeta v with
  | none => .ub
  | some (tn, ps) => do
    let old ← attachMetadata (renameLoop m tn) (g.S.fields.map g.nm) ps
    .ok (old, s')

/-- What a program does that needs a `type_map`: `Reader ctx; ctx.ReadOldPrototypes(in, type_map); ctx.ReadV(in, val);` as Vts.h:19-23 does without one.
The member `tm` of `g` is not used. -/
def readWith (g : Cfg) (m : Renaming) (fuel : Nat) (t : Ty) (o : Val) (s : List UInt8) : Res (Val × List UInt8) := do
  let (old, s') ← readTables g m s
  match readBody g fuel old t o (fun _ => none) s' with
  | .ok (v, _, s'') => .ok (v, s'')
  | .throw e => .throw e
  | .ub => .ub

/-- The name of a type in which a string type is a class of another library, e.g. `QString` (Reader.h:150-151), with the names of the other types
as in TypeDescriptor.h:92-133: those of the fields of the sample below.  Simplified: no other types. -/
def nameWith (str : Name) : Ty → Name
  | .str _ => str
  | .vec t => Mp.seqName (nameWith str t)
  | .num n _ => Mp.intName n
  | _ => []

end Verif.TypeMap
