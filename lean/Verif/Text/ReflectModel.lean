import Verif.Text.Model

/-!
# Reflected structures: `Awl/Reflection.h`, `Awl/TupleHelpers.h`, `Awl/Prototype.h`

The member list as it is written in the source, the text that the macro makes of it, the names found in that text, and the members visited with their names.
-/

namespace Verif.Text

/-- A comma in the arguments of `AWL_REFLECT` (Awl/Reflection.h:185-192): is there white space (or a comment, or the end of a line) before it, and behind it. -/
structure Gap where
  before : Bool
  after : Bool
deriving DecidableEq, Repr

/-- The arguments of `AWL_REFLECT(...)` (Awl/Reflection.h:185): the first name, and the other ones with the commas before them. -/
structure Source where
  first : Str
  rest : List (Gap × Str)

/-- White space between two tokens as `#` shows it: one blank (Awl/Reflection.h:189; the language rule [cpp.stringize]). -/
def blank : Bool → Str
  | true => [space]
  | false => []

/-- The part of the text behind a name, Awl/Reflection.h:189. -/
def stringizeRest : List (Gap × Str) → Str
  | [] => []
  | (g, x) :: r => blank g.before ++ [comma] ++ blank g.after ++ x ++ stringizeRest r

/-- `static const char va[] = #__VA_ARGS__` (Awl/Reflection.h:189): white space in front of the first name and behind the last one is removed. -/
def stringize (s : Source) : Str := s.first ++ stringizeRest s.rest

/-- `get_member_names()` (Awl/Reflection.h:187-192). -/
def getMemberNames (s : Source) : Res (List Str) := memberList (stringize s)

/-- `NotAnIndex`, Awl/Reflection.h:56. -/
def notAnIndex : Nat := 2 ^ 64 - 1

/-- `MemberList::find` (Awl/Reflection.h:43-46): the position, `none` for `end()`. -/
def find (names : List Str) (s : Str) : Option Nat := names.findIdx? (fun x => x == s)

/-- What `strcmp` sees of a text: the characters before the first zero (Awl/Reflection.h:48-54). -/
def cstr (s : Str) : Str := s.takeWhile (· ≠ 0)

/-- `MemberList::find_cstr` (Awl/Reflection.h:48-54); `memory` is the text at the address given, to its zero and beyond. -/
def findCstr (names : List Str) (memory : Str) : Option Nat := names.findIdx? (fun x => cstr x == cstr memory)

/-- `MemberList::find_index` (Awl/Reflection.h:58-68).  It is not a `const` member function, so it can be called for a copy of the list that `get_member_names()`
returns only. -/
def findIndex (names : List Str) (s : Str) : Nat :=
  match find names s with
  | some i => i
  | none => notAnIndex

/-- `get_member_names()[index]`, Awl/Reflection.h:70-73: `vector::operator[]`. -/
def nameOf (names : List Str) (i : Nat) : Res Str :=
  match names[i]? with
  | some s => .ok s
  | none => .ub

/-- `for_each_index` over a `const` tuple (Awl/TupleHelpers.h:51-61): the function is called for each element with its index; `σ` is what the function changes. -/
def forEachIndex {V σ : Type} (f : V → Nat → σ → Res σ) : List V → Nat → σ → Res σ
  | [], _, s => .ok s
  | v :: vs, i, s => f v i s >>= forEachIndex f vs (i + 1)

/-- `for_each_index` over a tuple of references (Awl/TupleHelpers.h:77-87): the function also changes the element. -/
def forEachIndexRef {V : Type} (f : V → Nat → Res V) : List V → Nat → Res (List V)
  | [], _ => .ok []
  | v :: vs, i => do
    let w ← f v i
    let ws ← forEachIndexRef f vs (i + 1)
    .ok (w :: ws)

/-- The values of members, with their types (Tests/StringizationTest.cpp:107: `std::any`). -/
structure AnyVal where
  ty : Nat
  val : Nat
deriving DecidableEq, Repr

/-- Values by their names, Tests/StringizationTest.cpp:107.  Simplified: a function instead of a tree. -/
abbrev NameMap := Str → Option AnyVal

/-- `map.emplace(name, val)`, Tests/StringizationTest.cpp:111: does not replace. -/
def emplace (m : NameMap) (k : Str) (v : AnyVal) : NameMap :=
  fun x => if x = k then (match m k with | some w => some w | none => some v) else m x

/-- Storing the members of a structure by their names, Tests/StringizationTest.cpp:109-112. -/
def storeByName (names : List Str) (members : List AnyVal) (m : NameMap) : Res NameMap :=
  forEachIndex (fun v i m => nameOf names i >>= fun k => .ok (emplace m k v)) members 0 m

/-- `std::bad_any_cast`, Tests/StringizationTest.cpp:120. -/
def badAnyCast : Exn := .user 1

/-- Loading the members of a structure by their names, Tests/StringizationTest.cpp:118-121: `map[]` of a name that is not there is an empty `std::any`, and the
cast throws unless the type is the same.  Simplified: what an exception leaves in the structure and in the map is not modelled. -/
def loadByName (names : List Str) (m : NameMap) (members : List AnyVal) : Res (List AnyVal) :=
  forEachIndexRef (fun v i => nameOf names i >>= fun k =>
    match m k with
    | none => .throw badAnyCast
    | some w => if w.ty = v.ty then .ok w else .throw badAnyCast) members 0

/-- `AttachedPrototype::GetField` (Awl/Prototype.h:89-93) after the constructor (84-87).  With assertions (`dbg`) the constructor fails unless there are as many names as
members; a failed assertion, or an index out of range, is `.ub`. -/
def getField (dbg : Bool) (names : List Str) (types : List Nat) (i : Nat) : Res (Str × Nat) :=
  if dbg ∧ types.length ≠ names.length then .ub
  else
    match names[i]?, types[i]? with
    | some n, some t => .ok (n, t)
    | _, _ => .ub

end Verif.Text
