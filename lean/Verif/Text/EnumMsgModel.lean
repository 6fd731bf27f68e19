import Verif.Text.Model

/-!
# Messages about wrong enumerators: `Awl/EnumTraits.h`, `Awl/Io/Rw/EnumReadWrite.h`

A text is the list of the codes of its characters.  Names of enumerations are identifiers, which are the same text in narrow and wide strings.
-/

namespace Verif.Text.EnumMsg

open Verif.Text

/-- `"Wrong "` (Awl/EnumTraits.h:26, 90, 110, Awl/Io/Rw/EnumReadWrite.h:61). -/
def wrong : Str := [87, 114, 111, 110, 103, 32]
/-- `" enum index: "` (Awl/EnumTraits.h:26, Awl/Io/Rw/EnumReadWrite.h:61). -/
def indexIs : Str := [32, 101, 110, 117, 109, 32, 105, 110, 100, 101, 120, 58, 32]
/-- `" enum value: "` (Awl/EnumTraits.h:110). -/
def valueIs : Str := [32, 101, 110, 117, 109, 32, 118, 97, 108, 117, 101, 58, 32]
/-- `"enum name: "` (Awl/EnumTraits.h:90). -/
def nameIs : Str := [101, 110, 117, 109, 32, 110, 97, 109, 101, 58, 32]

/-- `out << int`, for numbers that are not negative (used by Awl/Io/Rw/EnumReadWrite.h:61 with wide streams). -/
def putInt (n : Nat) : Str := if n < 10 then [48 + n] else putInt (n / 10) ++ [48 + n % 10]

/-- `out << int_val` where `int_val` is a `uint8_t` (the underlying type, Awl/EnumTraits.h:129): a narrow stream has an operator for `unsigned char`, which writes the character;
a wide one has not, and the value is promoted to `int` (Awl/EnumTraits.h:26, 110, Awl/Io/Rw/EnumReadWrite.h:61, Awl/StringFormat.h:20-27). -/
def putU8 (wide : Bool) (v : Nat) : Str := if wide then putInt v else [v]

/-- `what()` of `std::runtime_error`: a text that ends with a zero (Awl/EnumTraits.h:26, 90, 110). -/
def what (s : Str) : Str := s.takeWhile (· ≠ 0)

/-- `raise_wrong_enum_index`, Awl/EnumTraits.h:22-27; `name` is `enum_name()`. -/
def wrongIndex (name : Str) (v : Nat) : Str := what (wrong ++ name ++ indexIs ++ putU8 false v)

/-- `raise_wrong_enum_value`, Awl/EnumTraits.h:106-111. -/
def wrongValue (name : Str) (v : Nat) : Str := what (wrong ++ name ++ valueIs ++ putU8 false v)

/-- `enum_to_index`, Awl/EnumTraits.h:35-46, and `enum_from_index` with `validate_enum_index`, 48-63: the result, or the message of the exception. -/
def index (name : Str) (e : Enum) (v : Nat) : Except Str Nat := if v ≥ e.count then .error (wrongIndex name v) else .ok v

/-- `validate_enum`, Awl/EnumTraits.h:114-123. -/
def validate (name : Str) (e : Enum) (v : Nat) : Except Str Unit := if v ≥ e.count then .error (wrongValue name v) else .ok ()

/-- `ValidateEnum`, Awl/Io/Rw/EnumReadWrite.h:54-63: `What()` of the exception is the message itself (Awl/Io/IoException.h:89-92). -/
def validateIo (wide : Bool) (name : Str) (e : Enum) (v : Nat) : Except Str Unit :=
  if v ≥ e.count then .error (wrong ++ name ++ indexIs ++ putU8 wide v) else .ok ()

/-- `enum_from_string_impl`, Awl/EnumTraits.h:73-91. -/
def fromString (equal : Str → Str → Bool) (name : Str) (s : Str) : List Str → Nat → Except Str Nat
  | [], _ => .error (what (wrong ++ name ++ nameIs ++ s))
  | n :: names, i => if equal n s then .ok i else fromString equal name s names ((i + 1) % 256)

end Verif.Text.EnumMsg
