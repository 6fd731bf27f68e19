import Verif.Common.Res

/-!
# Text of durations and hash values: `Tests/Helpers/FormattingHelpers.h`, `Tests/Helpers/FormattingHelpers.cpp`
-/

namespace Verif.Show

/-- The stream the functions of Tests/Helpers/FormattingHelpers.h:18-31 write to, as far as they depend on it.  Simplification: the
other flags (`showbase`, `showpos`, `uppercase`, `left`, a locale) are those of a new stream. -/
structure Stream where
  text : List Char
  hex : Bool
  fill : Char
  width : Nat
deriving DecidableEq, Repr

/-- A digit as the stream writes it for Tests/Helpers/FormattingHelpers.h:27. -/
def digitChar (d : Nat) : Char := Char.ofNat (if d < 10 then 48 + d else 87 + d)

/-- The digits of a number that the stream writes (Tests/Helpers/FormattingHelpers.h:27, Tests/Helpers/FormattingHelpers.cpp:38, 49, 57). -/
def digits (b n : Nat) : List Nat :=
  if _h : b < 2 ∨ n < b then [n] else digits b (n / b) ++ [n % b]
termination_by n
decreasing_by
  exact Nat.div_lt_self (by omega) (by omega)

/-- `out << "text"`: padded to the width, which is used once (Tests/Helpers/FormattingHelpers.h:21, Tests/Helpers/FormattingHelpers.cpp:34, 38, 49, 57). -/
def Stream.put (s : Stream) (t : List Char) : Stream :=
  { s with text := s.text ++ (List.replicate (s.width - t.length) s.fill ++ t), width := 0 }

/-- `out << count` of a `long long` in a decimal stream, and `out << static_cast<unsigned int>(byte)` in a hexadecimal one
(Tests/Helpers/FormattingHelpers.h:25, Tests/Helpers/FormattingHelpers.cpp:38, 49, 57).  In a hexadecimal stream a negative number is
written as its 64 bits. -/
def Stream.num (s : Stream) (n : Int) : Stream :=
  if s.hex then s.put ((digits 16 (n % 2 ^ 64).toNat).map digitChar)
  else s.put ((if n < 0 then ['-'] else []) ++ (digits 10 n.natAbs).map digitChar)

/-- `Durations` and `durationUnits`, in nanoseconds (Tests/Helpers/FormattingHelpers.cpp:19, 24). -/
def units : List (Int × List Char) :=
  [(3600000000000, ['h']), (60000000000, ['m', 'i', 'n']), (1000000000, ['s']), (1000000, ['m', 's']), (1000, ['u', 's']),
    (1, ['n', 's'])]

/-- `PrintDuration` (Tests/Helpers/FormattingHelpers.cpp:21-61); `d` is in nanoseconds, as `steady_clock` counts, and `duration_cast`
cuts towards zero. -/
def printDuration (d : Int) : List (Int × List Char) → Stream → Stream
  | [], s => s
  | [(u, n)], s => if d = 0 then s.put ['Z', 'E', 'R', 'O', ' ', 'T', 'I', 'M', 'E'] else (s.num (d.tdiv u)).put n
  | (u, n) :: (u', n') :: rest, s =>
    if d.tdiv u = 0 then printDuration d ((u', n') :: rest) s
    else if d.tdiv u < 10 then
      ((((s.num (d.tdiv u)).put n).put [':']).num (d.tdiv u' - (d.tdiv u * u).tdiv u')).put n'
    else (s.num (d.tdiv u)).put n

/-- `out << duration` (Tests/Helpers/FormattingHelpers.cpp:63-68). -/
def showDuration (d : Int) (s : Stream) : Stream := printDuration d units s

/-- The loop of `out << hash` (Tests/Helpers/FormattingHelpers.h:23-26). -/
def hashLoop (s : Stream) : List Nat → Stream
  | [] => s
  | b :: bs => hashLoop { ({ s with hex := true, fill := '0', width := 2 }.num b) with hex := false } bs

/-- `out << hash` (Tests/Helpers/FormattingHelpers.h:18-29). -/
def showHash (h : List Nat) (s : Stream) : Stream := hashLoop (s.put ['0', 'x']) h

end Verif.Show
