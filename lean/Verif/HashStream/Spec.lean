import Verif.HashStream.Model

/-!
# Specification of byte streams

Independent of the state of the stream objects: the format of a hashed stream (`encode`, `decode`) and what an ideal
input stream over given bytes answers (`ideal`).
-/

namespace Verif.HashStream

/-- The format of a hashed stream with payloads of `n` bytes: full payloads, each followed by its hash, the last one
may be shorter but not empty. -/
inductive Encodes (n : Nat) (hash : Bytes → Bytes) : Bytes → Bytes → Prop
  | nil : Encodes n hash [] []
  | last {p} : p ≠ [] → p.length ≤ n → Encodes n hash p (p ++ hash p)
  | more {p d e} : p.length = n → Encodes n hash d e → Encodes n hash (p ++ d) (p ++ hash p ++ e)

/-- A block is consistent when it is a payload followed by the hash of the payload. -/
def Consistent (hash : Bytes → Bytes) (b : Bytes) : Prop := ∃ p, b = p ++ hash p

/-- An ideal input stream over the bytes `p`, after which, if `bad`, corruption is reported.  What the calls answer,
up to and including the first exception. -/
def ideal (bad : Bool) : Bytes → List Op → List Obs
  | _, [] => []
  | p, .read n :: ops =>
    if n ≤ p.length then .data (p.take n) :: ideal bad (p.drop n) ops
    else if bad then [.exception .corruption]
    else .data p :: ideal bad [] ops
  | p, .atEnd :: ops =>
    if p ≠ [] then .flag false :: ideal bad p ops
    else if bad then [.exception .corruption]
    else .flag true :: ideal bad p ops

/-- What the user sees up to and including the first exception. -/
def untilException : List Obs → List Obs
  | [] => []
  | .exception e :: _ => [.exception e]
  | o :: os => o :: untilException os

/-- All bytes that the user got. -/
def received : List Obs → Bytes
  | [] => []
  | .data b :: os => b ++ received os
  | _ :: os => received os

end Verif.HashStream
