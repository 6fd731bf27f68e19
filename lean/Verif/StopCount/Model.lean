import Verif.Common.Res

/-!
# The reference count of the stop state: `Extras/JThread/JThreadExtras/stop_token.hpp`

One 64-bit word: bit 0 stop requested, bit 1 locked, bits 2-32 tokens and callbacks, bits 33-63 sources (stop_token.hpp:291-301).
Every operation here is one atomic access to the word, so the order of the operations of all threads is a list.  An operation on
the word after `delete this` is undefined behaviour.

The ghost fields count what exists: `sources`, `refs` (tokens and registered callbacks), `held` (the lock is taken).  Limit:
fewer than 2^31 of each; the code does not check this.  `throw .logic`: there is nothing this operation could be called with.
-/

namespace Verif.Stop.Count

/-- `__stop_requested_flag`, stop_token.hpp:291. -/
def stopBit : Nat := 1
/-- `__locked_flag`, stop_token.hpp:292. -/
def lockBit : Nat := 2
/-- `__token_ref_increment`, stop_token.hpp:293. -/
def tokenInc : Nat := 4
/-- `__source_ref_increment`, stop_token.hpp:294-295. -/
def sourceInc : Nat := 2 ^ 33

/-- `fetch_add` on `std::atomic<std::uint64_t>` (stop_token.hpp:50, 62). -/
def fetchAdd (w k : Nat) : Nat := (w + k) % 2 ^ 64

/-- `fetch_sub` (stop_token.hpp:55, 67, 272, 276, 281). -/
def fetchSub (w k : Nat) : Nat := (w + 2 ^ 64 - k % 2 ^ 64) % 2 ^ 64

/-- `operator<` of the word (stop_token.hpp:56, 68, 285). -/
def less (a b : Nat) : Bool := decide (a < b)

/-- The word, stop_token.hpp:301, whether the stop state is deleted, and the ghost fields. -/
structure State where
  word : Nat
  freed : Bool
  sources : Nat
  refs : Nat
  held : Bool
  stop : Bool
deriving DecidableEq, Repr

/-- `stop_source()` (stop_token.hpp:410, 301). -/
def init : State := ⟨sourceInc, false, 1, 0, false, false⟩

/-- The accesses to the word (stop_token.hpp:301). -/
inductive Op where
  | newToken       -- get_token, copy of a token (stop_token.hpp:334-339, 395-399, 459-461)
  | dropToken      -- ~stop_token (stop_token.hpp:345-349)
  | newSource      -- copy of a source (stop_token.hpp:420-425)
  | dropSource     -- ~stop_source (stop_token.hpp:414-418)
  | ask            -- stop_requested of a token or a source (stop_token.hpp:133-135)
  | lock           -- stop_token.hpp:160, 257-269
  | signal         -- stop_token.hpp:238-255
  | unlock         -- stop_token.hpp:271-273
  | register       -- stop_token.hpp:275-278, a callback is registered
  | unlink         -- stop_token.hpp:280-289, a registered callback is destroyed before it is called
  | dropCallback   -- stop_token.hpp:220, a called callback is destroyed
deriving DecidableEq, Repr

/-- The limit of the two counts (the 31 bits of stop_token.hpp:299-300). -/
def limit : Nat := 2 ^ 31 - 1

/-- The thread that holds the lock does so through a token, a source or a callback, which exists until it is done (as `__request_stop`, stop_token.hpp:452-457, and `__remove_callback`, :533-534, are called). -/
def lastOne (s : State) : Bool := s.held && decide (s.sources + s.refs = 1)

/-- One access to the word (stop_token.hpp:49-71, 133-139, 238-289). -/
def step (s : State) (o : Op) : Res State :=
  if s.freed then (if s.sources = 0 ∧ s.refs = 0 ∧ s.held = false then .throw .logic else .ub)
  else match o with
  | .newToken =>
    if s.sources + s.refs ≠ 0 ∧ s.refs < limit then .ok { s with word := fetchAdd s.word tokenInc, refs := s.refs + 1 }
    else .throw .logic
  | .dropToken | .dropCallback =>
    -- __remove_token_reference (stop_token.hpp:53-59)
    if s.refs ≠ 0 ∧ ¬ lastOne s then
      .ok { s with word := fetchSub s.word tokenInc, freed := less s.word (tokenInc + sourceInc), refs := s.refs - 1 }
    else .throw .logic
  | .newSource =>
    if s.sources ≠ 0 ∧ s.sources < limit then .ok { s with word := fetchAdd s.word sourceInc, sources := s.sources + 1 }
    else .throw .logic
  | .dropSource =>
    -- __remove_source_reference (stop_token.hpp:65-71)
    if s.sources ≠ 0 ∧ ¬ lastOne s then
      .ok { s with word := fetchSub s.word sourceInc, freed := less s.word (tokenInc + sourceInc), sources := s.sources - 1 }
    else .throw .logic
  | .ask => if s.sources + s.refs ≠ 0 then .ok s else .throw .logic
  | .lock => if s.sources + s.refs ≠ 0 ∧ s.held = false then .ok { s with word := s.word ||| lockBit, held := true } else .throw .logic
  | .signal =>
    if s.sources ≠ 0 ∧ s.held = false ∧ s.stop = false then
      .ok { s with word := s.word ||| stopBit ||| lockBit, held := true, stop := true }
    else .throw .logic
  | .unlock => if s.held = true then .ok { s with word := fetchSub s.word lockBit, held := false } else .throw .logic
  | .register =>
    -- `__locked_flag - __token_ref_increment` is computed modulo 2^64
    if s.held = true ∧ s.refs < limit then
      .ok { s with word := fetchSub s.word (lockBit + 2 ^ 64 - tokenInc), held := false, refs := s.refs + 1 }
    else .throw .logic
  | .unlink =>
    if s.held = true ∧ s.refs ≠ 0 then
      .ok { s with word := fetchSub s.word (lockBit + tokenInc), freed := less s.word (lockBit + tokenInc + tokenInc),
                   held := false, refs := s.refs - 1 }
    else .throw .logic

/-- The accesses of all threads in their order (stop_token.hpp:301). -/
def run : State → List Op → Res State
  | s, [] => .ok s
  | s, o :: l => step s o >>= fun s => run s l

end Verif.Stop.Count
