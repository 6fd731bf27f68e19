import Verif.Testing.Model

/-! # Option lists; selected tests -/

namespace Verif.Testing

/-- An option as it is typed: `--name` or `--name value`. -/
structure Item where
  name : Str
  value : Option Str

/-- A name: a letter, and letters, digits and underscores after it. -/
def IsName (L : Locale) (s : Str) : Prop :=
  ∃ c rest, s = c :: rest ∧ L.alpha c = true ∧ ∀ x ∈ rest, x = underscore ∨ L.alpha x = true ∨ L.digit x = true

/-- The arguments for a list of options. -/
def render : List Item → List Str
  | [] => []
  | i :: is => (dash :: dash :: i.name) :: (i.value.toList ++ render is)

/-- Does the argument read as an option, `--` and a name? -/
def LooksLikeOption (L : Locale) (s : Str) : Prop := ∃ n, IsName L n ∧ s = dash :: dash :: n

/-- An option list: names of at least two characters, values that do not read as options. -/
def IsOptionList (L : Locale) (is : List Item) : Prop :=
  ∀ i ∈ is, (IsName L i.name ∧ 2 ≤ i.name.length) ∧
    ∀ v, i.value = some v → ¬ (LooksLikeOption L v ∧ 4 ≤ v.length)

/-- The tests that are selected: those with the given names, or those that match the filter. -/
def Selected (rx : Str → Str → Option Bool) (c : Config) (chain : List Test) (t : Test) : Prop :=
  t ∈ chain ∧
    if c.run = [] then (c.filter.getD defaultFilter = [] ∨ rx (c.filter.getD defaultFilter) t.name = some true)
    else t.name ∈ c.run

/-- A test passes: every repetition does. -/
def Passes (c : Config) (t : Test) : Prop := ∀ i, i < max c.loop 1 → t.outcome i = .pass

/-- A proper call: the names of the tests are distinct, the names given exist, the filter is a regular expression. -/
structure Proper (rx : Str → Str → Option Bool) (c : Config) (chain : List Test) : Prop where
  distinct : (chain.map (·.name)).Nodup
  known : ∀ n ∈ c.run, ∃ t ∈ chain, t.name = n
  regex : ∀ s, rx (c.filter.getD defaultFilter) s ≠ none
  output : c.validOutput = true
  noList : c.list = false

end Verif.Testing
