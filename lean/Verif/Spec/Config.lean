import Verif.Model.Config
/-!
# Patterns (specification)
-/
namespace Necessist

/-- `name` can be obtained from `pattern` by replacing each `*` with some text without line breaks. -/
inductive Instance : Text → Text → Prop
  | done : Instance [] []
  | star {pattern name} (fill : Text) (h1 : '\n' ∉ fill) (h2 : Instance pattern name) :
      Instance ('*' :: pattern) (fill ++ name)
  | same {pattern name} (c : Char) (h1 : c ≠ '*') (h2 : Instance pattern name) : Instance (c :: pattern) (c :: name)

/-- `path` is `suffix` preceded by any number of non-empty components without dots, each followed by a dot. -/
def DotSuffix (path suffix : Text) : Prop :=
  ∃ comps : List Text, (∀ x ∈ comps, x ≠ [] ∧ '.' ∉ x) ∧ path = comps.flatMap (· ++ ['.']) ++ suffix

/-- `alnum` is right about ASCII characters (and may be anything on others). -/
def AlnumOk (alnum : Char → Bool) : Prop := ∀ c : Char, c.toNat < 128 → alnum c = c.isAlphanum

/-- The characters a pattern may contain. -/
def PatternChar (alnum : Char → Bool) (c : Char) : Prop := alnum c = true ∨ c = '_' ∨ c = '.' ∨ c = '*'

/-- A pattern is acceptable. -/
def ValidPattern (alnum : Char → Bool) (p : Text) : Prop := ∀ c ∈ p, PatternChar alnum c

/-- The patterns of a configuration. -/
def Toml.patterns (t : Toml) : List Text :=
  t.ignoredFunctions ++ t.ignoredMacros ++ t.ignoredMethods ++ t.walkableFunctions

end Necessist
