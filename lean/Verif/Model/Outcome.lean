import Verif.Model.Basic
/-!
# Outcomes

Models core/src/outcome.rs.
-/
namespace Necessist

/-- core/src/outcome.rs:12-24. -/
inductive Outcome where
  | skipped | nonbuildable | failed | timedOut | passed
deriving DecidableEq, Repr

/-- `Debug` name of a variant. -/
def Outcome.debugName : Outcome → String
  | .skipped => "Skipped"
  | .nonbuildable => "Nonbuildable"
  | .failed => "Failed"
  | .timedOut => "TimedOut"
  | .passed => "Passed"

/-- heck's `to_kebab_case` on a CamelCase ASCII identifier: a hyphen before every upper-case letter but the
first, everything in lower case. (Simplification: heck also treats runs of capitals, digits and underscores
specially; none occurs in the identifiers it is applied to here.) -/
def kebabTail : List Char → List Char
  | [] => []
  | c :: cs => if c.isUpper then '-' :: c.toLower :: kebabTail cs else c :: kebabTail cs

/-- `to_kebab_case`. -/
def kebab (s : List Char) : List Char :=
  match s with
  | [] => []
  | c :: cs => c.toLower :: kebabTail cs

/-- `Display for Outcome` (core/src/outcome.rs:26-30). -/
def Outcome.display (o : Outcome) : Text := kebab o.debugName.toList

/-- `Outcome::iter()` (derived `EnumIter`, declaration order). -/
def Outcome.all : List Outcome := [.skipped, .nonbuildable, .failed, .timedOut, .passed]

/-- `FromStr for Outcome` (core/src/outcome.rs:32-39). -/
def Outcome.parse (s : Text) : Option Outcome := Outcome.all.find? fun o => o.display == s

end Necessist
