import Verif.Model.Basic
/-!
# Patterns and arguments, as the tools read them (specification)

The regular expressions that are given to `go test -run` and `forge test --match-test`, as far as they occur here, and how `cargo test` divides its
arguments. This is about other programs and is not checked against them.
-/
namespace Necessist.Pattern

inductive Atom where
  | char (c : Char)
  /-- `.*` -/
  | any
deriving DecidableEq, Repr

structure Regex where
  /-- `^` at the start -/
  start : Bool
  atoms : List Atom
  /-- `$` at the end -/
  stop : Bool
deriving DecidableEq, Repr

/-- Characters with a meaning of their own in a regular expression, and `/`, at which Go divides it. -/
def Special (c : Char) : Prop := c ∈ "\\.+*?()|[]{}^$/".toList
instance (c : Char) : Decidable (Special c) := inferInstanceAs (Decidable (_ ∈ _))

/-- Read the part after `^`. -/
def readAtoms : Text → Option (List Atom × Bool)
  | [] => some ([], false)
  | ['$'] => some ([], true)
  | '.' :: '*' :: r => (readAtoms r).map fun (as, e) => (.any :: as, e)
  | c :: r => if Special c then none else (readAtoms r).map fun (as, e) => (.char c :: as, e)

/-- Read a regular expression. -/
def read : Text → Option Regex
  | '^' :: r => (readAtoms r).map fun (as, e) => ⟨true, as, e⟩
  | r => (readAtoms r).map fun (as, e) => ⟨false, as, e⟩

/-- A text that is matched. -/
inductive Fits : List Atom → Text → Prop
  | nil : Fits [] []
  | char (c as t) : Fits as t → Fits (.char c :: as) (c :: t)
  | any (a as t) : '\n' ∉ a → Fits as t → Fits (.any :: as) (a ++ t)

/-- A name that is selected: some part of it is matched. -/
def Selects (r : Regex) (name : Text) : Prop :=
  ∃ a m b, name = a ++ m ++ b ∧ Fits r.atoms m ∧ (r.start = true → a = []) ∧ (r.stop = true → b = [])

/-- The arguments that `cargo test` passes to the tests' program: those after the first `--`. -/
inductive Passes : List Text → List Text → Prop
  | found (a b) : "--".toList ∉ a → Passes (a ++ "--".toList :: b) b
  | none (a) : "--".toList ∉ a → Passes a []

end Necessist.Pattern
