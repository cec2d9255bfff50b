import Verif.Model.Go
import Verif.Spec.Text
/-!
# Go: imports of `os` (specification)

In terms of texts, not of regular expressions.
-/
namespace Necessist.Go

/-- `before` does not end in a word character. -/
def AtBoundary (word : Char → Bool) (before : Text) : Prop := ∀ c, before.getLast? = some c → word c = false

/-- An identifier of ASCII letters, digits and underscores. -/
def IsIdent (n : Text) : Prop := ∃ c cs, n = c :: cs ∧ isAlpha c = true ∧ ∀ d ∈ cs, isAlnum d = true

/-- A name for an imported package. -/
def IsName (n : Text) : Prop := n = ['.'] ∨ IsIdent n

/-- After `before` comes `import NAME "os"` (or `import NAME"os"`). -/
def NamedAt (word : Char → Bool) (t before n : Text) : Prop :=
  ∃ sp after, t = before ++ "import ".toList ++ n ++ sp ++ "\"os\"".toList ++ after ∧ (sp = [] ∨ sp = [' ']) ∧ IsName n ∧
    AtBoundary word before

/-- After `before` comes `import "os"`. -/
def UnnamedAt (word : Char → Bool) (t before : Text) : Prop :=
  ∃ after, t = before ++ "import \"os\"".toList ++ after ∧ AtBoundary word before

/-- After `before` comes `import (INNER NAME "os" OUTER)`, where INNER and OUTER contain no closing parenthesis. -/
def GroupedNamedAt (word : Char → Bool) (t before inner n : Text) : Prop :=
  ∃ sp outer after, t = before ++ "import (".toList ++ inner ++ n ++ sp ++ "\"os\"".toList ++ outer ++ ')' :: after ∧
    (sp = [] ∨ sp = [' ']) ∧ IsName n ∧ ')' ∉ inner ∧ ')' ∉ outer ∧ AtBoundary word before

/-- After `before` comes `import (INNER "os" OUTER)`. -/
def GroupedUnnamedAt (word : Char → Bool) (t before inner : Text) : Prop :=
  ∃ outer after, t = before ++ "import (".toList ++ inner ++ "\"os\"".toList ++ outer ++ ')' :: after ∧
    ')' ∉ inner ∧ ')' ∉ outer ∧ AtBoundary word before

end Necessist.Go
