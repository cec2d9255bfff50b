import Verif.Spec.Text
import Verif.Model.Text
/-!
# Lines and directives (specification)
-/
namespace Necessist

/-- `l` is line number `n` (from 1) of the text `t`: it begins where `n - 1` line breaks have been passed, extends to the
next line break or the end of the text, and does not include the line break nor a carriage return immediately before it.
There is no line after a final line break. -/
def LineAt (t : Text) (n : Nat) (l : Text) : Prop :=
  ∃ pre suf, EndsAt pre ⟨n, 0⟩ ∧ '\n' ∉ l ∧
    ((t = pre ++ l ∧ l ≠ [] ∧ suf = []) ∨
     (t = pre ++ l ++ '\n' :: suf ∧ l.getLast? ≠ some '\r') ∨ t = pre ++ l ++ '\r' :: '\n' :: suf)

/-- Nothing but white space. -/
def Blank (t : Text) : Prop := ∀ c ∈ t, isWhitespace c = true

/-- The line is a directive, with this text. -/
def DirectiveLine (line directive : Text) : Prop :=
  ∃ b1 b2 b3, Blank b1 ∧ Blank b2 ∧ Blank b3 ∧ line = b1 ++ "//".toList ++ b2 ++ "necessist:".toList ++ b3 ++ directive

/-- The directive `word`, followed by nothing or by a character that does not continue the word. -/
def DirectiveWord (alnum : Char → Bool) (line : Text) (word : String) : Prop :=
  ∃ rest, DirectiveLine line (word.toList ++ rest) ∧
    ∀ c, rest.head? = some c → c ≠ '-' ∧ c ≠ '_' ∧ alnum c = false

/-- A line comment or a blank line. -/
def CommentOrBlank (line : Text) : Prop := Blank line ∨ ∃ b rest, Blank b ∧ line = b ++ "//".toList ++ rest

/-- A line that may precede `skip-file`. -/
def HeaderLine (line : Text) : Prop :=
  CommentOrBlank line ∨ ∃ b1 b2, Blank b1 ∧ Blank b2 ∧ line = b1 ++ "<?php".toList ++ b2

/-- `n` is the number of the line on which the code of the text `txt` beginning on line `first` begins: its first line that
is neither blank nor a comment, or its first line if there is none such. -/
def CodeStartsOn (txt : Text) (first n : Nat) : Prop :=
  (∃ k l, n = first + k ∧ LineAt txt (k + 1) l ∧ ¬ CommentOrBlank l ∧
    ∀ j < k, ∀ l', LineAt txt (j + 1) l' → CommentOrBlank l') ∨
  (n = first ∧ ∀ k l, LineAt txt k l → CommentOrBlank l)

end Necessist
