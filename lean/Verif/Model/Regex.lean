import Verif.Model.Basic
/-!
# Regular expressions

The fragment of the `regex` crate used by core/src/config.rs. The crate itself is not modelled: an expression means its
usual language (`Lang`), and `^…$` without flags means that the whole text is in it.
-/
namespace Necessist

/-- Regular expressions over characters; `one p` matches one character satisfying `p`. -/
inductive Re where
  | empty
  | eps
  | one (p : Char → Bool)
  | cat (a b : Re)
  | alt (a b : Re)
  | star (a : Re)

/-- The usual meaning. -/
inductive Re.Lang : Re → Text → Prop
  | eps : Lang .eps []
  | one {p c} (h : p c = true) : Lang (.one p) [c]
  | cat {a b s t} (h1 : Lang a s) (h2 : Lang b t) : Lang (.cat a b) (s ++ t)
  | altL {a b s} (h : Lang a s) : Lang (.alt a b) s
  | altR {a b s} (h : Lang b s) : Lang (.alt a b) s
  | starNil {a} : Lang (.star a) []
  | starCons {a s t} (h1 : Lang a s) (h2 : Lang (.star a) t) : Lang (.star a) (s ++ t)

/-- Whether the empty text is in the language. -/
def Re.nullable : Re → Bool
  | .empty | .one _ => false
  | .eps | .star _ => true
  | .cat a b => a.nullable && b.nullable
  | .alt a b => a.nullable || b.nullable

/-- What must follow after `c` (Brzozowski derivative). -/
def Re.deriv (c : Char) : Re → Re
  | .empty | .eps => .empty
  | .one p => if p c then .eps else .empty
  | .cat a b => if a.nullable then .alt (.cat (a.deriv c) b) (b.deriv c) else .cat (a.deriv c) b
  | .alt a b => .alt (a.deriv c) (b.deriv c)
  | .star a => .cat (a.deriv c) (.star a)

/-- Whether `^…$` matches (proved to agree with `Lang` in `Lemmas/Regex.lean`). -/
def Re.isMatch (r : Re) : Text → Bool
  | [] => r.nullable
  | c :: cs => (r.deriv c).isMatch cs

/-- `.` without the `s` flag: anything but a newline. -/
def Re.dot : Re := .one fun c => c != '\n'
/-- A literal character. -/
def Re.lit (c : Char) : Re := .one fun x => x == c

/-- The characters with a special meaning outside of classes (`regex_syntax::is_meta_character`, without those special only in
classes or in the extended mode). -/
def isMeta (c : Char) : Bool := "\\.+*?()|[]{}^$".toList.contains c

/-- One item of a regular expression without groups, classes and operators other than `*`. -/
def parseAtom : Text → Option (Re × Text)
  | '\\' :: c :: rest => if isMeta c then some (.lit c, rest) else none
  | '.' :: rest => some (.dot, rest)
  | c :: rest => if isMeta c then none else some (.lit c, rest)
  | [] => none

theorem parseAtom_length {t r rest} (h : parseAtom t = some (r, rest)) : rest.length < t.length := by
  unfold parseAtom at h
  split at h
  · split at h
    · simp at h; simp [← h.2]; omega
    · simp at h
  · simp at h; simp [← h.2]
  · split at h
    · simp at h
    · simp at h; simp [← h.2]
  · simp at h

/-- A sequence of items, each possibly starred: how the `regex` crate reads the strings that `escape` produces. `none`
means that the string is outside of this fragment. -/
def parseRe : Text → Option Re
  | [] => some .eps
  | c :: cs =>
    match h : parseAtom (c :: cs) with
    | none => none
    | some (a, rest) =>
      have := parseAtom_length h
      if rest.head? = some '*' then (parseRe rest.tail).map (.cat (.star a)) else (parseRe rest).map (.cat a)
termination_by t => t.length
decreasing_by
  · simp at *; omega
  · simp at *; omega

end Necessist
