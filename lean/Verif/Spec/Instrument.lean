import Verif.Spec.Text
/-!
# What instrumentation should do (specification)
-/
namespace Necessist

/-- The text `t`, whose first character has offset `i`, with `f n` inserted just before the character at offset
`n`, for every `n` (and `f` of the final offset inserted at the end). Removing the inserted strings gives `t`
back by construction. -/
def weave (f : Nat → Text) (i : Nat) : Text → Text
  | [] => f i
  | c :: cs => f i ++ c :: weave f (i + 1) cs

/-- The strings that a list of insertions puts at offset `n` of `t`, in the order of the list. -/
def inserted (t : Text) (es : List (LineColumn × Text)) (n : Nat) : Text :=
  ((es.filter fun e => decide (EndsAt (t.take n) e.1)).map (·.2)).flatten

/-- A text in which some parts are marked as statements, possibly nested. -/
inductive Doc where
  | lit (c : Char)
  | stmt (pre suf : Text) (body : List Doc)

mutual
/-- The text itself. -/
def Doc.text : Doc → Text
  | .lit c => [c]
  | .stmt _ _ body => docsText body
/-- The text of a sequence. -/
def docsText : List Doc → Text
  | [] => []
  | d :: ds => d.text ++ docsText ds
end

mutual
/-- The text with each statement wrapped in its own prefix and suffix. -/
def Doc.wrapped : Doc → Text
  | .lit c => [c]
  | .stmt pre suf body => pre ++ docsWrapped body ++ suf
/-- The wrapped text of a sequence. -/
def docsWrapped : List Doc → Text
  | [] => []
  | d :: ds => d.wrapped ++ docsWrapped ds
end

/-- The marked statement starts or ends with an unmarked character (so a statement nested in it shares neither
its start nor its end). -/
def isLit : Option Doc → Bool
  | some (.lit _) => true
  | _ => false

mutual
/-- Nested statements are strictly inside: every statement's first and last element are plain characters. -/
def Doc.Strict : Doc → Prop
  | .lit _ => True
  | .stmt _ _ body => isLit body.head? = true ∧ isLit body.getLast? = true ∧ docsStrict body
/-- For sequences. -/
def docsStrict : List Doc → Prop
  | [] => True
  | d :: ds => d.Strict ∧ docsStrict ds
end

/-- The position at the end of a text. -/
def posAfter (t : Text) : LineColumn := ⟨t.count '\n' + 1, (t.reverse.takeWhile (· != '\n')).length⟩

/-- A statement's place and wrapping. -/
abbrev Mark := LineColumn × LineColumn × Text × Text

mutual
/-- The statements of a marked text that follows the text `before`, outermost first, left to right. -/
def Doc.marks (before : Text) : Doc → List Mark
  | .lit _ => []
  | .stmt pre suf body =>
    (posAfter before, posAfter (before ++ docsText body), pre, suf) :: docsMarks before body
/-- For sequences. -/
def docsMarks (before : Text) : List Doc → List Mark
  | [] => []
  | d :: ds => d.marks before ++ docsMarks (before ++ d.text) ds
end

end Necessist
