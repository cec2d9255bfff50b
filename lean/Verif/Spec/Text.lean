import Verif.Model.Basic
/-!
# What positions mean (specification, independent of the model)
-/
namespace Necessist

/-- The text `pre` ends exactly at position `lc`: `lc.line` is one more than the number of line breaks in `pre`
and `lc.column` is the number of characters of `pre` after its last line break. -/
def EndsAt (pre : Text) (lc : LineColumn) : Prop :=
  lc.line = pre.count '\n' + 1 ∧ lc.column = (pre.reverse.takeWhile (· != '\n')).length

instance (pre : Text) (lc : LineColumn) : Decidable (EndsAt pre lc) := by
  unfold EndsAt; infer_instance

/-- In `whole`, the text between positions `start` and `stop` is `txt`, preceded by `pre` and followed by
`suf`. -/
structure Located (whole pre txt suf : Text) (start stop : LineColumn) : Prop where
  split : whole = pre ++ txt ++ suf
  atStart : EndsAt pre start
  atStop : EndsAt (pre ++ txt) stop

end Necessist
