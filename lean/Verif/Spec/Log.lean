import Verif.Model.Run
import Verif.Spec.Text
/-!
# What a run reports (specification)

A run is described by a log: one entry for each candidate, in the order of the candidates.
-/
namespace Necessist.Run

/-- How a candidate was dealt with. -/
inductive Entry where
  /-- it was passed over because of a past removal -/
  | past (c : Candidate)
  /-- it was skipped because its file's dry run failed -/
  | skipped (c : Candidate) (text : Text)
  /-- these tests were run, with these results, and this is the verdict on the candidate (`none`: undetermined) -/
  | tested (c : Candidate) (text : Text) (results : List (Text × Option Outcome)) (verdict : Option Outcome)
deriving DecidableEq, Repr

/-- The candidate. -/
def Entry.cand : Entry → Candidate
  | .past c | .skipped c _ | .tested c _ _ _ => c

/-- What is to be recorded. -/
def Entry.removal : Entry → Option Removal
  | .past _ => none
  | .skipped c text => some ⟨c.span, text, .skipped⟩
  | .tested c text _ verdict => verdict.map fun o => ⟨c.span, text, o⟩

/-- The tests that were run and their results. -/
def Entry.results : Entry → List (Candidate × Text × Option Outcome)
  | .tested c _ results _ => results.map fun r => (c, r.1, r.2)
  | _ => []

/-- What is to be printed: the removal of a tested candidate, if passed or verbose, and never if quiet. -/
def Entry.printed (quiet verbose : Bool) : Entry → Option Removal
  | .tested c text _ (some o) => if quiet = false ∧ (verbose = true ∨ o = .passed) then some ⟨c.span, text, o⟩ else none
  | _ => none

/-- `Verdict tests results v`: either all of `tests` were run and passed, and `v` is "passed"; or they were run in
order up to the first that did not pass, no later one was run, and `v` is that one's result. -/
inductive Verdict : List Text → List (Text × Option Outcome) → Option Outcome → Prop
  | allPassed (tests : List Text) : Verdict tests (tests.map fun t => (t, some .passed)) (some .passed)
  | firstNotPassed (before : List Text) (t : Text) (after : List Text) (r : Option Outcome) (h : r ≠ some .passed) :
      Verdict (before ++ t :: after) ((before.map fun t => (t, some .passed)) ++ [(t, r)]) r

/-- `text` is the candidate's text. -/
def HasText (src : SourceFile → Text) (c : Candidate) (text : Text) : Prop :=
  ∃ pre suf, Located (src c.span.file) pre text suf c.span.start c.span.stop

/-- An entry is justified: a candidate is passed over only if a past removal has exactly its span; the text is the
candidate's text (of a skipped candidate it is determined only if there is a database); the verdict follows from the
results. -/
def Entry.Ok (src : SourceFile → Text) (usesDb : Bool) (past : List Removal) : Entry → Prop
  | .past c => ∃ r ∈ past, r.span = c.span
  | .skipped c text => usesDb = true → HasText src c text
  | .tested c text results verdict => HasText src c text ∧ Verdict c.tests results verdict

/-- The entry is for a skipped candidate. -/
def Entry.isSkipped : Entry → Bool
  | .skipped _ _ => true
  | _ => false

/-- The entry is for a tested candidate. -/
def Entry.isTested : Entry → Bool
  | .tested _ _ _ _ => true
  | _ => false

/-- The rows of the second database are those of the first followed by one for each removal, in order; if the keys
(displayed spans) of the first are distinct, so are those of the second. -/
def DbAdds (rs : List Removal) : Option (List Row) → Option (List Row) → Prop
  | none, none => True
  | some a, some b => (∃ urls : List Text, urls.length = rs.length ∧ b = a ++ List.zipWith Row.ofRemoval urls rs) ∧
      ((a.map (·.span)).Nodup → (b.map (·.span)).Nodup)
  | _, _ => False

/-- The results of tests among the events. -/
def testedOf (tr : List Snap) : List (Candidate × Text × Option Outcome) :=
  tr.filterMap fun s => match s.event with | .tested c t r => some (c, t, r) | _ => none

/-- The failed dry runs among the events. -/
def failedOf (tr : List Snap) : List SourceFile :=
  tr.filterMap fun s => match s.event with | .dryRunFailed f => some f | _ => none

/-- The removals among the printed lines. -/
def printedOf (out : List Line) : List Removal :=
  out.filterMap fun l => match l with | .removal r => some r | _ => none

end Necessist.Run
