import Verif.Model.Run
import Verif.Spec.Instrument
/-!
# What a run may do to source files (specification)
-/
namespace Necessist.Run

variable {σ : Type}

/-- Only the file `f` may differ between the two. -/
def OnlyDiffersAt (f : SourceFile) (orig fs : SourceFile → Text) : Prop := ∀ g, g ≠ f → fs g = orig g

/-- `new` is `old` with exactly the candidate's text deleted. -/
def CandidateDeleted (c : Candidate) (old new : Text) : Prop :=
  ∃ pre txt suf, Located old pre txt suf c.span.start c.span.stop ∧ new = pre ++ suf

/-- `new` is `old` with strings inserted, among them, at the start and at the end of the candidate, the prefix and
the suffix the backend gave for it. -/
def CandidateInstrumented (env : Env σ) (c : Candidate) (old new : Text) : Prop :=
  ∃ es pre suf, new = weave (inserted old es) 0 old ∧ (c.span.start, pre) ∈ es ∧ (c.span.stop, suf) ∈ es ∧
    ∃ w, (env.wrap w c.span).res = .ok (pre, suf)

/-- The state of the source files in which a test may be run for candidate `c`. -/
def OneRemoval (env : Env σ) (src orig : SourceFile → Text) (c : Candidate) (fs : SourceFile → Text) : Prop :=
  OnlyDiffersAt c.span.file orig fs ∧
    (CandidateDeleted c (src c.span.file) (fs c.span.file) ∨
      c.kind = .statement ∧ CandidateInstrumented env c (src c.span.file) (fs c.span.file))

/-- The candidates of a file come with the statements first (`SpanTestMaps::iter`, core/src/framework/mod.rs:43-52)
and are all in that file. -/
def FileOk (f : SourceFile) (cs : List Candidate) : Prop :=
  (∀ c ∈ cs, c.span.file = f) ∧
    ∃ ss ms, cs = ss ++ ms ∧ (∀ c ∈ ss, c.kind = .statement) ∧ ∀ c ∈ ms, c.kind ≠ .statement

/-- Nothing has happened yet and no backup is live. -/
def Fresh (w : World σ) : Prop := w.trace = [] ∧ w.instr = none

/-- The event concerns one of the given files, candidates and tests. -/
def Meant (files : List SourceFile) (cs : List Candidate) : Event → Prop
  | .dryRun f => f ∈ files
  | .dryRunFailed f => f ∈ files
  | .buildFile f => f ∈ files
  | .buildFailed f => f ∈ files
  | .buildTest c t => c ∈ cs ∧ t ∈ c.tests
  | .startTest c t _ => c ∈ cs ∧ t ∈ c.tests
  | .kill c t => c ∈ cs ∧ t ∈ c.tests
  | .tested c t _ => c ∈ cs ∧ t ∈ c.tests
  | .insert r => ∃ c ∈ cs, r.span = c.span.display
  | .ctrlc _ => True

end Necessist.Run
