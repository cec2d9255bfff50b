import Verif.Spec.Warnings
import Verif.Spec.Log
/-!
# Warnings of a run (specification)
-/
namespace Necessist.Run

variable {σ : Type}

/-- The warnings among the lines printed. -/
def warningsOf (out : List Line) : List WarnMsg := out.filterMap fun l => match l with | .warning m => some m | _ => none

/-- The warning that is due because of an event: a dry run failed, or an instrumented file cannot be built. -/
def eventCall : Event → Option WarnCall
  | .dryRunFailed f => some { warning := .dryRunFailed, source := some f.display, msg := "dry run failed".toList, once := false }
  | .buildFailed f => some
    { warning := .instrumentationNonbuildable
      source := none
      msg := "instrumentation caused `".toList ++ f.display ++ "` to be nonbuildable".toList
      once := false }
  | _ => none

/-- The warnings due because of what happened, in order. -/
def eventCalls (tr : List Snap) : List WarnCall := tr.filterMap fun s => eventCall s.event

/-- The core's calls. -/
def ownCalls (is : List Issue) : List WarnCall := (is.filter (·.own)).map (·.call)

/-- The candidates, in the order in which they are tried. -/
def allOf (fcs : List (SourceFile × List Candidate)) : List Candidate := fcs.flatMap (·.2)

/-- Each candidate's span is before that of the next. -/
def InOrder (fcs : List (SourceFile × List Candidate)) : Prop := (allOf fcs).Pairwise fun a b => a.span.cmp b.span = .lt

/-- The entries are, in order, those of the first candidates, or of all candidates and then some. -/
def Consistent (fcs : List (SourceFile × List Candidate)) (past : List Removal) : Prop :=
  past.map (·.span) <+: (allOf fcs).map (·.span) ∨ (allOf fcs).map (·.span) <+: past.map (·.span)

/-- Why an entry is called missing: a candidate comes after it. If the candidates are in order and the entries distinct, then
furthermore no candidate has its span, unless the candidate was skipped because the dry run of its file failed. -/
def Missing (fcs : List (SourceFile × List Candidate)) (past : List Removal) (failed : List SourceFile) (r : Removal) : Prop :=
  (∃ c ∈ allOf fcs, r.span.cmp c.span = .lt) ∧
  (InOrder fcs → (past.map (·.span)).Nodup → ∀ c ∈ allOf fcs, c.span = r.span → ∃ f cs, (f, cs) ∈ fcs ∧ c ∈ cs ∧ f ∈ failed)

/-- Why an entry is called unexpected: a candidate comes before it, for which, if the candidates are in order, there is no entry. -/
def Unexpected (fcs : List (SourceFile × List Candidate)) (past : List Removal) (r : Removal) : Prop :=
  ∃ c ∈ allOf fcs, c.span.cmp r.span = .lt ∧ (InOrder fcs → ∀ r' ∈ past, r'.span ≠ c.span)

/-- The warning that an entry of the database is missing or unexpected. -/
def changedCall (kind : String) (r : Removal) : WarnCall :=
  { warning := .filesChanged
    source := none
    msg := "configuration or source files have changed since necessist.db was created; the following entry is ".toList ++ kind.toList ++
      ":\n    ".toList ++ r.span.display ++ ": `".toList ++ r.text.filter (· != '\r') ++ "`".toList
    once := true }

/-- A warning that the sources have changed, with an entry of the database, which is missing or unexpected. -/
def IsChanged (fcs : List (SourceFile × List Candidate)) (past : List Removal) (failed : List SourceFile) (c : WarnCall) : Prop :=
  ∃ r ∈ past, c = changedCall "missing" r ∧ Missing fcs past failed r ∨ c = changedCall "unexpected" r ∧ Unexpected fcs past r

/-- The warnings that a framework's implementation may give while tests are run: that a test printed something that is not UTF-8, that a test
could not be shown to have run, that a test was not seen in the dry run. -/
def FrameworkKind (w : Warning) : Prop := w = .outputInvalid ∨ w = .runTestFailed ∨ w = .itMessageNotFound

/-- A call that a framework's implementation may make while tests are run; it is to be printed each time. -/
def OfFramework (c : WarnCall) : Prop := FrameworkKind c.warning ∧ c.once = false

/-- The core's calls are those due because of what happened, in order, and possibly some about changed sources; those only if the
database does not fit the candidates, and if all is done, always if it does not. -/
structure RunCalls (fcs : List (SourceFile × List Candidate)) (past : List Removal) (done : Prop) (tr : List Snap) (is : List Issue) : Prop where
  others : (ownCalls is).filter (fun c => c.warning ≠ .filesChanged) = eventCalls tr
  changed : ∀ c ∈ ownCalls is, c.warning = .filesChanged → IsChanged fcs past (failedOf tr) c
  differs : (∃ c ∈ ownCalls is, c.warning = .filesChanged) → ¬ Consistent fcs past
  noticed : done → ¬ Consistent fcs past → ∃ c ∈ ownCalls is, c.warning = .filesChanged
  foreign : ∀ i ∈ is, i.own = false → OfFramework i.call

/-- What a framework does when called takes account of the warnings it gives: their messages are printed, and if a warning is denied, then nothing
else is done, and that is the answer. -/
def Reply.Honest {α : Type} (o : WarnOpts) (w : World σ) (r : Reply σ α) : Prop :=
  ∃ cs : List WarnCall, (∀ c ∈ cs, OfFramework c) ∧
    r.warns = WStates.after o w.warns (cs.map fun c => ⟨c, false⟩) ∧ r.said = shownFor o w.warns (cs.map fun c => ⟨c, false⟩) ∧
    (NoneDenied o (cs.map fun c => ⟨c, false⟩) ∨ EndsDenied o (cs.map fun c => ⟨c, false⟩) ∧ r.res = .err .denied)

/-- It gives no warning. -/
def Reply.Mute {α : Type} (w : World σ) (r : Reply σ α) : Prop := r.warns = w.warns ∧ r.said = []

/-- … always. A framework gives no warning when a dry run is made or an instrumented file is built. -/
structure Honest (o : WarnOpts) (env : Env σ) : Prop where
  dryRun : ∀ w f, (env.dryRun w f).Mute w
  backup : ∀ w f, (env.backup w f).Honest o w
  instrFile : ∀ w f n, (env.instrFile w f n).Honest o w
  wrap : ∀ w s, (env.wrap w s).Honest o w
  build : ∀ w f, (env.build w f).Mute w
  exec : ∀ w t s, (env.exec w t s).Honest o w
  start : ∀ w t s v, (env.start w t s v).Honest o w
  post : ∀ w, (env.post w).Honest o w
  kill : ∀ w, (env.kill w).Honest o w
  reap : ∀ w, (env.reap w).Honest o w
  insert : ∀ w s, (env.insert w s).Honest o w

end Necessist.Run
