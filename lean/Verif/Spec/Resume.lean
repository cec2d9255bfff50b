import Verif.Model.Sqlite
import Verif.Spec.Log
import Verif.Spec.Run
import Verif.Spec.Span
/-!
# Resuming (specification)
-/
namespace Necessist.Run

/-- Deterministic tests: the result of every test of every candidate (`none`: it cannot be determined that the test
ran), and the files whose dry run fails. -/
structure Determined where
  result : Candidate → Text → Option Outcome
  dryRunFails : SourceFile → Bool

/-- What happened in a run agrees with that. (It says nothing about when the run was interrupted, what else failed,
which warnings were denied, and so on.) -/
def Agrees (d : Determined) (tr : List Snap) : Prop :=
  (∀ c t r, (c, t, r) ∈ testedOf tr → r = d.result c t ∧ d.dryRunFails c.span.file = false) ∧
  ∀ f ∈ failedOf tr, d.dryRunFails f = true

/-- The outcome a candidate must get: "skipped" if its file's dry run fails; else the result of the first of its tests
that does not pass; else "passed". -/
def Determined.outcome (d : Determined) (c : Candidate) : Option Outcome :=
  if d.dryRunFails c.span.file then some .skipped
  else ((c.tests.map (d.result c)).find? (· ≠ some .passed)).getD (some .passed)

/-- The databases that can be left by any number of runs, each interrupted or failing at any point or completed, with
any options (other than `--no-sqlite` and `--dump`, which do not change the database), always on the same sources `src` and candidates
`fcs`, with tests that behave as `d` says. -/
inductive Reached (d : Determined) (src : SourceFile → Text) (fcs : List (SourceFile × List Candidate)) : DbFile → Prop
  | new : Reached d src fcs .absent
  | run {σ : Type} (call : Call) (cfg : Cfg) (env : Env σ) (w : World σ) (file : DbFile) (h : Reached d src fcs file)
      (hcall : call.noSqlite = false) (hsrc : cfg.src = src) (hw : Fresh w)
      (hd : Agrees d (runWhole call cfg env fcs file w).2.2.trace) :
      Reached d src fcs (runWhole call cfg env fcs file w).2.1

/-- `rows` is the database left by such a series of runs of which the last one succeeded. -/
def CompletedDb (d : Determined) (src : SourceFile → Text) (fcs : List (SourceFile × List Candidate)) (rows : List Row) :
    Prop :=
  ∃ (file : DbFile) (σ : Type) (call : Call) (cfg : Cfg) (env : Env σ) (w w' : World σ), Reached d src fcs file ∧
    call.noSqlite = false ∧ cfg.src = src ∧ Fresh w ∧ Agrees d w'.trace ∧
    runWhole call cfg env fcs file w = (.ok (), .table rows, w')

/-- The candidates' spans are distinct, and can be written and read back: paths are well-formed and without `:` and
numbers fit in 64 bits; and every candidate has a test. -/
structure CandidatesOk (fcs : List (SourceFile × List Candidate)) : Prop where
  files : (fcs.map (·.1)).Nodup ∧ ∀ x ∈ fcs, FileOk x.1 x.2
  distinct : ((fcs.flatMap (·.2)).map (·.span)).Nodup
  paths : ∀ x ∈ fcs, x.1.WellFormed ∧ ∀ y ∈ x.1.path, ':' ∉ y
  numbers : ∀ c ∈ fcs.flatMap (·.2), c.span.start.line < 2 ^ 64 ∧ c.span.start.column + 1 < 2 ^ 64 ∧
    c.span.stop.line < 2 ^ 64 ∧ c.span.stop.column + 1 < 2 ^ 64
  tested : ∀ c ∈ fcs.flatMap (·.2), c.tests ≠ []

end Necessist.Run
