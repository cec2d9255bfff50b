import Verif.Model.Results
import Verif.Spec.Commands
import Verif.Props.Sources
/-!
# What a result means (specification)
-/
namespace Necessist.Results
open Framework (Identifier)
open Run Main Cmd Sources
open Cache (Path)

/-- A part of a run: what happened, each with the source files as they were then, and what was executed meanwhile. -/
abbrev Part := List Snap × List Ran

/-- … without the source files. -/
def Part.did (p : Part) : Did := (p.1.map (·.event), p.2)

section
variable {σ : Type} (env : Env (St σ)) (cfg : Cfg) (plan : Plan) (src : SourceFile → Text)

/-- In this part of a run, the candidate was tried: an event was that its test was prepared, and then the source files were as at the start, but
without the candidate (C02). -/
def Tried (part : Part) (c : Candidate) (t : Text) : Prop :=
  ∃ s ∈ part.1, s.event = .buildTest c t ∧ OneRemoval env src src c s.fs

/-- In this part of a run, which comes after others, the test was executed for the candidate, as the process `p`: everything that has to succeed
beforehand did, and then the command that runs the test was started, with the removal's identifier in its environment; and the source files were
then as at the start, but without the candidate. If the framework's dry runs tell which tests there are, the test was among them. -/
def Executed (earlier : List Part) (part : Part) (c : Candidate) (t : Text) (p : Proc) : Prop :=
  Tried env src part c t ∧
  (∃ s ∈ part.1, s.event = .startTest c t (cfg.ident c.span) ∧ OneRemoval env src src c s.fs) ∧
  ∃ before after, part.2 = before ++ [.started ((plan.test c.span.file t).withVar "NECESSIST_REMOVAL".toList (cfg.ident c.span)) (some p)] ++ after ∧
    Follows (.run (plan.prepare c.span.file)) before (some true) ∧
    ∀ ns, plan.names = some ns → Known ns (earlier.map Part.did) c.span.file t

/-- The process ended by itself, before the timeout. -/
def InTime (p : Proc) : Prop := p.duration ≠ none ∧ ¬ Outlives cfg.timeout p.duration

/-- What the result of a test was, after the parts `earlier` of a run. -/
inductive TestResult (earlier : List Part) (part : Part) (c : Candidate) (t : Text) : Option Outcome → Prop
  /-- it ended in time and successfully, and the output, if looked at, showed that it ran -/
  | passed (p) : Executed env cfg plan src earlier part c t p → InTime cfg p → p.success = true →
      (∀ s, plan.shows = some s → ∃ out, .looked out ∈ part.2 ∧ Shown plan s t out) → TestResult earlier part c t (some .passed)
  /-- … unsuccessfully -/
  | failed (p) : Executed env cfg plan src earlier part c t p → InTime cfg p → p.success = false →
      (∀ s, plan.shows = some s → ∃ out, .looked out ∈ part.2 ∧ Shown plan s t out) → TestResult earlier part c t (some .failed)
  /-- it ended in time, but the output did not show that it ran -/
  | unseen (p s out) : Executed env cfg plan src earlier part c t p → InTime cfg p → plan.shows = some s → .looked out ∈ part.2 → Hidden plan s t out →
      TestResult earlier part c t none
  /-- it did not end in time -/
  | timedOut (p) : Executed env cfg plan src earlier part c t p → Outlives cfg.timeout p.duration → (∃ s ∈ part.1, s.event = .kill c t) →
      TestResult earlier part c t (some .timedOut)
  /-- what has to succeed beforehand did not, or (for some frameworks) the test was not among those that a dry run of the file reported -/
  | nonbuildable (r) : Tried env src part c t → Follows (.run (plan.prepare c.span.file)) part.2 r →
      (r = some false ∨ (r = none ∧ plan.lenient = true) ∨
        r = some true ∧ ∃ ns, plan.names = some ns ∧ ¬ Known ns (earlier.map Part.did) c.span.file t) →
      TestResult earlier part c t (some .nonbuildable)

/-- In the run, the test had the result. -/
def HadResult (run : List Part) (c : Candidate) (t : Text) (r : Option Outcome) : Prop :=
  ∃ earlier part later, run = earlier ++ part :: later ∧ TestResult env cfg plan src earlier part c t r

/-- In the run, the file's dry run, with the source files as they were at the start, failed: a command did not succeed or could not be executed, or the output of the last
one was not usable. -/
def DryRunFailed (run : List Part) (f : SourceFile) : Prop :=
  ∃ part ∈ run, (∃ s ∈ part.1, s.event = .dryRun f ∧ s.fs = src) ∧ ∃ r, Follows (plan.dry f) part.2 r ∧
    (r ≠ some true ∨ ∃ ns out, plan.names = some ns ∧ Printed part.2 out ∧ ¬ ns.usable out)

/-- What an outcome says about a candidate: all its tests passed without it; or those before some test passed, and that one did not; or its
file's dry run failed. -/
def Means (run : List Part) (c : Candidate) (outcome : Outcome) : Prop :=
  match outcome with
  | .skipped => DryRunFailed plan src run c.span.file
  | .passed => ∀ t ∈ c.tests, HadResult env cfg plan src run c t (some .passed)
  | o => ∃ before t after, c.tests = before ++ t :: after ∧ (∀ t' ∈ before, HadResult env cfg plan src run c t' (some .passed)) ∧
      HadResult env cfg plan src run c t (some o)

end

/-- What `cargo` says to be the arguments that select a file's tests. -/
def flagsOf (P : Parsers) (f : SourceFile) : List Text :=
  match P.cargo.flags (P.path f) with
  | .ok fl => fl
  | .error _ => []

/-- The frameworks' plans (C75). -/
def planOf (p : Project) (flags : SourceFile → List Text) (parse : Text → Option Json) : Identifier → Plan
  | .anchor => anchorPlan p parse fun s t => t ∈ ItMessage.mochaMessages s
  | .foundry => foundryPlan p
  | .go => goPlan p
  | .hardhat => hardhatPlan p fun s t => t ∈ ItMessage.mochaMessages s
  | .php => phpPlan p
  | .rust => rustPlan p flags
  | .vitest => vitestPlan p parse

section
variable {V σ : Type}

/-- The frameworks' implementations execute commands in the way of `highOf`, in the project at hand, which is a directory; nothing was executed before, by which
tests could be known; and what Rust's remembers after parsing is what `cargo` says about the files that were parsed (C68). -/
structure Executes (P : Parsers) (h : Host V (St σ)) (o : Opts) (m : Machine (St σ)) (disk : Walk.Entry) (v : Bool)
    (rule : Path → Bool → Walk.Verdict) (alnum : Char → Bool) (x : Around σ) (caches : Rust.Caches) (parse : Text → Option Json) : Prop where
  root : x.root = P.root
  dir : ∃ e, disk.at? P.root = some e ∧ e.IsDir
  env : ∀ i fw, h.impl m.ext i = .ok (some fw) → fw.env = inRun x (highOf x caches parse i)
  fresh : ∀ i fw, h.impl m.ext i = .ok (some fw) →
    (fw.parsed (h.chosen m.ext)).ran = [] ∧ (fw.parsed (h.chosen m.ext)).it = ItMessage.Table.init
  flags : Walk.Chosen h o .rust → (∃ root fw nTests map ws st, FindsCandidates h o m root fw nTests map ws st) →
    ∀ f d file fl, Searched h o m P disk v rule alnum .rust f d → P.rs f = .ok file → P.cargo.flags (P.path f) = .ok fl →
    caches.flags.lookup (P.path f) = some fl

variable (P : Parsers) (h : Host V (St σ)) (o : Opts) (m : Machine (St σ)) (disk : Walk.Entry) (v : Bool)
  (rule : Path → Bool → Walk.Verdict) (alnum : Char → Bool) (i : Identifier)

/-- `c` may be removed (C79): it is in a file that is searched, and in each of its tests, of which there are some, it is something that may be removed. -/
def IsCandidate (c : Candidate) : Prop :=
  c.tests ≠ [] ∧ ∃ user config d, Toml.read h.configStatFails m.config = .ok user ∧ Configures alnum i user config ∧
    Searched h o m P disk v rule alnum i c.span.file d ∧
    (Usual P i config c.span.file → ∀ t ∈ c.tests, Sources.Removes P i config d c.span.file c.kind c.span t)

/-- The parts are what the program did, in this order, up to some point; up to the end, if it exits with 0. -/
def IsRun (run : List Part) : Prop :=
  ∃ events, (main h o m).2.trace = m.trace ++ events ∧ run.flatMap Prod.fst <+: events ∧ run.flatMap Prod.snd <+: (main h o m).2.ext.ran ∧
    ((main h o m).1 = some 0 → run.flatMap Prod.fst = events ∧ run.flatMap Prod.snd = (main h o m).2.ext.ran)

/-- The removal is one of a candidate, with its text, and its outcome is what it was in the run. -/
def TrueOf (plan : Plan) (run : List Part) (r : Removal) : Prop :=
  ∃ c fw, IsCandidate P h o m disk v rule alnum i c ∧ c.span = r.span ∧ HasText m.fs c r.text ∧ h.impl m.ext i = .ok (some fw) ∧
    Means fw.env (runCfg h o m) plan m.fs run c r.outcome

end
end Necessist.Results
