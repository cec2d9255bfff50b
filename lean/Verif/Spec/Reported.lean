import Verif.Spec.Commands
import Verif.Spec.RunWarnings
/-!
# What the frameworks report while tests are run (specification)
-/
namespace Necessist.Cmd
open Run

variable {σ : Type}

/-- Nothing that is around a framework gives a warning: looking for files, executing commands, making and restoring backups, … -/
structure Around.Mute (x : Around σ) : Prop where
  exists_ : ∀ w n, (x.exists_ w n).Mute w
  output : ∀ w c, (x.output w c).Mute w
  spawn : ∀ w c, (x.spawn w c).Mute w
  temp : ∀ w, (x.temp w).Mute w
  captured : ∀ w, (x.captured w).Mute w
  edit : ∀ w t, (x.edit w t).Mute w
  backup : ∀ w f, (x.base.backup w f).Mute w
  instrFile : ∀ w f n, (x.base.instrFile w f n).Mute w
  wrap : ∀ w s, (x.base.wrap w s).Mute w
  kill : ∀ w, (x.base.kill w).Mute w
  reap : ∀ w, (x.base.reap w).Mute w
  insert : ∀ w s, (x.base.insert w s).Mute w

/-- A message: its kind, what it is about, and its text. -/
abbrev Report := Warning × Option Text × Text

/-- … of a message as printed. -/
def reportOf (m : WarnMsg) : Report := (m.warning, m.source, m.msg)

/-- A report for each line of a test's output that is not text. -/
def Garbled (x : Around σ) (c : Candidate) (out : List UInt8) (rs : List Report) : Prop :=
  ∃ ls, Exec.IsLines out ls ∧
    rs = (ls.filter fun l => (x.decode l).isNone).map fun l => (.outputInvalid, some c.span.display, x.invalidMsg l)

/-- The step is that a test could not be run, although what has to succeed beforehand did: the framework's dry run tells which tests there are,
and the test was not among them (C75). -/
def Missed (plan : Plan) (f : SourceFile) (t : Text) (s : Did) : Prop :=
  plan.names ≠ none ∧ ∃ c l, s = ([.buildTest c t, .tested c t (some .nonbuildable)], l) ∧ c.span.file = f ∧
    Follows (.run (plan.prepare f)) l (some true)

/-- What there is to report about a step that comes after the steps `h`. -/
inductive Reports (x : Around σ) (plan : Plan) (h : List Did) : Did → List Report → Prop
  /-- a test's output was looked at, and showed that the test ran -/
  | seen (c t evs l out r rs) (garbled : Garbled x c out rs) : Reports x plan h (evs ++ [.tested c t (some r)], l ++ [.looked out]) rs
  /-- … did not show that the test ran -/
  | unseen (c t evs l out rs) (garbled : Garbled x c out rs) : Reports x plan h (evs ++ [.tested c t none], l ++ [.looked out])
      (rs ++ [(.runTestFailed, some c.span.display, "failed to run test `".toList ++ t ++ "`: ".toList ++ x.outputText out)])
  /-- a test was not seen in the dry run of its file, for the first time -/
  | missed (c t l) (is : Missed plan c.span.file t ([.buildTest c t, .tested c t (some .nonbuildable)], l))
      (first : ∀ s ∈ h, ¬ Missed plan c.span.file t s) : Reports x plan h ([.buildTest c t, .tested c t (some .nonbuildable)], l)
      [(.itMessageNotFound, some c.span.display, "`it` message ".toList ++ x.debug t ++ " was not found during dry run".toList)]
  /-- … not for the first time -/
  | again (f t s) (is : Missed plan f t s) (before : ∃ s' ∈ h, Missed plan f t s') : Reports x plan h s []
  /-- anything else -/
  | nothing (s) (unlooked : ∀ out, Ran.looked out ∉ s.2) (met : ∀ f t, ¬ Missed plan f t s) : Reports x plan h s []

/-- … about all steps. -/
inductive AllReports (x : Around σ) (plan : Plan) : List Did → List Report → Prop
  | nil : AllReports x plan [] []
  | snoc (h rs s rs') : AllReports x plan h rs → Reports x plan h s rs' → AllReports x plan (h ++ [s]) (rs ++ rs')

/-- Warnings of this kind are shown. -/
def Audible (o : WarnOpts) (w : Warning) : Prop := ¬ Denied o w ∧ ¬ Allowed o w ∧ o.quiet = false

open Classical in
/-- The reports that are shown. -/
noncomputable def audible (o : WarnOpts) (rs : List Report) : List Report := rs.filter fun r => decide (Audible o r.1)

/-! ### By kind -/

/-- The tests of which the output did not show that they ran. -/
def unseenOf (es : List Event) : List (Candidate × Text) := es.filterMap fun e => match e with | .tested c t none => some (c, t) | _ => none

/-- The outputs of tests that were looked at. -/
def lookedOf (l : List Ran) : List (List UInt8) := l.filterMap fun r => match r with | .looked out => some out | _ => none

/-- The reports of a kind. -/
def ofKind (k : Warning) (rs : List Report) : List Report := rs.filter (·.1 = k)

/-- What there is to say of a test of which the output does not show that it ran. -/
def notRunReport (x : Around σ) (c : Candidate) (t : Text) (out : List UInt8) : Report :=
  (.runTestFailed, some c.span.display, "failed to run test `".toList ++ t ++ "`: ".toList ++ x.outputText out)

/-- … of a line of an output that is not text. -/
def garbledReport (x : Around σ) (c : Candidate) (l : List UInt8) : Report := (.outputInvalid, some c.span.display, x.invalidMsg l)

/-- … of a test that was not seen in the dry run of its file. -/
def missedReport (x : Around σ) (c : Candidate) (t : Text) : Report :=
  (.itMessageNotFound, some c.span.display, "`it` message ".toList ++ x.debug t ++ " was not found during dry run".toList)

end Necessist.Cmd
