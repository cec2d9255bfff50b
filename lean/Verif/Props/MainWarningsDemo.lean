import Verif.Props.MainWarnings
import Verif.Props.MainDemo
/-! C81: an example. -/
namespace Necessist.Main.Demo
open Run Parse

/-- As `fwAt`, but the dry run of the first file fails, no instrumented file can be built, and each test that is started gives a warning. -/
def fwBad (o : WarnOpts) : Fw (Nat × Nat) where
  backend := Parse.Demo.proj [] []
  env := { (fwAt 99).env with
    dryRun := fun w f => ⟨if f = Parse.Demo.fileA then .err .backend else .ok (), w.warns, w.ext, []⟩
    build := fun w _ => ⟨.err .backend, w.warns, w.ext, []⟩
    start := fun w _ _ _ => ⟨.ok ⟨false, some 10, true⟩, (warnInternal o w.warns ⟨.runTestFailed, none, "?".toList, false⟩).2, w.ext,
      shownFor o w.warns [⟨⟨.runTestFailed, none, "?".toList, false⟩, false⟩]⟩ }
  parsed := id

def hostBad (o : Opts) : Host Nat (Nat × Nat) := { host with impl := fun _ _ => .ok (some (fwBad o.warn)) }

/-- The hypotheses are met. -/
theorem sound (o : Opts) (ho : o.warn = ⟨[], [], false⟩) : Sound (hostBad o) o := by
  intro ext i fw hi
  simp only [hostBad, Except.ok.injEq, Option.some.injEq] at hi
  subst hi
  rw [ho]
  refine ⟨⟨?_, ?_, ?_, ?_, ?_, ?_, ?_, ?_, ?_, ?_, ?_⟩, ?_⟩
  · exact fun w f => ⟨rfl, rfl⟩
  · exact fun w f => Reply.Mute.honest ⟨rfl, rfl⟩
  · exact fun w f n => Reply.Mute.honest ⟨rfl, rfl⟩
  · exact fun w s => Reply.Mute.honest ⟨rfl, rfl⟩
  · exact fun w f => ⟨rfl, rfl⟩
  · exact fun w t s => Reply.Mute.honest ⟨rfl, rfl⟩
  · exact fun w t s v => ⟨[⟨.runTestFailed, none, "?".toList, false⟩], by simp [OfFramework, FrameworkKind], rfl, rfl, Or.inl (by simp [NoneDenied, Denied])⟩
  · exact fun w => Reply.Mute.honest ⟨rfl, rfl⟩
  · exact fun w => Reply.Mute.honest ⟨rfl, rfl⟩
  · exact fun w => Reply.Mute.honest ⟨rfl, rfl⟩
  · exact fun w s => Reply.Mute.honest ⟨rfl, rfl⟩
  · intro f ast hp c hc
    unfold fwBad Parse.Demo.proj at hp
    dsimp only at hp
    split at hp
    · cases hp
    · split at hp <;> · cases hp; cases hc

/-- What is printed: which warning, for which file, with which hints. -/
def warned (o : Opts) : Option Nat × List (Warning × Option String × String × Bool × Bool) :=
  ((main (hostBad o) o machine).1, (warningsIn (main (hostBad o) o machine).2.console).map fun w =>
    (w.warning, w.source.map String.ofList, String.ofList w.msg, w.bug, w.allowHint))

/-- A run with all sorts of warnings. -/
example : warned { noLocalFunctions := true, resume := true } = (some 0,
    [(.optionDeprecated, none, "--no-local-functions is now the default; hence, this option is deprecated", false, true),
      (.parsingFailed, none, "failed to parse \"src/b.rs\": unexpected token", false, true),
      (.databaseDoesNotExist, none, "no sqlite database to resume; creating new database", false, true),
      (.dryRunFailed, some "src/a.rs", "dry run failed", false, true),
      (.instrumentationNonbuildable, none, "instrumentation caused `src/c.rs` to be nonbuildable", true, true),
      (.runTestFailed, none, "?", true, true)]) := by decide +kernel
/-- It meets the hypotheses of `C81_warnings`, `C81_events` and `C81_sources`. -/
example : Sound (hostBad { noLocalFunctions := true, resume := true }) { noLocalFunctions := true, resume := true } ∧ machine.warns = .init ∧
    LooksForCandidates { noLocalFunctions := true, resume := true } ∧ (main (hostBad { noLocalFunctions := true, resume := true }) { noLocalFunctions := true, resume := true } machine).1 = some 0 ∧
    ¬ Denied (Opts.warn { noLocalFunctions := true, resume := true }) .dryRunFailed ∧
    ¬ Allowed (Opts.warn { noLocalFunctions := true, resume := true }) .dryRunFailed :=
  ⟨sound _ rfl, rfl, ⟨rfl, rfl, rfl, rfl⟩, by decide +kernel, by simp [Denied, Opts.warn], by simp [Allowed, Opts.warn]⟩
/-- Denied, allowed and quiet. -/
example : warned { deny := [.dryRunFailed] } = (some 2, [(.parsingFailed, none, "failed to parse \"src/b.rs\": unexpected token", false, true)]) ∧
    (warned { allow := [.dryRunFailed, .parsingFailed] }).2.map (·.1) = [.instrumentationNonbuildable, .runTestFailed] ∧
    warned { quiet := true } = (some 0, []) := by refine ⟨?_, ?_, ?_⟩ <;> decide +kernel

end Necessist.Main.Demo
