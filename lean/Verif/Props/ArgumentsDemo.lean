import Verif.Props.Arguments
import Verif.Props.MeaningDemo
/-!
# Arguments after `--`: an example (C88)
-/
namespace Necessist.Results.Demo
open Framework (Identifier)
open Run Main Cmd Sources Sources.Demo

/-- The example of C80, with other arguments for the commands. -/
def aroundWith (args : List Text) : Around (Nat × Nat) := { around with args := args }

def hostWith (args : List Text) : Host Nat (St (Nat × Nat)) :=
  { host with impl := fun _ i => .ok (some ⟨(Sources.Demo.fw i).backend, inRun (aroundWith args) (highOf (aroundWith args) {} noJson i), id⟩) }

/-- A command line. -/
def argv : List Text := ["--verbose".toList, "--".toList, "-count=1".toList, "--quiet".toList]

example : (Cli.main Cli.Demo.paths hostWith argv machine).1 = some 0 := by decide +kernel
example : Cmd.Demo.shown (Cli.main Cli.Demo.paths hostWith argv machine).2.ext.ran =
    [("go", ["test", "./", "-count=1", "--quiet"]), ("go", ["test", "./", "-run=^$", "-count=1", "--quiet"]),
     ("go", ["test", "./", "-run=^$", "-count=1", "--quiet"]), ("$", ["test", "./", "-run=^TestA$", "-v", "-count=1", "--quiet"]), ("<", []),
     ("go", ["test", "./", "-run=^$", "-count=1", "--quiet"]), ("$", ["test", "./", "-run=^TestA$", "-v", "-count=1", "--quiet"]), ("<", [])] := by
  decide +kernel

/-- The hypotheses of `C75_program` and `C88_program` are met. -/
example : ∃ o args, Cli.CommandLine Cli.Demo.paths argv o args ∧ args ≠ [] ∧ Locates (hostWith args) ∧
    Sources.Implements parsers (hostWith args) o machine Walk.Demo.disk false Walk.Demo.rule Char.isAlphanum ∧
    Executes parsers (hostWith args) o machine Walk.Demo.disk false Walk.Demo.rule Char.isAlphanum (aroundWith args) {} noJson ∧
    (aroundWith args).args = args ∧ RunsTests o ∧ processOptions o.set = .ok ∧
    (∃ root fw nTests map ws st, FindsCandidates (hostWith args) o machine root fw nTests map ws st) ∧ Walk.Chosen (hostWith args) o .go := by
  have hrun : RunsTests { verbose := true } := ⟨⟨rfl, rfl, rfl, rfl⟩, rfl, rfl⟩
  have hz : (main (hostWith ["-count=1".toList, "--quiet".toList]) { verbose := true } machine).1 = some 0 := by decide +kernel
  obtain ⟨root, fw, nT, map, ws, st, hf, _⟩ := zero_runs hrun hz
  refine ⟨{ verbose := true }, ["-count=1".toList, "--quiet".toList], (Cli.C87_reading _ _ _ _).1 ⟨[.flag .verbose], by decide +kernel, rfl⟩, nofun,
    fun _ _ _ h => ?_, ⟨rfl, rfl, fun i f h => ?_⟩, ⟨rfl, ⟨_, rfl, _, _, Or.inl rfl⟩, fun i f h => ?_, fun i f h => ?_, fun hch => ?_⟩, rfl, hrun, by decide +kernel,
    ⟨root, fw, nT, map, ws, st, hf⟩, Or.inr ⟨rfl, rfl⟩⟩
  · cases h; exact ⟨parsers, located, rfl⟩
  · cases h; exact ⟨rfl, rfl, rfl, rfl, rfl, rfl⟩
  · cases h; rfl
  · cases h; exact ⟨rfl, rfl⟩
  · rcases hch with h | ⟨_, h⟩
    · cases h
    · have h : (Except.ok ("Cargo.toml".toList == "go.mod".toList) : Except Text Bool) = .ok true := h
      exact absurd (by simpa using h) (by decide : ¬ "Cargo.toml".toList = "go.mod".toList)

end Necessist.Results.Demo
