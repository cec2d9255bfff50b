import Verif.Props.Reported
import Verif.Props.MeaningDemo
/-!
# What the frameworks report: examples (C86)
-/
namespace Necessist.Results.Demo
open Framework (Identifier)
open Run Main Cmd Sources Sources.Demo

/-- As `around`, but the tests' output has a line that is not text, and only says that `TestB` ran. -/
def strange : Around (Nat × Nat) := { around with
  captured := fun w => ⟨.ok ([255, 10] ++ Cmd.Demo.bytes "=== RUN   TestB\n", some 0), w.warns, w.ext, []⟩
  decode := fun bs => if bs.contains 255 then none else some (bs.map fun b => Char.ofNat b.toNat)
  invalidMsg := fun l => "bad ".toList ++ Necessist.showNat l.length
  outputText := fun out => Necessist.showNat out.length }

theorem mute : strange.Mute := by
  constructor <;> intros <;> first | exact ⟨rfl, rfl⟩ | trivial

/-- The framework of `Sources.Demo`, which executes commands so. -/
def strangeFw (i : Identifier) : Fw (St (Nat × Nat)) where
  backend := (Sources.Demo.fw i).backend
  env := inRun strange (highOf strange {} noJson i)
  parsed := id

def strangeHost : Host Nat (St (Nat × Nat)) := { host with impl := fun _ i => .ok (some (strangeFw i)) }

/-- A message, for reading. -/
def showMsg : Msg → List String
  | .warning w => [String.ofList (w.source.getD []), String.ofList w.msg]
  | x => [Main.Demo.Msg.show x]

/-- What the program prints (after the warning that is printed while candidates are looked for): for each of the two candidates, that a line of the output is not text, and then that
the test was not run. -/
example : (main strangeHost { verbose := true } machine).1 = some 0 := by decide +kernel
example : ((main strangeHost { verbose := true } machine).2.console.map showMsg).tail =
    [["2 candidates in 1 test in 1 source file"], ["dry running a_test.go"], ["mutilating a_test.go"],
     ["a_test.go:2:1-2:10", "bad 1"], ["a_test.go:2:1-2:10", "failed to run test `TestA`: 18"],
     ["a_test.go:3:1-3:10", "bad 1"], ["a_test.go:3:1-3:10", "failed to run test `TestA`: 18"]] := by decide +kernel

theorem strange_impl {e i f} (h : strangeHost.impl e i = .ok (some f)) : f = strangeFw i := by
  have h : (Except.ok (some (strangeFw i)) : Except Text (Option (Fw (St (Nat × Nat))))) = .ok (some f) := h
  cases h; rfl

/-- The hypotheses of `C86_program`, `C86_not_run`, `C86_garbled` and `C86_missed` are met. -/
example : ∃ o : Opts, Locates strangeHost ∧ Sources.Implements parsers strangeHost o machine Walk.Demo.disk false Walk.Demo.rule Char.isAlphanum ∧
    Executes parsers strangeHost o machine Walk.Demo.disk false Walk.Demo.rule Char.isAlphanum strange {} noJson ∧ strange.Mute ∧
    strange.warn = o.warn ∧ RunsTests o ∧ (main strangeHost o machine).1 = some 0 ∧ Walk.Chosen strangeHost o .go ∧
    planOf (projectOf strange) (flagsOf parsers) noJson .go = goPlan (projectOf strange) ∧
    Audible o.warn .runTestFailed ∧ Audible o.warn .outputInvalid ∧ Audible o.warn .itMessageNotFound := by
  have au : ∀ w : Warning, Audible ({ verbose := true } : Opts).warn w := by
    intro w
    refine ⟨?_, ?_, rfl⟩ <;> simp [Denied, Allowed, Opts.warn]
  refine ⟨{ verbose := true }, fun _ _ _ h => ⟨parsers, located, by rw [strange_impl h]; rfl⟩, ?_, ?_, mute, rfl, ⟨⟨rfl, rfl, rfl, rfl⟩, rfl, rfl⟩, by decide +kernel,
    Or.inr ⟨rfl, rfl⟩, rfl, au _, au _, au _⟩
  · refine ⟨rfl, rfl, fun i f h => ?_⟩
    rw [strange_impl h]
    exact ⟨rfl, rfl, rfl, rfl, rfl, rfl⟩
  · refine ⟨rfl, ⟨_, rfl, _, _, Or.inl rfl⟩, fun i f h => ?_, fun i f h => by rw [strange_impl h]; exact ⟨rfl, rfl⟩, fun hch => ?_⟩
    · rw [strange_impl h]; rfl
    · rcases hch with h | ⟨_, h⟩
      · cases h
      · have h : (Except.ok ("Cargo.toml".toList == "go.mod".toList) : Except Text Bool) = .ok true := h
        exact absurd (by simpa using h) (by decide : ¬ "Cargo.toml".toList = "go.mod".toList)

/-- Hardhat: the dry run reports only `p`. Test `q` is to be run for two candidates; that it was not found is said once. -/
example : (spoken (runFiles Run.Demo.cfg (inRun (Cmd.Demo.around ["node_modules".toList] (Cmd.Demo.bytes "  * p (5ms)\n"))
      (hardhat (Cmd.Demo.around ["node_modules".toList] (Cmd.Demo.bytes "  * p (5ms)\n")))) [(Run.Demo.t, [Run.Demo.c1, Run.Demo.c3])] Cmd.Demo.start).2.out).map
        (fun w => (w.warning, String.ofList (w.source.getD []), String.ofList w.msg)) =
    [(.itMessageNotFound, "t.rs:1:1-1:4", "`it` message q was not found during dry run")] := by decide +kernel

end Necessist.Results.Demo
