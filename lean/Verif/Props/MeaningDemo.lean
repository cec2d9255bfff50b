import Verif.Props.Meaning
import Verif.Props.SourcesDemo
import Verif.Props.CommandsDemo
/-!
# What a result means: an example (C80)
-/
namespace Necessist.Results.Demo
open Framework (Identifier)
open Run Main Cmd Sources Sources.Demo

/-- `/p`, where all commands succeed, and tests print that they ran, take 10 ms, and pass only without `v += one;`. -/
def around : Around (Nat × Nat) := { Cmd.Demo.around [] (Cmd.Demo.bytes "=== RUN   TestA\n") with
  output := fun w _ => ⟨.ok ⟨true, []⟩, w.warns, w.ext, []⟩
  spawn := fun w c => ⟨.ok ⟨false, some 10, c.vars.any fun p => p.2 == "a_test.go:2:1-2:10".toList⟩, w.warns, w.ext, []⟩ }

def noJson (_ : Text) : Option Json := none

/-- Nothing was executed so far. -/
def idle : St (Nat × Nat) := ⟨[], none, ItMessage.Table.init, none, (0, 0)⟩

/-- The framework of `Sources.Demo`, which executes commands. -/
def fw (i : Identifier) : Fw (St (Nat × Nat)) where
  backend := (Sources.Demo.fw i).backend
  env := inRun around (highOf around {} noJson i)
  parsed := id

def host : Host Nat (St (Nat × Nat)) where
  skill := Skill.Demo.world
  home := some ["h".toList]
  currentDir := some ["p".toList]
  canonicalize p := some p.components
  lockFails _ := false
  configStatFails := false
  configWriteFails := none
  dbFaults := ⟨false, false, false, false, false⟩
  unreadable _ := none
  exists_ t := .ok (t == "go.mod".toList)
  impl _ i := .ok (some (fw i))
  chosen := id
  ident := Span.display
  paint o := o.display

def machine : Machine (St (Nat × Nat)) where
  skills := Skill.Demo.fs
  config := .absent
  db := .absent
  fs := parsers.contents
  ext := idle
  warns := .init
  console := []
  trace := []
  progress := 0

/-- What the program prints and records, and what it executes: a dry run; then the instrumented file is built; and for each of the two candidates the test is built and started, and
its output looked at. -/
example : (main host { verbose := true } machine).1 = some 0 := by decide +kernel
example : (main host { verbose := true } machine).2.console.map Main.Demo.Msg.show =
    ["warning", "2 candidates in 1 test in 1 source file", "dry running a_test.go", "mutilating a_test.go",
      "a_test.go:2:1-2:10: `v += one;` passed", "a_test.go:3:1-3:10: `foo(bar);` failed"] := by decide +kernel
example : (main host { verbose := true } machine).2.db = .table
    [⟨"a_test.go:2:1-2:10".toList, "v += one;".toList, "passed".toList, []⟩,
      ⟨"a_test.go:3:1-3:10".toList, "foo(bar);".toList, "failed".toList, []⟩] := by decide +kernel
example : Cmd.Demo.shown (main host { verbose := true } machine).2.ext.ran =
    [("go", ["test", "./", "-x"]), ("go", ["test", "./", "-run=^$", "-x"]),
     ("go", ["test", "./", "-run=^$", "-x"]), ("$", ["test", "./", "-run=^TestA$", "-v", "-x"]), ("<", []),
     ("go", ["test", "./", "-run=^$", "-x"]), ("$", ["test", "./", "-run=^TestA$", "-v", "-x"]), ("<", [])] := by decide +kernel

theorem impl_eq {e i f} (h : host.impl e i = .ok (some f)) : f = fw i := by
  have h : (Except.ok (some (fw i)) : Except Text (Option (Fw (St (Nat × Nat))))) = .ok (some f) := h
  cases h; rfl

theorem implements (o : Opts) (ho : o.root = none) :
    Sources.Implements parsers host o machine Walk.Demo.disk false Walk.Demo.rule Char.isAlphanum where
  root := by simp [rootOf, ho, host, parsers]
  contents := rfl
  impl i f h := by
    rw [impl_eq h]
    exact ⟨rfl, rfl, rfl, rfl, rfl, rfl⟩

theorem locates : Locates host := fun _ _ _ h => ⟨parsers, located, by rw [impl_eq h]; rfl⟩

theorem executes (o : Opts) (ho : o.framework = none) :
    Executes parsers host o machine Walk.Demo.disk false Walk.Demo.rule Char.isAlphanum around {} noJson where
  root := rfl
  dir := ⟨_, rfl, _, _, Or.inl rfl⟩
  env i f h := by rw [impl_eq h]; rfl
  fresh i f h := by rw [impl_eq h]; exact ⟨rfl, rfl⟩
  flags hch := by
    rcases hch with h | ⟨_, h⟩
    · rw [ho] at h; cases h
    · have h : (Except.ok ("Cargo.toml".toList == "go.mod".toList) : Except Text Bool) = .ok true := h
      exact absurd (by simpa using h) (by decide : ¬ "Cargo.toml".toList = "go.mod".toList)

/-- The hypotheses of `C80_recorded`, `C80_printed` and `C80_complete` are met. -/
example : ∃ o : Opts, Locates host ∧ Sources.Implements parsers host o machine Walk.Demo.disk false Walk.Demo.rule Char.isAlphanum ∧
    Executes parsers host o machine Walk.Demo.disk false Walk.Demo.rule Char.isAlphanum around {} noJson ∧ RunsTests o ∧
    processOptions o.set = .ok ∧ (∃ root fw nTests map ws st, FindsCandidates host o machine root fw nTests map ws st) ∧
    o.noSqlite = false ∧ machine.db = .absent ∧ (main host o machine).1 = some 0 ∧ Walk.Chosen host o .go ∧
    planOf (projectOf around) (flagsOf parsers) noJson .go = goPlan (projectOf around) ∧
    Toml.read host.configStatFails machine.config = .ok {} ∧ Configures Char.isAlphanum .go {} config ∧ Usual parsers .go config file ∧
    ∃ d, Searched host o machine parsers Walk.Demo.disk false Walk.Demo.rule Char.isAlphanum .go file d ∧
      Due parsers .go config d file .statement first.attr.span testA := by
  have hrun : RunsTests { verbose := true } := ⟨⟨rfl, rfl, rfl, rfl⟩, rfl, rfl⟩
  have hx : (main host { verbose := true } machine).1 = some 0 := by decide +kernel
  obtain ⟨root, fw, nT, map, ws, st, hf, _⟩ := zero_runs hrun hx
  obtain ⟨d, h1, h2, h3⟩ := says
  exact ⟨{ verbose := true }, locates, implements _ rfl, executes _ rfl, hrun, by decide +kernel, ⟨root, fw, nT, map, ws, st, hf⟩, rfl, rfl, hx,
    Or.inr ⟨rfl, rfl⟩, rfl, rfl, configures, usual, d, ⟨⟨_, Or.inl ⟨rfl, rfl⟩, looks⟩, rfl, h1, h2⟩, due h3⟩

end Necessist.Results.Demo
