import Verif.Props.UnknownModulesMain
import Verif.Props.RustVisitorDemo
import Verif.Props.SourcesDemo
/-! C85: examples. -/
namespace Necessist.Sources.UnknownDemo
open Framework (Identifier)
open Parse Run Main
open Rs (Syn)
open Rs.Demo (ex call test func items id')
open Walk.Demo (file dir)

/-- A file that is neither in `src` nor in `tests`. -/
def bench : SourceFile := ⟨["examples".toList, "b.rs".toList]⟩
/-- A file of the library. -/
def lib : SourceFile := ⟨["src".toList, "a.rs".toList]⟩

/-- ```rust
#[test]
fn two() { foo(); bar(); }
fn helper() { fn local() {} }
mod tests {
    #[test]
    fn one() { foo(); bar(); }
    mod more { #[test] fn two() {} }
}
``` -/
def tree : Syn := items
  [test 1 "two" [ex 2 (call 2 (id' 2 "foo")), ex 3 (call 3 (id' 3 "bar"))],
   func 4 "helper" [.item (Visit.Demo.sp 5 0 9) (func 5 "local" [ex 5 (call 5 (id' 5 "foo"))])],
   .mod_ (Visit.Demo.sp 6 0 9) "tests".toList [
    test 7 "one" [ex 8 (call 8 (id' 8 "foo")), ex 9 (call 9 (id' 9 "bar"))],
    .mod_ (Visit.Demo.sp 10 0 9) "more".toList [test 11 "two" []]]]

def disk : Walk.Entry := dir "" [dir "p" [file "Cargo.toml", dir "examples" [file "b.rs"], dir "src" [file "a.rs"]]]

def parsers : Parsers where
  root := ["p".toList]
  contents _ := []
  sol _ := .error []
  solKey _ := 0
  solFaux := 0
  solFnKey _ := 0
  go _ := .error []
  php _ := .error []
  js _ := .error []
  jsKey _ := 0
  rs f := if f = bench then .ok tree else if f = lib then .ok (items []) else .error []
  rsKey := Rs.Demo.key
  rsBkey := Rs.Demo.bkey
  cargo := Rust.Demo.answers
  args := []

def fw (i : Identifier) : Fw (Nat × Nat) where
  backend := { Parse.Demo.proj [] [] with
    kind := Walk.kindOf disk (Walk.walkerOf false i) Walk.Demo.rule
    parseFile := fileAst parsers i
    builtins := builtinsOf i
    receiver := walksReceiver i
    fields := walksFields i
    alnum := Char.isAlphanum }
  env := (Main.Demo.fwAt 99).env
  parsed := id

def host : Host Nat (Nat × Nat) := { Main.Demo.host with
  exists_ := fun t => .ok (t == "Cargo.toml".toList)
  impl := fun _ i => .ok (some (fw i)) }

def machine : Machine (Nat × Nat) := { Main.Demo.machine with fs := parsers.contents }

/-- The two messages: one of the test `one`, and one of both tests `two`. -/
example : (main host {} machine).1 = some 0 ∧ (newWarnings machine (main host {} machine).2).map (fun w => (w.warning, String.ofList w.msg)) =
    [(.modulePathUnknown, "failed to determine module path for test `one`: [\n" ++
      "    failed to determine relative path of source file \"/p/examples/b.rs\",\n]"),
     (.modulePathUnknown, "failed to determine module path for test `two`: [\n" ++
      "    failed to determine relative path of source file \"/p/examples/b.rs\",\n" ++
      "    failed to determine relative path of source file \"/p/examples/b.rs\",\n]")] := by decide +kernel

theorem implements : Implements parsers host {} machine disk false Walk.Demo.rule Char.isAlphanum where
  root := rfl
  contents := rfl
  impl i f h := by
    have h : (Except.ok (some (fw i)) : Except Text (Option (Fw (Nat × Nat)))) = .ok (some f) := h
    cases h
    exact ⟨rfl, rfl, rfl, rfl, rfl, rfl⟩

/-- The hypothesis about the framework is met. -/
theorem sound (o : Opts) : Sound host o := by
  intro ext i f hi
  have hi : (Except.ok (some (fw i)) : Except Text (Option (Fw (Nat × Nat)))) = .ok (some f) := hi
  cases hi
  refine ⟨⟨?_, ?_, ?_, ?_, ?_, ?_, ?_, ?_, ?_, ?_, ?_⟩, fun g ast hp => fileAst_kinds hp⟩
  · exact fun w f => ⟨rfl, rfl⟩
  · exact fun w f => Reply.Mute.honest ⟨rfl, rfl⟩
  · exact fun w f n => Reply.Mute.honest ⟨rfl, rfl⟩
  · exact fun w s => Reply.Mute.honest ⟨rfl, rfl⟩
  · exact fun w f => ⟨rfl, rfl⟩
  · exact fun w t s => Reply.Mute.honest ⟨rfl, rfl⟩
  · exact fun w t s v => Reply.Mute.honest ⟨rfl, rfl⟩
  · exact fun w => Reply.Mute.honest ⟨rfl, rfl⟩
  · exact fun w => Reply.Mute.honest ⟨rfl, rfl⟩
  · exact fun w => Reply.Mute.honest ⟨rfl, rfl⟩
  · exact fun w s => Reply.Mute.honest ⟨rfl, rfl⟩

/-- The hypotheses of `C85_program` are met. -/
example : Implements parsers host {} machine disk false Walk.Demo.rule Char.isAlphanum ∧ Sound host {} ∧ machine.warns = .init ∧
    LooksForCandidates {} ∧ (main host {} machine).1 = some 0 ∧ ({} : Opts).quiet = false ∧
    ¬ Allowed ({} : Opts).warn .modulePathUnknown ∧ Walk.Chosen host {} .rust :=
  ⟨implements, sound _, rfl, ⟨rfl, rfl, rfl, rfl⟩, by decide +kernel, rfl, by simp [Allowed, Opts.warn], .inr ⟨rfl, rfl⟩⟩

/-- The hypotheses of `C85_visit` are met. -/
example : Rs.Regular parsers.rsBkey tree ∧ Rust.Stable Rust.Demo.cargo parsers.cargo ∧
    (∃ fl, parsers.cargo.flags (parsers.path bench) = .ok fl) ∧ (∃ e, parsers.cargo.fsModulePath (parsers.path bench) = .error e) ∧
    Rs.HasTests tree ["two".toList, "one".toList, "two".toList] := by
  refine ⟨Rs.regular_of (by decide +kernel) (by decide +kernel), ⟨fun _ _ => rfl, fun _ _ => rfl⟩, ?_, ?_, ?_⟩
  · exact Rs.Demo.okOf_some (by decide +kernel)
  · have h : Rs.Demo.okOf (parsers.cargo.fsModulePath (parsers.path bench)) = none := by decide +kernel
    cases he : parsers.cargo.fsModulePath (parsers.path bench) with
    | ok a => rw [he] at h; cases h
    | error e => exact ⟨e, rfl⟩
  · have : Rs.testFns tree = ["two".toList, "one".toList, "two".toList] := by decide +kernel
    exact this ▸ Rs.hasTests tree

end Necessist.Sources.UnknownDemo
