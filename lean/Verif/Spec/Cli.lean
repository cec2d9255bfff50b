import Verif.Model.Main
import Verif.Model.Cli
/-!
# What a command line says

A specification of `necessist [OPTIONS] [TEST_FILES_OR_DIRS]... [-- <ARGS>...]`. Of the model, only the record of the options that the program
is then run with (`Main.Opts`) and how the texts of paths are understood (`Cli.Paths`, arbitrary) are used.
-/
namespace Necessist.Cli
open Framework (Identifier)

/-- What is written on a command line before `--`, piece by piece. -/
inductive Item where
  /-- `--name` -/
  | flag (name : Text)
  /-- `--name=value` or `--name value` -/
  | option (name value : Text) (joined : Bool)
  | file (path : Text)
deriving DecidableEq

/-- How it is written. -/
def Item.words : Item → List Text
  | .flag n => ["--".toList ++ n]
  | .option n v true => ["--".toList ++ n ++ "=".toList ++ v]
  | .option n v false => ["--".toList ++ n, v]
  | .file p => [p]

/-- The options without a value, and what they set. -/
def flags : List (Text × (Main.Opts → Bool)) :=
  [("default-config".toList, (·.defaultConfig)),
   ("dump".toList, (·.dump)),
   ("dump-candidate-counts".toList, (·.dumpCandidateCounts)),
   ("dump-candidates".toList, (·.dumpCandidates)),
   ("find-skill".toList, (·.findSkill)),
   ("no-lines-or-columns".toList, (·.noLinesOrColumns)),
   ("no-local-functions".toList, (·.noLocalFunctions)),
   ("no-sqlite".toList, (·.noSqlite)),
   ("quiet".toList, (·.quiet)),
   ("reset".toList, (·.reset)),
   ("resume".toList, (·.resume)),
   ("verbose".toList, (·.verbose)),
   ("write".toList, (·.write))]

/-- The warnings' names. -/
def called : Warning → Text
  | .all => "all".toList
  | .databaseDoesNotExist => "database-does-not-exist".toList
  | .directiveUnrecognized => "directive-unrecognized".toList
  | .dryRunFailed => "dry-run-failed".toList
  | .filesChanged => "files-changed".toList
  | .ignoredFunctionsUnsupported => "ignored-functions-unsupported".toList
  | .ignoredMacrosUnsupported => "ignored-macros-unsupported".toList
  | .ignoredMethodsUnsupported => "ignored-methods-unsupported".toList
  | .instrumentationNonbuildable => "instrumentation-nonbuildable".toList
  | .itMessageNotFound => "it-message-not-found".toList
  | .localFunctionAmbiguous => "local-function-ambiguous".toList
  | .modulePathUnknown => "module-path-unknown".toList
  | .optionDeprecated => "option-deprecated".toList
  | .outputInvalid => "output-invalid".toList
  | .parsingFailed => "parsing-failed".toList
  | .runTestFailed => "run-test-failed".toList
  | .skipFileMispositioned => "skip-file-mispositioned".toList

/-- The frameworks' names; `none` is that no framework is chosen. -/
def frameworkCalled : Option Identifier → Text
  | none => "auto".toList
  | some .anchor => "anchor".toList
  | some .foundry => "foundry".toList
  | some .go => "go".toList
  | some .hardhat => "hardhat".toList
  | some .php => "php".toList
  | some .rust => "rust".toList
  | some .vitest => "vitest".toList

/-- A number of 64 bits in decimal, possibly after `+`. -/
def Number (t : Text) (n : Nat) : Prop :=
  ∃ ds, (t = ds ∨ t = '+' :: ds) ∧ ds ≠ [] ∧ (∀ c ∈ ds, '0' ≤ c ∧ c ≤ '9') ∧
    n = ds.foldl (fun n c => 10 * n + (c.toNat - '0'.toNat)) 0 ∧ n < 2 ^ 64

/-- Looks like an option. (`-` alone does not.) -/
def Dashed (t : Text) : Prop := ∃ c r, t = '-' :: c :: r

/-- What can be the value of an option. -/
def Value (name value : Text) : Prop :=
  (name = "allow".toList ∧ ∃ w, value = called w) ∨
  (name = "deny".toList ∧ ∃ w, value = called w) ∨
  (name = "framework".toList ∧ ∃ i, value = frameworkCalled i) ∨
  (name = "timeout".toList ∧ ∃ n, Number value n) ∨
  (name = "root".toList ∧ value ≠ []) ∨
  (name = "check-skill".toList ∧ value ≠ [])

/-- A piece is in order. -/
def Item.Fine : Item → Prop
  | .flag n => n ∈ flags.map Prod.fst
  | .option n v joined => Value n v ∧ (joined = false → ¬ Dashed v)
  | .file p => p ≠ [] ∧ ¬ Dashed p

/-- Its name. -/
def Item.name? : Item → Option Text
  | .flag n => some n
  | .option n _ _ => some n
  | .file _ => none

/-- Only `--allow`, `--deny` and files are given more than once. -/
def Once (items : List Item) : Prop :=
  ∀ n, n ≠ "allow".toList → n ≠ "deny".toList → (items.filter fun i => i.name? == some n).length ≤ 1

/-- The values given to an option, in order. -/
def valuesOf (name : Text) (items : List Item) : List Text :=
  items.filterMap fun
    | .option n v _ => if n = name then some v else none
    | _ => none

/-- The files, in order. -/
def filesOf (items : List Item) : List Text :=
  items.filterMap fun
    | .file p => some p
    | _ => none

/-- What the pieces say. -/
structure Says (P : Paths) (items : List Item) (o : Main.Opts) : Prop where
  flags : ∀ f ∈ flags, f.2 o = true ↔ .flag f.1 ∈ items
  allow : valuesOf "allow".toList items = o.allow.map called
  deny : valuesOf "deny".toList items = o.deny.map called
  checkSkill : o.checkSkill = ((valuesOf "check-skill".toList items).head?).map P.skill
  root : o.root = ((valuesOf "root".toList items).head?).map P.arg
  framework : (valuesOf "framework".toList items = [] ∧ o.framework = none) ∨ valuesOf "framework".toList items = [frameworkCalled o.framework]
  timeout : (valuesOf "timeout".toList items = [] ∧ o.timeout = none) ∨
    ∃ t n, valuesOf "timeout".toList items = [t] ∧ Number t n ∧ o.timeout = some n
  files : o.sourceFiles = (filesOf items).map P.arg

/-- A command line says that the program be run with the options `o`, and `args` after `--`. -/
def CommandLine (P : Paths) (argv : List Text) (o : Main.Opts) (args : List Text) : Prop :=
  ∃ items rest, argv = items.flatMap Item.words ++ rest ∧ (rest = [] ∧ args = [] ∨ rest = "--".toList :: args) ∧
    (∀ i ∈ items, i.Fine) ∧ Once items ∧ Says P items o

/-- A command line asks for help or the version, with nothing wrong before that. -/
def AsksForHelp (argv : List Text) : Prop :=
  ∃ items w rest, argv = items.flatMap Item.words ++ w :: rest ∧ (∀ i ∈ items, i.Fine) ∧ Once items ∧
    (w = "--help".toList ∨ w = "--version".toList ∨ "-h".toList <+: w ∨ "-V".toList <+: w)

end Necessist.Cli
