import Verif.Model.Main
import Verif.Model.Outcome
/-!
# The command line

Models core/src/cli.rs and what clap 4.6 makes of it (from clap's documentation and source: `Parser::get_matches_with`, `parse_long_arg`,
`parse_short_arg`, `react`), and `main` (necessist/src/main.rs:16-34) from its arguments on. Simplifications: arguments are text (clap
refuses one that is not UTF-8 where a path is not expected); messages about usage, help and version are not modelled, only that they are
given. clap parses a value when the next argument is looked at; here it is parsed at once, which makes no difference except to which of
several mistakes is reported.
-/
namespace Necessist.Cli
open Framework (Identifier)

/-- `Debug` of a warning (derived). -/
def debugName : Warning → String
  | .all => "All"
  | .databaseDoesNotExist => "DatabaseDoesNotExist"
  | .directiveUnrecognized => "DirectiveUnrecognized"
  | .dryRunFailed => "DryRunFailed"
  | .filesChanged => "FilesChanged"
  | .ignoredFunctionsUnsupported => "IgnoredFunctionsUnsupported"
  | .ignoredMacrosUnsupported => "IgnoredMacrosUnsupported"
  | .ignoredMethodsUnsupported => "IgnoredMethodsUnsupported"
  | .instrumentationNonbuildable => "InstrumentationNonbuildable"
  | .itMessageNotFound => "ItMessageNotFound"
  | .localFunctionAmbiguous => "LocalFunctionAmbiguous"
  | .modulePathUnknown => "ModulePathUnknown"
  | .optionDeprecated => "OptionDeprecated"
  | .outputInvalid => "OutputInvalid"
  | .parsingFailed => "ParsingFailed"
  | .runTestFailed => "RunTestFailed"
  | .skipFileMispositioned => "SkipFileMispositioned"

/-- `Display for Warning` (core/src/warn.rs:37-41), which is also the name that clap derives. -/
def warningName (w : Warning) : Text := kebab (debugName w).toList

/-- The variants of `Warning` (core/src/warn.rs:17-35), in order. -/
def warnings : List Warning :=
  [.all, .databaseDoesNotExist, .directiveUnrecognized, .dryRunFailed, .filesChanged, .ignoredFunctionsUnsupported,
   .ignoredMacrosUnsupported, .ignoredMethodsUnsupported, .instrumentationNonbuildable, .itMessageNotFound, .localFunctionAmbiguous,
   .modulePathUnknown, .optionDeprecated, .outputInvalid, .parsingFailed, .runTestFailed, .skipFileMispositioned]

/-- The fields of `Opts` of type `bool` (core/src/cli.rs:31-80). -/
inductive Flag where
  | defaultConfig | dump | dumpCandidateCounts | dumpCandidates | findSkill | noLinesOrColumns | noLocalFunctions | noSqlite | quiet
  | reset | resume | verbose | write
deriving DecidableEq, Repr

/-- All of them. -/
def Flag.all : List Flag :=
  [.defaultConfig, .dump, .dumpCandidateCounts, .dumpCandidates, .findSkill, .noLinesOrColumns, .noLocalFunctions, .noSqlite, .quiet,
   .reset, .resume, .verbose, .write]

/-- `#[clap(long)]`: the field's name in kebab case. -/
def Flag.long : Flag → Text
  | .defaultConfig => "default-config".toList
  | .dump => "dump".toList
  | .dumpCandidateCounts => "dump-candidate-counts".toList
  | .dumpCandidates => "dump-candidates".toList
  | .findSkill => "find-skill".toList
  | .noLinesOrColumns => "no-lines-or-columns".toList
  | .noLocalFunctions => "no-local-functions".toList
  | .noSqlite => "no-sqlite".toList
  | .quiet => "quiet".toList
  | .reset => "reset".toList
  | .resume => "resume".toList
  | .verbose => "verbose".toList
  | .write => "write".toList

/-- The options that take a value (core/src/cli.rs:10-76). -/
inductive Valued where
  | allow | checkSkill | deny | framework | root | timeout
deriving DecidableEq, Repr

/-- All of them. -/
def Valued.all : List Valued := [.allow, .checkSkill, .deny, .framework, .root, .timeout]

/-- … and their names. -/
def Valued.long : Valued → Text
  | .allow => "allow".toList
  | .checkSkill => "check-skill".toList
  | .deny => "deny".toList
  | .framework => "framework".toList
  | .root => "root".toList
  | .timeout => "timeout".toList

/-- What clap keeps of an argument that it has recognised (`ArgMatcher`). For `framework`, `none` is `auto`. -/
inductive Entry where
  | flag (f : Flag)
  | allow (w : Warning)
  | deny (w : Warning)
  | checkSkill (path : Text)
  | framework (i : Option Identifier)
  | root (path : Text)
  | timeout (seconds : Nat)
  | file (path : Text)
deriving DecidableEq, Repr

/-- Whether the argument may be given more than once (`ArgAction::Append`, core/src/cli.rs:12, 34, and positional arguments). -/
def Entry.repeats : Entry → Bool
  | .allow _ | .deny _ | .file _ => true
  | _ => false

/-- Whether two entries are of the same argument. -/
def Entry.same : Entry → Entry → Bool
  | .flag f, .flag g => f == g
  | .checkSkill _, .checkSkill _ => true
  | .framework _, .framework _ => true
  | .root _, .root _ => true
  | .timeout _, .timeout _ => true
  | _, _ => false

/-- `react`: an argument that may not be repeated is refused the second time. -/
def record (es : List Entry) (e : Entry) : Option (List Entry) :=
  if !e.repeats && es.any (Entry.same e) then none else some (es ++ [e])

/-- `PathBufValueParser`: the empty path is refused. -/
def readPath (t : Text) : Option Text := if t.isEmpty then none else some t

/-- The values' parsers: those of the enumerations compare names exactly. -/
def Valued.read : Valued → Text → Option Entry
  | .allow, t => (warnings.find? fun w => warningName w == t).map .allow
  | .deny, t => (warnings.find? fun w => warningName w == t).map .deny
  | .checkSkill, t => (readPath t).map .checkSkill
  | .framework, t => (Framework.frameworkEnum.fromStr id t false).map fun
    | .left _ => .framework none
    | .right i => .framework (some i)
  | .root, t => (readPath t).map .root
  | .timeout, t => (parseUsize t).map .timeout

/-- What an argument looks like (`clap_lex`: `is_escape`, `to_long`, `to_short`). -/
inductive Shape where
  /-- `--` -/
  | escape
  /-- `--name` or `--name=value` -/
  | long (name : Text) (value : Option Text)
  /-- `-x…` -/
  | short (first : Char)
  | plain
deriving DecidableEq, Repr

/-- `ParsedArg`: an argument that is just `-` is a plain one. -/
def shape : Text → Shape
  | ['-', '-'] => .escape
  | '-' :: '-' :: r =>
    .long (r.takeWhile (· != '=')) (match r.dropWhile (· != '=') with
      | [] => none
      | _ :: v => some v)
  | '-' :: c :: _ => .short c
  | _ => .plain

/-- How parsing ends. -/
inductive Parsed where
  /-- the arguments before `--`, and those after it -/
  | ok (es : List Entry) (args : List Text)
  | help
  | version
  /-- a usage error -/
  | usage
deriving DecidableEq, Repr

/-- `get_matches_with`. Without `--`, there are no `ARGS` (`last = true`, core/src/cli.rs:84-89). -/
def parse (es : List Entry) : List Text → Parsed
  | [] => .ok es []
  | a :: as =>
    match shape a with
    | .escape => .ok es as
    | .plain => match (readPath a).bind fun p => record es (.file p) with
      | some es => parse es as
      | none => .usage
    | .short c => if c = 'h' then .help else if c = 'V' then .version else .usage
    | .long name value =>
      match Flag.all.find? fun f => f.long == name with
      | some f => match value with
        | some _ => .usage
        | none => match record es (.flag f) with
          | some es => parse es as
          | none => .usage
      | none => match Valued.all.find? fun v => v.long == name with
        | some v => match value with
          | some t => match (v.read t).bind (record es) with
            | some es => parse es as
            | none => .usage
          | none => match as with
            | [] => .usage
            | t :: as => match shape t with
              | .plain => match (v.read t).bind (record es) with
                | some es => parse es as
                | none => .usage
              | _ => .usage
        | none => match value with
          | some _ => .usage
          | none => if name = "help".toList then .help else if name = "version".toList then .version else .usage

/-- How the text of a path is understood (the standard library's `Path`). -/
structure Paths where
  arg : Text → Parse.PathArg
  skill : Text → Skill.Path

/-- `FromArgMatches` (derived), and `From<Opts>` (core/src/cli.rs:92-147) with `framework.unwrap_or_default()` (:121). The arguments after
`--` are kept apart. -/
def toOpts (P : Paths) (es : List Entry) : Main.Opts where
  allow := es.filterMap fun
    | .allow w => some w
    | _ => none
  checkSkill := (es.findSome? fun
    | .checkSkill p => some p
    | _ => none).map P.skill
  defaultConfig := es.contains (.flag .defaultConfig)
  deny := es.filterMap fun
    | .deny w => some w
    | _ => none
  dump := es.contains (.flag .dump)
  dumpCandidateCounts := es.contains (.flag .dumpCandidateCounts)
  dumpCandidates := es.contains (.flag .dumpCandidates)
  findSkill := es.contains (.flag .findSkill)
  framework := (es.findSome? fun
    | .framework i => some i
    | _ => none).getD none
  noLinesOrColumns := es.contains (.flag .noLinesOrColumns)
  noLocalFunctions := es.contains (.flag .noLocalFunctions)
  noSqlite := es.contains (.flag .noSqlite)
  quiet := es.contains (.flag .quiet)
  reset := es.contains (.flag .reset)
  resume := es.contains (.flag .resume)
  root := (es.findSome? fun
    | .root p => some p
    | _ => none).map P.arg
  timeout := es.findSome? fun
    | .timeout n => some n
    | _ => none
  verbose := es.contains (.flag .verbose)
  write := es.contains (.flag .write)
  sourceFiles := es.filterMap fun
    | .file p => some (P.arg p)
    | _ => none

variable {V σ : Type}

/-- `main` (necessist/src/main.rs:16-34): the exit code. The arguments after `--` are for the commands that the frameworks execute (see
`Verif.Model.Commands`), so that what is around the program depends on them. clap exits with 2 after a usage error, and with 0 after
having shown help or its version. -/
def main (P : Paths) (h : List Text → Main.Host V σ) (argv : List Text) (m : Main.Machine σ) : Option Nat × Main.Machine σ :=
  match parse [] argv with
  | .ok es args => Main.main (h args) (toOpts P es) m
  | .help => (some 0, m)
  | .version => (some 0, m)
  | .usage => (some 2, m)

end Necessist.Cli
