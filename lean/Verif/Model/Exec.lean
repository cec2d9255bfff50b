import Verif.Model.Directives
import Verif.Model.Run
/-!
# Deciding whether a test has run

Models the `postprocess` closure of `RunAdapter::exec` (backends/src/running.rs:194-246) and the line predicates of the frameworks
that use it. UTF-8 decoding and the texts of the messages are parameters.
-/
namespace Necessist.Exec

/-- `bstr`'s `byte_lines`: split at line feeds, which are dropped together with a carriage return before them; no empty last line. -/
def byteLines : List UInt8 → List (List UInt8)
  | [] => []
  | c :: cs =>
    let l := (c :: cs).takeWhile (· != 10)
    match h : (c :: cs).drop l.length with
    | [] => [l]
    | _ :: rest =>
      have : rest.length < (c :: cs).length := by
        have := congrArg List.length h; simp at this ⊢; omega
      (if l.getLast? = some 13 then l.dropLast else l) :: byteLines rest
termination_by bs => bs.length

/-- What surrounds the closure. -/
structure Setup where
  warn : WarnOpts
  /-- `str::from_utf8` -/
  decode : List UInt8 → Option Text
  /-- the message for an invalid line (backends/src/running.rs:207) -/
  invalidMsg : List UInt8 → Text
  /-- the rest of the message for a test that did not run: the captured output (backends/src/running.rs:231-241) -/
  outputText : Text
  /-- the span, displayed -/
  source : Text
  test : Text
  /-- `init` (backends/src/running.rs:182) -/
  init : Bool
  /-- `f` (backends/src/running.rs:182) -/
  pred : Text → Bool

/-- What has been printed, and the warning states. -/
structure Out where
  printed : List WarnMsg
  warns : WStates

/-- The warning about a line that is not UTF-8 (backends/src/running.rs:203-209). -/
def invalidCall (s : Setup) (l : List UInt8) : WarnCall := ⟨.outputInvalid, some s.source, s.invalidMsg l, false⟩

/-- The warning about a test that was not run (backends/src/running.rs:238-244). -/
def notRunCall (s : Setup) : WarnCall :=
  ⟨.runTestFailed, some s.source, "failed to run test `".toList ++ s.test ++ "`: ".toList ++ s.outputText, false⟩

/-- The `try_fold` (backends/src/running.rs:198-216). -/
def foldLines (s : Setup) : List (List UInt8) → Bool → Out → Res Run.Err Bool × Out
  | [], prev, o => (.ok prev, o)
  | l :: ls, prev, o =>
    match s.decode l with
    | some line => foldLines s ls (if s.init then prev && s.pred line else prev || s.pred line) o
    | none =>
      match warnStep s.warn o.warns (invalidCall s l) with
      | none => (.err .denied, { o with warns := (warnInternal s.warn o.warns (invalidCall s l)).2 })
      | some (ms, st) => foldLines s ls prev ⟨o.printed ++ ms, st⟩

/-- The closure (backends/src/running.rs:194-246). `status` is the exit code of the test, `none` if it has none (ended by a signal).
Not modelled: reading the temporary files failing, and the debugging aid `NECESSIST_CHECK_MTIMES`. -/
def postprocess (s : Setup) (stdout : List UInt8) (status : Option Nat) (o : Out) : Res Run.Err Bool × Out :=
  match foldLines s (byteLines stdout) s.init o with
  | (.ok true, o) => (.ok true, o)
  | (.ok false, o) =>
    match status with
    | none => (.err .backend, o)
    | some _ =>
      match warnStep s.warn o.warns (notRunCall s) with
      | none => (.err .denied, { o with warns := (warnInternal s.warn o.warns (notRunCall s)).2 })
      | some (ms, st) => (.ok false, ⟨o.printed ++ ms, st⟩)
  | r => r

/-- The predicate of the Rust framework, with `init` false (backends/src/rust/mod.rs:675). -/
def rustRan (line : Text) : Bool := line == "running 1 test".toList
/-- The predicate of the Go framework, with `init` false (backends/src/go/mod.rs:527-532). -/
def goRan (test line : Text) : Bool := line == "=== RUN   ".toList ++ test
/-- `str::contains`. -/
def contains (needle : Text) : Text → Bool
  | [] => needle.isEmpty
  | c :: cs => needle.isPrefixOf (c :: cs) || contains needle cs
/-- The predicate of the Foundry framework, with `init` false (backends/src/foundry/mod.rs:461-466). -/
def foundryRan (test line : Text) : Bool := contains (' ' :: test ++ ['(']) line

end Necessist.Exec
