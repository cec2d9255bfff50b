import Verif.Model.Text
/-!
# Option compatibility

Models `process_options` (core/src/core.rs:435-504).
-/
namespace Necessist

/-- The options that take part in compatibility checks (fields of `Necessist`, core/src/core.rs:88-111). -/
inductive Opt where
  | checkSkill | defaultConfig | dump | dumpCandidates | dumpCandidateCounts | findSkill | reset | resume
  | noSqlite | quiet | verbose | write
deriving DecidableEq, Repr

/-- Option values. `IsSet` (core/src/core.rs:435-449) reduces a `bool` to itself and an `Option` to `is_some`, so
an options record is, for this purpose, the set of options that are set. -/
abbrev OptSet := Opt → Bool

/-- Result of option processing: accepted, refused because of two named options, or refused because `--write` was
used alone. -/
inductive OptResult where
  | ok
  | incompatible (x y : Opt)
  | writeAlone
deriving DecidableEq, Repr

/-- The `incompatible!` macro (core/src/core.rs:451-467): the first option is compared with each that follows;
then recurse on the rest. Returns the first offending pair. -/
def incompatible (o : OptSet) : List Opt → Option (Opt × Opt)
  | [] => none
  | x :: ys =>
    match ys.find? (fun y => o x && o y) with
    | some y => some (x, y)
    | none => incompatible o ys

/-- The argument lists of the four invocations of `incompatible!` (core/src/core.rs:471-497). -/
def incompatibleLists : List (List Opt) :=
  [[.checkSkill, .defaultConfig, .dump, .dumpCandidates, .dumpCandidateCounts, .findSkill, .reset, .resume],
   [.dump, .noSqlite, .reset, .resume],
   [.checkSkill, .dump, .dumpCandidates, .dumpCandidateCounts, .findSkill, .quiet],
   [.quiet, .verbose]]

/-- `process_options` (core/src/core.rs:469-504). -/
def processOptions (o : OptSet) : OptResult :=
  match incompatibleLists.findSome? (incompatible o) with
  | some (x, y) => .incompatible x y
  | none => if o .write && !o .checkSkill && !o .findSkill then .writeAlone else .ok

end Necessist
