import Verif.Spec.Main
/-!
# The notices about files (specification)

While it runs, the program says which file it is working on.
-/
namespace Necessist.Run

/-- A notice: the tests of the file are run as they are, or its statements and method calls are about to be removed. -/
inductive Notice where
  | dryRunning (f : SourceFile)
  | mutilating (f : SourceFile)
deriving DecidableEq, Repr

/-- The dry runs that took place, in order: a dry run, and that it failed. -/
def dryRunEvents (tr : List Snap) : List Event := tr.filterMap fun s => match s.event with
  | .dryRun f => some (.dryRun f)
  | .dryRunFailed f => some (.dryRunFailed f)
  | _ => none

/-- What happens in dry runs of these files, where the flag says whether the dry run fails. -/
def dryRunsOf (files : List (SourceFile × Bool)) : List Event := files.flatMap fun x => .dryRun x.1 :: (if x.2 then [.dryRunFailed x.1] else [])

/-- The notices about these files. -/
def noticesOf (files : List (SourceFile × Bool)) : List Notice := files.flatMap fun x => .dryRunning x.1 :: (if x.2 then [] else [.mutilating x.1])

/-- What is said of a run, given whether it completed: a notice before each dry run, and one after each that did not fail; if the run is broken
off, the last one may be missing. -/
def NoticesFor (quiet done : Bool) (events : List Snap) (notices : List Notice) : Prop :=
  quiet = true ∧ notices = [] ∨ quiet = false ∧ ∃ files, dryRunEvents events = dryRunsOf files ∧
    (notices = noticesOf files ∨ done = false ∧ ∃ f, noticesOf files = notices ++ [.mutilating f])

end Necessist.Run

namespace Necessist.Main

/-- The notices among what is printed. -/
def noticesIn (ms : List Msg) : List Run.Notice := ms.filterMap fun x => match x with
  | .dryRunning f => some (.dryRunning f)
  | .mutilating f => some (.mutilating f)
  | _ => none

end Necessist.Main
