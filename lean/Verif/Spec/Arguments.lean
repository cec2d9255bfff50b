import Verif.Spec.Results
import Verif.Spec.Cli
/-!
# What becomes of the arguments after `--` (specification)
-/
namespace Necessist.Results
open Cmd
open Cache (Path)

/-- The command is for installing dependencies in the project's root. -/
def Installs (root : Path) (cmd : Command) : Prop :=
  cmd.dir = some root ∧
  (cmd.program = "composer".toList ∧ cmd.args = ["install".toList] ∨ cmd.program = "pnpm".toList ∧ cmd.args = ["install".toList] ∨
    cmd.program = "yarn".toList ∧ cmd.args = [] ∨ cmd.program = "npm".toList ∧ cmd.args = ["install".toList])

/-- The command was executed to its end, or was run as a test. -/
def WasExecuted (ran : List Ran) (cmd : Command) : Prop := (∃ o, .ran cmd o ∈ ran) ∨ ∃ p, .started cmd p ∈ ran

end Necessist.Results
