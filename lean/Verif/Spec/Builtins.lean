import Verif.Model.Builtins
import Verif.Spec.Config
/-!
# What is ignored, according to the documentation (README.md:271-470)
-/
namespace Necessist
open Framework (Identifier)

/-- An entry of the documentation. -/
inductive DocEntry where
  /-- just this name -/
  | name (s : String)
  /-- “Anything beginning with …” -/
  | beginning (s : String)
deriving DecidableEq

/-- The entry is about this name. (What follows a beginning has no line breaks, like all names.) -/
def DocEntry.Says : DocEntry → Text → Prop
  | .name s, n => n = s.toList
  | .beginning s, n => ∃ rest, '\n' ∉ rest ∧ n = s.toList ++ rest

namespace Readme

/-- “Ignored functions” of Anchor. (Those of Hardhat and Vitest “are the same as for Anchor above”.) -/
def anchorFunctions : List DocEntry := [.name "assert", .beginning "assert.", .beginning "console.", .name "expect"]

/-- “Ignored functions” -/
def functions : Identifier → List DocEntry
  | .anchor => anchorFunctions
  | .foundry => [.beginning "assert", .beginning "vm.expect", .beginning "console.log", .beginning "console2.log", .name "vm.getLabel",
      .name "vm.label", .name "vm.startSnapshotGas", .name "vm.stopSnapshotGas"]
  | .go => [.beginning "assert.", .beginning "require.", .name "panic"]
  | .hardhat => anchorFunctions
  | .php => [.name "var_dump", .name "print_r", .name "var_export"]
  | .rust => []
  | .vitest => anchorFunctions

/-- “Ignored macros” -/
def macros : Identifier → List DocEntry
  | .rust => [.name "assert", .name "assert_eq", .name "assert_matches", .name "assert_ne", .name "dbg", .name "debug", .name "eprint",
      .name "eprintln", .name "error", .name "info", .name "panic", .name "print", .name "println", .name "trace", .name "unimplemented",
      .name "unreachable", .name "warn"]
  | _ => []

/-- “Ignored methods” of Anchor. (Those of Hardhat and Vitest “are the same as for Anchor above”.) -/
def anchorMethods : List DocEntry := [.name "toNumber", .name "toString"]

/-- “Ignored methods” -/
def methods : Identifier → List DocEntry
  | .anchor => anchorMethods
  | .foundry => []
  | .go => [.name "Close", .name "Error", .name "Errorf", .name "Fail", .name "FailNow", .name "Fatal", .name "Fatalf", .name "Helper",
      .name "Log", .name "Logf", .name "Parallel", .name "Skip", .name "Skipf", .name "SkipNow"]
  | .hardhat => anchorMethods
  | .php => [.beginning "assert", .beginning "expect", .name "fail", .name "markTestIncomplete", .name "markTestSkipped"]
  | .rust => [.name "as_bytes", .name "as_encoded_bytes", .name "as_mut", .name "as_mut_os_str", .name "as_mut_os_string",
      .name "as_mut_slice", .name "as_mut_str", .name "as_os_str", .name "as_path", .name "as_ref", .name "as_slice", .name "as_str",
      .name "borrow", .name "borrow_mut", .name "clone", .name "cloned", .name "copied", .name "deref", .name "deref_mut", .name "expect",
      .name "expect_err", .name "into_boxed_bytes", .name "into_boxed_os_str", .name "into_boxed_path", .name "into_boxed_slice",
      .name "into_boxed_str", .name "into_bytes", .name "into_encoded_bytes", .name "into_os_string", .name "into_owned",
      .name "into_path_buf", .name "into_string", .name "into_vec", .name "iter", .name "iter_mut", .name "success", .name "to_os_string",
      .name "to_owned", .name "to_path_buf", .name "to_string", .name "to_vec", .name "unwrap", .name "unwrap_err"]
  | .vitest => anchorMethods

end Readme

end Necessist
