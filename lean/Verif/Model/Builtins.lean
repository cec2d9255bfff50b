import Verif.Model.Config
import Verif.Model.Framework
/-!
# What the frameworks ignore by themselves

Models the constants `IGNORED_FUNCTIONS`, `IGNORED_MACROS` and `IGNORED_METHODS` of the implementations of `ParseLow`.
-/
namespace Necessist
open Framework (Identifier)

/-- `IGNORED_FUNCTIONS` (backends/src/foundry/mod.rs:150-167, go/mod.rs:229-230, php/mod.rs:258-259, rust/mod.rs:343,
ts/inner/mod.rs:267-268; the latter is what Anchor, Hardhat and Vitest use). -/
def builtinFunctions : Identifier → Option (List String)
  | .foundry => some ["assert*", "console.log*", "console2.log*", "vm.expect*", "vm.getLabel", "vm.label", "vm.startSnapshotGas",
      "vm.stopSnapshotGas"]
  | .go => some ["assert.*", "panic", "require.*"]
  | .php => some ["var_dump", "print_r", "var_export"]
  | .rust => some []
  | .anchor | .hardhat | .vitest => some ["assert", "assert.*", "console.*", "expect"]

/-- `IGNORED_MACROS` (backends/src/foundry/mod.rs:169, go/mod.rs:232, php/mod.rs:261, rust/mod.rs:345-363, ts/inner/mod.rs:270). -/
def builtinMacros : Identifier → Option (List String)
  | .rust => some ["assert", "assert_eq", "assert_matches", "assert_ne", "dbg", "debug", "eprint", "eprintln", "error", "info", "panic",
      "print", "println", "trace", "unimplemented", "unreachable", "warn"]
  | .foundry | .go | .php | .anchor | .hardhat | .vitest => none

/-- `IGNORED_METHODS` (backends/src/foundry/mod.rs:171, go/mod.rs:234-237, php/mod.rs:263-269, rust/mod.rs:365-409,
ts/inner/mod.rs:272). -/
def builtinMethods : Identifier → Option (List String)
  | .foundry => some []
  | .go => some ["Close", "Error", "Errorf", "Fail", "FailNow", "Fatal", "Fatalf", "Helper", "Log", "Logf", "Parallel", "Skip", "Skipf",
      "SkipNow"]
  | .php => some ["assert*", "expect*", "fail", "markTestIncomplete", "markTestSkipped"]
  | .rust => some ["as_bytes", "as_encoded_bytes", "as_mut", "as_mut_os_str", "as_mut_os_string", "as_mut_slice", "as_mut_str",
      "as_os_str", "as_path", "as_ref", "as_slice", "as_str", "borrow", "borrow_mut", "clone", "cloned", "copied", "deref", "deref_mut",
      "expect", "expect_err", "into_boxed_bytes", "into_boxed_os_str", "into_boxed_path", "into_boxed_slice", "into_boxed_str",
      "into_bytes", "into_encoded_bytes", "into_os_string", "into_owned", "into_path_buf", "into_string", "into_vec", "iter", "iter_mut",
      "success", "to_os_string", "to_owned", "to_path_buf", "to_string", "to_vec", "unwrap", "unwrap_err"]
  | .anchor | .hardhat | .vitest => some ["toNumber", "toString"]

/-- What `ParseAdapter` finds in the constants of a framework. -/
def builtinsOf (i : Identifier) : Builtins :=
  ⟨(builtinFunctions i).map (·.map String.toList), (builtinMacros i).map (·.map String.toList),
    (builtinMethods i).map (·.map String.toList)⟩

end Necessist
