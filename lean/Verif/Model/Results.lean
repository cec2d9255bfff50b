import Verif.Model.Commands
import Verif.Model.Framework
/-!
# Which framework executes commands in which way
-/
namespace Necessist.Cmd
open Framework (Identifier)

/-- `to_implementation` (backends/src/lib.rs:86-117), as far as it is about executing commands: Foundry, Go, PHP and Rust go through
`RunAdapter` (backends/src/lib.rs:163-191), Anchor, Hardhat and Vitest do not. `caches` are Rust's after parsing; `parse` is `str::parse::<Value>`. -/
def highOf {σ} (x : Around σ) (caches : Rust.Caches) (parse : Text → Option Json) : Identifier → High σ
  | .anchor => anchor x parse
  | .foundry => adapter x (foundry x)
  | .go => adapter x (go x)
  | .hardhat => hardhat x
  | .php => adapter x (php x)
  | .rust => adapter x (rust caches)
  | .vitest => vitest x parse

end Necessist.Cmd
