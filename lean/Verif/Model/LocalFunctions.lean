import Verif.Model.Visitor
/-!
# Local functions by name

The map that `local_functions` returns (backends/src/parsing.rs:112-121), as TypeScript's and Rust's front ends build it.
-/
namespace Necessist.Visit

/-- `.entry(name).or_default().push(f)` (backends/src/ts/inner/visitor.rs:26-29, backends/src/rust/visitor.rs:30-46). -/
def addFn (name : Text) (f : LocalFn) : List (Text × List LocalFn) → List (Text × List LocalFn)
  | [] => [(name, [f])]
  | (n, fs) :: rest => if n = name then (n, fs ++ [f]) :: rest else (n, fs) :: addFn name f rest

/-- The map, of functions with names. -/
def byName (l : List (Text × LocalFn)) : List (Text × List LocalFn) := l.foldl (fun acc d => addFn d.1 d.2 acc) []

/-- The walkable functions are the local functions whose names the configuration selects (backends/src/parsing.rs:420-424). -/
def walkableOf (config : Compiled) (l : List (Text × LocalFn)) : List (Text × List LocalFn) :=
  (byName l).filter fun p => config.isWalkableFunction p.1

end Necessist.Visit
