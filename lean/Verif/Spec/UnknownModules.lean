import Verif.Spec.Sources
/-!
# Tests whose module path is unknown (specification)
-/
namespace Necessist.Rs

/-- The names of the test functions in a part of a file, in order; without those in another function that is not a method. -/
inductive HasTests : Syn → List Text → Prop where
  | test {s name attrs sig b} (attributes : TestAttrs attrs) : HasTests (.fn s name attrs sig b) [name]
  | fn {s name attrs sig b} (attributes : ¬ TestAttrs attrs) : HasTests (.fn s name attrs sig b) []
  | other {x} {ns : List (List Text)} (free : ¬ Free x) (len : ns.length = x.kids.length)
      (each : ∀ i (h : i < x.kids.length), HasTests x.kids[i] (ns[i]'(by rw [len]; exact h))) : HasTests x ns.flatten

end Necessist.Rs

namespace Necessist.Sources
open Parse Run
open Rust (parent)
open Framework (Identifier)

/-- The module path is known of a file in `src` or `tests` (but for `src/bin` itself), `dir` being the package's directory. -/
def InModules (dir file : Path) : Prop :=
  (∃ rest, file = dir ++ "src".toList :: rest ∧ rest ≠ ["bin".toList]) ∨ ∃ c rest, file = dir ++ "tests".toList :: c :: rest

variable (P : Parsers)

/-- `cargo` knows the package of the file, but the file is not where modules are. -/
def UnknownModules (f : SourceFile) : Prop :=
  ∃ p dir, P.cargo.package (P.path f) = .ok p ∧ parent p.manifest = some dir ∧ ¬ InModules dir (P.path f)

/-- What is said of the test `name`, of which there are `n`. -/
def unknownText (path : Path) (name : Text) (n : Nat) : Text :=
  "failed to determine module path for test `".toList ++ name ++ "`: [\n".toList ++
    (List.replicate n ("    failed to determine relative path of source file \"".toList ++ ('/' :: List.intercalate ['/'] path) ++ "\",\n".toList)).flatten ++
    "]".toList

/-- What is said of the file `f` about tests whose module path is unknown; `searched` tells whether tests are looked for in it. It is: if the
file's modules are unknown, for each name of a test in it, in order, one message; otherwise nothing. -/
def Says85 (searched : Prop) (f : SourceFile) (msgs : List Text) : Prop :=
  (searched → UnknownModules P f → ∀ file ns, P.rs f = .ok file → Rs.HasTests file ns →
    ∃ names : List Text, names.Pairwise (fun a b => compare a b = .lt) ∧ (∀ n, n ∈ names ↔ n ∈ ns) ∧
      msgs = names.map fun n => unknownText (P.path f) n (ns.count n)) ∧
  (¬ searched ∨ ¬ UnknownModules P f ∨ (∀ file, P.rs f ≠ .ok file) → msgs = [])

end Necessist.Sources
