import Verif.Spec.Warnings
import Verif.Spec.Visitor
/-!
# Functions whose definition is ambiguous (specification)
-/
namespace Necessist.Parse
open Visit

/-- Candidates are looked for in the file `f`: it is not skipped and can be parsed, `tree` is what it consists of, and `cfg` says which functions
are gone into and what is left out. -/
def Searches (b : Backend) (config : Compiled) (f : SourceFile) (cfg : VCfg) (tree : List Node) : Prop :=
  ∃ contents d ast fns, b.read f = .ok contents ∧ HasDirectives b f contents d ∧ d.skipFile = false ∧ b.parseFile f = .ok ast ∧
    ast.localFunctions = .ok fns ∧ cfg = visitorFor b config contents d fns ∧ tree = ast.tree

/-- In the file, or in a function that may be gone into, there is a call by this name, which has two or more definitions. -/
def CalledAmbiguously (cfg : VCfg) (tree : List Node) (name : Text) : Prop :=
  ∃ call fs, World cfg tree call ∧ CallsName cfg call name fs ∧ 2 ≤ fs.length

/-- A test calls this name, which has two or more definitions, directly or from a function it calls, and not within an ignored call. -/
def ExercisedAmbiguously (cfg : VCfg) (tree : List Node) (name : Text) : Prop :=
  ∃ call f fs, CallsName cfg call name (f :: fs) ∧ fs ≠ [] ∧
    ((∃ t last m, TestPart cfg tree t last m ∧ Seen cfg m call) ∨ ∃ g m, Reached cfg tree g ∧ m ∈ g.body ∧ Seen cfg m call)

/-- What is said of the file `f` by a message that names `names`. -/
def AmbiguousIn (b : Backend) (config : Compiled) (f : SourceFile) (names : List Text) : Prop :=
  names ≠ [] ∧ names.Pairwise (fun a b => compare a b = .lt) ∧
  ∃ cfg tree, Searches b config f cfg tree ∧ (∀ n ∈ names, CalledAmbiguously cfg tree n) ∧
    (KeysFaithful cfg → OneName cfg → ∀ n, ExercisedAmbiguously cfg tree n → n ∈ names)

end Necessist.Parse
