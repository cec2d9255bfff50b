import Verif.Model.Main
import Verif.Spec.Skill
import Verif.Spec.Run
import Verif.Spec.Log
import Verif.Spec.Resume
import Verif.Spec.Parse
import Verif.Spec.Visitor
/-!
# What one execution of the program may do (specification)
-/
namespace Necessist.Main
open Run Parse

variable {V σ : Type}

/-- Nothing is executed and nothing written: the skills, the configuration, the database and the source files are as before and no test
was built or run. (Warnings may have been printed.) -/
structure Undisturbed (m m' : Machine σ) : Prop where
  skills : m'.skills = m.skills
  config : m'.config = m.config
  db : m'.db = m.db
  fs : m'.fs = m.fs
  trace : m'.trace = m.trace
  progress : m'.progress = m.progress

/-- The root of the project: the current directory, or what `--root` leads to. -/
def rootOf (h : Host V σ) (o : Opts) : Option Path :=
  match o.root with
  | none => h.currentDir
  | some p => h.canonicalize p

/-- Neither a skill is checked nor the configuration written nor the database dumped: the program looks for candidates. -/
def LooksForCandidates (o : Opts) : Prop :=
  o.checkSkill = none ∧ o.findSkill = false ∧ o.defaultConfig = false ∧ o.dump = false

/-- The program, called with options `o` in the state `m`, finds the candidates `map` (with `nTests` tests) in the project at `root`, for
the framework `fw`, having printed the warnings `ws`: it does so by parsing (C41, C64) the files that are given (C44) with the project's
configuration (C27) for the framework that was chosen (C42). It does not depend on what is to be done with the candidates. -/
def FindsCandidates (h : Host V σ) (o : Opts) (m : Machine σ) (root : Path) (fw : Fw σ) (nTests : Nat) (map : FileMap) (ws : List WarnMsg)
    (st : WStates) : Prop :=
  rootOf h o = some root ∧ h.lockFails root = false ∧
  ∃ config paths m1 pst ws0, warnDeprecated o m = (.ok (), m1) ∧ m1.console = m.console ++ ws0.map .warning ∧
    Toml.read h.configStatFails m.config = .ok config ∧
    Framework.backendFor Framework.Identifier.all Framework.Identifier.name (Framework.Identifier.applicable h.exists_) (h.impl m.ext)
      o.framework = .ok fw ∧
    canonicalizeAll (projectBackend h o root m fw) o.sourceFiles = .ok paths ∧
    parse (projectBackend h o root m fw) config paths m1.warns = (.ok (), pst) ∧
    nTests = pst.nTests ∧ map = pst.map ∧ ws = ws0 ++ pst.printed ∧ st = pst.warns

/-- The skill files that are checked. -/
def checkedSkills (h : Host V σ) (o : Opts) : List Skill.Path :=
  match o.checkSkill with
  | some p => [p]
  | none =>
    if o.findSkill then match h.home with
      | some home => [home ++ [".claude".toList, "skills".toList, "necessist-audit".toList, "SKILL.md".toList],
          home ++ [".codex".toList, "skills".toList, "necessist-audit".toList, "SKILL.md".toList]]
      | none => []
    else []

/-- There is no skill at `p`, or an old one. -/
def NeedsUpdate (h : Host V σ) (fs : Skill.FS) (p : Skill.Path) : Prop :=
  Skill.Describes h.skill fs p .nonexistent ∨ Skill.Describes h.skill fs p .old

/-- `n` is somewhere in the syntax tree of the file, or in the body of one of its functions. -/
def PartOf (ast : FileAst) (n : Visit.Node) : Prop :=
  (∃ r ∈ ast.tree, Visit.Sub r n) ∨
  ∃ fns, ast.localFunctions = .ok fns ∧ ∃ x ∈ fns, ∃ g ∈ x.2, ∃ r ∈ g.body, Visit.Sub r n

/-- The frameworks' parsers build spans with the file that they are given: the span of everything in the syntax tree of a file, other than
tests (which have none), lies in that file. -/
def SpansInFile (h : Host V σ) : Prop :=
  ∀ ext i fw, h.impl ext i = .ok (some fw) → ∀ f ast, fw.backend.parseFile f = .ok ast →
    ∀ n, PartOf ast n → (∀ t last cs, n ≠ .test t last cs) → n.info.span.file = f

/-- A path as it is shown: relative to the current directory if it lies in it, else absolute. -/
inductive ShownPath (currentDir : Option Path) : Path → Text → Prop
  | inside (d rest : Path) (h : currentDir = some d) : ShownPath currentDir (d ++ rest) (List.intercalate ['/'] rest)
  | outside (p : Path) (h : ∀ d, currentDir = some d → ¬ d <+: p) : ShownPath currentDir p ('/' :: List.intercalate ['/'] p)

/-- The location of a candidate as it is shown: the path of its file, and, unless that is not wanted, where it starts and ends, counting
columns from one. -/
inductive ShownLocation (currentDir : Option Path) (root : Path) (noLinesOrColumns : Bool) (s : Span) : Text → Prop
  | short (path : Text) (hp : ShownPath currentDir (root ++ s.file.path) path) (h : noLinesOrColumns = true) :
      ShownLocation currentDir root noLinesOrColumns s path
  | long (path : Text) (hp : ShownPath currentDir (root ++ s.file.path) path) (h : noLinesOrColumns = false) :
      ShownLocation currentDir root noLinesOrColumns s
        (path ++ ":".toList ++ showNat s.start.line ++ ":".toList ++ showNat (s.start.column + 1) ++ "-".toList ++ showNat s.stop.line ++
          ":".toList ++ showNat (s.stop.column + 1))

/-- The text of a candidate with its location, carriage returns left out. -/
def ShownCandidate (h : Host V σ) (o : Opts) (root : Path) (src : SourceFile → Text) (c : Candidate) (line : Text) : Prop :=
  ∃ loc text, ShownLocation h.currentDir root o.noLinesOrColumns c.span loc ∧ HasText src c text ∧
    line = loc ++ ": `".toList ++ text.filter (· ≠ '\r') ++ "`".toList

/-- A removal as it is shown: location and text as for a candidate, and the outcome. -/
def ShownRemoval (h : Host V σ) (o : Opts) (root : Path) (r : Removal) (line : Text) : Prop :=
  ∃ loc, ShownLocation h.currentDir root o.noLinesOrColumns r.span loc ∧
    line = loc ++ ": `".toList ++ r.text.filter (· ≠ '\r') ++ "` ".toList ++ h.paint r.outcome

/-- The number of candidates of a file. -/
def candidateCount (map : FileMap) (f : SourceFile) (n : Nat) : Prop := ∃ ms, (f, ms) ∈ map ∧ n = ms.candidates.length

/-- A line that says that `f` has `n` candidates: the number, right-aligned in `width` columns, a space, and the path. -/
def ShownCount (h : Host V σ) (root : Path) (width : Nat) (n : Nat) (f : SourceFile) (line : Text) : Prop :=
  ∃ path pad, ShownPath h.currentDir (root ++ f.path) path ∧ line = List.replicate pad ' ' ++ showNat n ++ " ".toList ++ path ∧
    pad + (showNat n).length = width

/-- The databases that can be left by any number of executions of the program with any options, each ending in whatever way, always with the
same sources and candidates and with tests that behave as `d` says; between executions nothing but the database is kept. -/
inductive History (d : Determined) (src : SourceFile → Text) (fcs : List (SourceFile × List Candidate)) : DbFile → Prop
  | new : History d src fcs .absent
  | exec {V σ : Type} (h : Host V σ) (o : Opts) (m : Machine σ) (events : List Snap) (hist : History d src fcs m.db) (hs : SpansInFile h)
      (hfs : m.fs = src) (hc : ∀ root fw nTests map ws st, FindsCandidates h o m root fw nTests map ws st → map.toRun = fcs)
      (ht : (main h o m).2.trace = m.trace ++ events) (ha : Agrees d events) : History d src fcs (main h o m).2.db

end Necessist.Main
