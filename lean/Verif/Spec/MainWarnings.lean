import Verif.Spec.Main
import Verif.Spec.RunWarnings
import Verif.Props.Database
/-!
# The warnings of one execution of the program (specification)
-/
namespace Necessist.Main
open Run Parse

variable {V σ : Type}

/-- The warnings among what is printed. -/
def warningsIn (ms : List Msg) : List WarnMsg := ms.filterMap fun x => match x with | .warning w => some w | _ => none

/-- `--no-local-functions` is deprecated. -/
def deprecatedCalls (o : Opts) : List WarnCall :=
  if o.noLocalFunctions then
    [⟨.optionDeprecated, none, "--no-local-functions is now the default; hence, this option is deprecated".toList, false⟩]
  else []

/-- The warning that there is no database to reset, or to resume with. -/
def missingDatabase (what : String) : WarnCall :=
  { warning := .databaseDoesNotExist
    source := none
    msg := "no sqlite database to ".toList ++ what.toList ++ "; creating new database".toList
    once := true }

/-- `--reset` and `--resume` are for an existing database. -/
def databaseCalls (h : Host V σ) (o : Opts) (m : Machine σ) : List WarnCall :=
  if o.noSqlite = false ∧ h.dbFaults.stat = false ∧ m.db = .absent then
    if o.reset then [missingDatabase "reset"] else if o.resume then [missingDatabase "resume"] else []
  else []

/-- The entries of the database that a run begins with. -/
def Remembers (h : Host V σ) (o : Opts) (m : Machine σ) (past : List Removal) : Prop :=
  (o.noSqlite = true ∨ o.reset = true ∨ m.db = .absent) ∧ past = [] ∨
  o.noSqlite = false ∧ o.reset = false ∧ ∃ rows stored, m.db = .table rows ∧ RowsRead (fun f => (h.unreadable f).isNone) rows stored ∧
    past.Perm stored ∧ past.Pairwise (fun a b => (a.span.cmp b.span).isLE)

/-- Everything needed to look for candidates is there. -/
structure Begins (h : Host V σ) (o : Opts) (m : Machine σ) (root : Path) (config : Toml) (fw : Fw σ) (paths : List Path) : Prop where
  looks : LooksForCandidates o
  rootIs : rootOf h o = some root
  configIs : Toml.read h.configStatFails m.config = .ok config
  frameworkIs : Framework.backendFor Framework.Identifier.all Framework.Identifier.name (Framework.Identifier.applicable h.exists_)
    (h.impl m.ext) o.framework = .ok fw
  pathsAre : canonicalizeAll (projectBackend h o root m fw) o.sourceFiles = .ok paths

/-- The calls that an execution makes, given what happens during it and its exit code: those due up to the point at which it ends. -/
inductive Makes (h : Host V σ) (o : Opts) (m : Machine σ) : Option Nat → List Snap → List Issue → Prop where
  /-- no project is worked on: none -/
  | none {code} (why : processOptions o.set ≠ .ok ∨ o.checkSkill.isSome = true ∨ o.findSkill = true ∨ rootOf h o = none ∨
      ∃ root, rootOf h o = some root ∧ h.lockFails root = true) : Makes h o m code [] []
  /-- no candidates are looked for, or that is not possible, or the first warning is denied -/
  | deprecated {code} (why : o.defaultConfig = true ∨ o.dump = true ∨ EndsDenied o.warn (own (deprecatedCalls o)) ∨
      ∀ root config fw paths, ¬ Begins h o m root config fw paths) : Makes h o m code [] (own (deprecatedCalls o))
  /-- looking for candidates fails -/
  | fails {code root config fw paths cs r} (begins : Begins h o m root config fw paths)
      (gives : Gives (projectBackend h o root m fw) config paths (WStates.after o.warn m.warns (own (deprecatedCalls o))) r cs)
      (failed : r ≠ .ok ()) (ne : code ≠ some 0) : Makes h o m code [] (own (deprecatedCalls o ++ cs))
  /-- candidates are found, but no test is to be run -/
  | found {code root config fw paths cs} (begins : Begins h o m root config fw paths)
      (gives : Gives (projectBackend h o root m fw) config paths (WStates.after o.warn m.warns (own (deprecatedCalls o))) (.ok ()) cs)
      (only : o.dumpCandidates = true ∨ o.dumpCandidateCounts = true) : Makes h o m code [] (own (deprecatedCalls o ++ cs))
  /-- the database cannot be used -/
  | database {code root config fw paths cs} (begins : Begins h o m root config fw paths)
      (gives : Gives (projectBackend h o root m fw) config paths (WStates.after o.warn m.warns (own (deprecatedCalls o))) (.ok ()) cs)
      (only : o.dumpCandidates = false ∧ o.dumpCandidateCounts = false) (ne : code ≠ some 0) :
      Makes h o m code [] (own (deprecatedCalls o ++ cs ++ databaseCalls h o m))
  /-- tests are run -/
  | run {code root config fw paths cs past events is nTests map ws st} (begins : Begins h o m root config fw paths)
      (gives : Gives (projectBackend h o root m fw) config paths (WStates.after o.warn m.warns (own (deprecatedCalls o))) (.ok ()) cs)
      (only : o.dumpCandidates = false ∧ o.dumpCandidateCounts = false) (remembers : Remembers h o m past)
      (finds : FindsCandidates h o m root fw nTests map ws st) (calls : RunCalls map.toRun past (code = some 0) events is) :
      Makes h o m code events (own (deprecatedCalls o ++ cs ++ databaseCalls h o m) ++ is)

/-- What is said of the framework that is used: the answers it gives while tests are run take account of the warnings it gives, and its own
warnings about a file are about tests whose module path is not known (and not said once only). -/
def Sound (h : Host V σ) (o : Opts) : Prop :=
  ∀ ext i fw, h.impl ext i = .ok (some fw) → Honest o.warn fw.env ∧
    ∀ f ast, fw.backend.parseFile f = .ok ast → ∀ c ∈ ast.warnings, c.warning = .modulePathUnknown ∧ c.once = false

/-- What an execution does about warnings, if the program makes the calls `is`, and the results for them, printed or not, are `rs`. -/
structure Reports (h : Host V σ) (o : Opts) (m : Machine σ) (code : Option Nat) (m' : Machine σ) (events : List Snap) (is : List Issue)
    (rs : List (Option WarnMsg)) : Prop where
  traced : m'.trace = m.trace ++ events
  makes : Makes h o m code events is
  denied : NoneDenied o.warn is ∨ EndsDenied o.warn is ∧ code = some 2
  results : Results o.warn is rs
  printed : warningsIn m'.console = warningsIn m.console ++ messages rs

end Necessist.Main
