import Verif.Model.Options
import Verif.Model.Config
import Verif.Model.Sqlite
import Verif.Model.Skill
import Verif.Model.Framework
import Verif.Model.Parse
/-!
# The program

Models `main` (necessist/src/main.rs:16-34), `necessist` and `prepare` (core/src/core.rs:120-308), `dump_candidates` and
`dump_candidate_counts` (core/src/core.rs:678-734), and how removals are shown (core/src/core.rs:889-914). How options are
read from the command line is in `Verif.Model.Cli`. Not modelled: `env_logger`, whether there is a progress bar (its position is kept in
any case).
-/
namespace Necessist.Main
open Run Parse Framework

/-- `Necessist` (core/src/core.rs:90-111) and the framework asked for (`none` is `auto`). -/
structure Opts where
  allow : List Warning := []
  checkSkill : Option Skill.Path := none
  defaultConfig : Bool := false
  deny : List Warning := []
  dump : Bool := false
  dumpCandidateCounts : Bool := false
  dumpCandidates : Bool := false
  findSkill : Bool := false
  framework : Option Identifier := none
  noLinesOrColumns : Bool := false
  noLocalFunctions : Bool := false
  noSqlite : Bool := false
  quiet : Bool := false
  reset : Bool := false
  resume : Bool := false
  root : Option PathArg := none
  timeout : Option Nat := none
  verbose : Bool := false
  write : Bool := false
  sourceFiles : List PathArg := []

/-- `is_set` (core/src/core.rs:435-449) of the options that take part in compatibility checks. -/
def Opts.set (o : Opts) : OptSet
  | .checkSkill => o.checkSkill.isSome
  | .defaultConfig => o.defaultConfig
  | .dump => o.dump
  | .dumpCandidates => o.dumpCandidates
  | .dumpCandidateCounts => o.dumpCandidateCounts
  | .findSkill => o.findSkill
  | .reset => o.reset
  | .resume => o.resume
  | .noSqlite => o.noSqlite
  | .quiet => o.quiet
  | .verbose => o.verbose
  | .write => o.write

/-- What warnings depend on. -/
def Opts.warn (o : Opts) : WarnOpts := ⟨o.allow, o.deny, o.quiet⟩

/-- What is printed on the standard output. -/
inductive Msg where
  | text (t : Text)
  | warning (m : WarnMsg)
  /-- "more output would be produced with --verbose" (core/src/core.rs:544) -/
  | verboseNote
  | dryRunning (f : SourceFile)
  | mutilating (f : SourceFile)
deriving DecidableEq, Repr

/-- An implementation of a framework: how it finds candidates (of `backend` only the fields `kind`, `parseFile`, `builtins`, `receiver`,
`fields`, `alnum` are used), how it runs tests, and what finding candidates does to the world outside (e.g. `cargo metadata`). -/
structure Fw (σ : Type) where
  backend : Backend
  env : Env σ
  parsed : σ → σ

/-- What the program cannot change, or does not know. -/
structure Host (V σ : Type) where
  skill : Skill.World V
  home : Option Skill.Path
  /-- `current_dir` -/
  currentDir : Option Path
  /-- `dunce::canonicalize` -/
  canonicalize : PathArg → Option Path
  /-- `lock_root` fails -/
  lockFails : Path → Bool
  configStatFails : Bool
  configWriteFails : Option ConfigFile
  dbFaults : DbFaults
  /-- source files that cannot be read -/
  unreadable : SourceFile → Option Err
  /-- existence of a file in the root -/
  exists_ : Text → Except Text Bool
  /-- the constructors of the implementations, and what the choice does to the world outside -/
  impl : σ → Identifier → Except Text (Option (Fw σ))
  chosen : σ → σ
  /-- `Span::id` -/
  ident : Span → Text
  /-- the outcome with or without colour (core/src/core.rs:905-910) -/
  paint : Outcome → Text

/-- What the program can change. -/
structure Machine (σ : Type) where
  skills : Skill.FS
  config : ConfigFile
  db : DbFile
  fs : SourceFile → Text
  ext : σ
  warns : WStates
  console : List Msg
  /-- the events of the run (tests built and executed, ...) -/
  trace : List Snap
  progress : Nat

/-- Why the program failed. -/
inductive Error where
  | options (r : OptResult)
  | skill
  | root
  | lock
  | denied
  | config (e : ConfigError)
  | db (e : DbError)
  | framework (e : FwError)
  | path (e : PathError)
  | parse (e : Err)
  | run (e : Err)

variable {V σ : Type}

/-- `strip_current_dir` (core/src/util.rs:55-60), displayed. -/
def consolePath (currentDir : Option Path) (p : Path) : Text :=
  match currentDir with
  | none => '/' :: List.intercalate ['/'] p
  | some d => if d.isPrefixOf p then List.intercalate ['/'] (p.drop d.length) else '/' :: List.intercalate ['/'] p

/-- The location of a span as printed (core/src/core.rs:689-693, 897-901, core/src/span.rs:38-42, core/src/source_file.rs:116-120). -/
def location (h : Host V σ) (o : Opts) (root : Path) (s : Span) : Text :=
  let path := consolePath h.currentDir (root ++ s.file.path)
  if o.noLinesOrColumns then path else s.displayWith path

/-- `text.replace('\r', "")` -/
def dropCr (t : Text) : Text := t.filter (· != '\r')

/-- `format!("{loc}: `{}`", …)` (core/src/core.rs:696) -/
def candidateLine (loc text : Text) : Text := loc ++ ": `".toList ++ dropCr text ++ "`".toList

/-- The message of `emit_to_console` (core/src/core.rs:902-911). -/
def removalLine (h : Host V σ) (o : Opts) (root : Path) (r : Removal) : Text :=
  candidateLine (location h o root r.span) r.text ++ " ".toList ++ h.paint r.outcome

/-- What a line of the run looks like. -/
def showLine (h : Host V σ) (o : Opts) (root : Path) : Line → Msg
  | .dryRunning f => .dryRunning f
  | .mutilating f => .mutilating f
  | .warning m => .warning m
  | .removal r => .text (removalLine h o root r)

/-- `(context.println)(…)` (core/src/core.rs:150-161) -/
def print (o : Opts) (msgs : List Msg) (m : Machine σ) : Machine σ :=
  if o.quiet then m else { m with console := m.console ++ msgs }

/-- The loop of `dump_candidates` (core/src/core.rs:682-699): what is printed, and whether every text was found. -/
def candidateLines (src : SourceFile → Text) (loc : Span → Text) : List Candidate → List Text × Bool
  | [] => ([], true)
  | c :: cs =>
    match sourceText? (src c.span.file) c.span.start c.span.stop with
    | none => ([], false)
    | some text => let (ls, ok) := candidateLines src loc cs; (candidateLine (loc c.span) text :: ls, ok)

/-- `dump_candidates` (core/src/core.rs:678-702). -/
def dumpCandidates (h : Host V σ) (o : Opts) (root : Path) (map : FileMap) (m : Machine σ) : Res Error Unit × Machine σ :=
  let (ls, ok) := candidateLines m.fs (location h o root) (map.flatMap fun p => p.2.candidates)
  (if ok then .ok () else .panic, print o (ls.map .text) m)

/-- `Ord` for `(usize, &SourceFile)` -/
def countCmp (a b : Nat × SourceFile) : Ordering := (compare a.1 b.1).then (a.2.cmp b.2)

/-- Insertion into a sorted list. -/
def insertCount (x : Nat × SourceFile) : List (Nat × SourceFile) → List (Nat × SourceFile)
  | [] => [x]
  | y :: ys => if (countCmp x y).isLE then x :: y :: ys else y :: insertCount x ys

/-- `sort` (its result does not depend on the algorithm) -/
def sortCounts (l : List (Nat × SourceFile)) : List (Nat × SourceFile) := l.foldr insertCount []

/-- `format!("{count:width$} …")`: numbers are aligned to the right. -/
def padLeft (width : Nat) (t : Text) : Text := List.replicate (width - t.length) ' ' ++ t

/-- The lines of `dump_candidate_counts` (core/src/core.rs:708-733). -/
def countLines (path : SourceFile → Text) (map : FileMap) : List Text :=
  let counts := sortCounts (map.map fun p => (p.2.statement.length + p.2.methodCall.length, p.1))
  let width := (counts.map fun x => (showNat x.1).length).foldl max 0
  counts.map fun x => padLeft width (showNat x.1) ++ " ".toList ++ path x.2

/-- The plural (core/src/core.rs:301-303). -/
def plural (n : Nat) : Text := if n = 1 then [] else "s".toList

/-- The summary (core/src/core.rs:297-304). -/
def summary (nSpans nTests nFiles : Nat) : Text :=
  showNat nSpans ++ " candidates in ".toList ++ showNat nTests ++ " test".toList ++ plural nTests ++ " in ".toList ++ showNat nFiles ++
    " source file".toList ++ plural nFiles

/-- The result of skill checks (core/src/core.rs:129-135). -/
def skillResult (m : Machine σ) (r : Skill.Ran Skill.Status) : Res Error Nat × Machine σ :=
  (match r.result with | none => .err .skill | some s => .ok s.exitCode,
    { m with skills := r.fs, console := m.console ++ r.out.map .text })

/-- A source file as it is first read (core/src/source_file.rs:62). -/
def readFile (h : Host V σ) (m : Machine σ) (f : SourceFile) : Except Err Text :=
  match h.unreadable f with
  | some e => .error e
  | none => .ok (m.fs f)

/-- `h.canonicalize` for `canonicalize_source_files`; the kind of error is not kept. -/
def canonicalizePath (h : Host V σ) (p : Path) : Except Err Path :=
  match h.canonicalize ⟨true, p⟩ with
  | some q => .ok q
  | none => .error .io

/-- The framework's implementation in this project. -/
def projectBackend (h : Host V σ) (o : Opts) (root : Path) (m : Machine σ) (fw : Fw σ) : Backend :=
  { fw.backend with root, canonicalize := canonicalizePath h, read := readFile h m, warn := o.warn }

/-- How the database is used. -/
def dbCall (h : Host V σ) (o : Opts) : Call where
  noSqlite := o.noSqlite
  flags := ⟨o.dump, o.reset, o.resume⟩
  faults := h.dbFaults
  readable f := (h.unreadable f).isNone

/-- The parameters of the run. -/
def runCfg (h : Host V σ) (o : Opts) (m : Machine σ) : Cfg where
  src := m.fs
  warn := o.warn
  verbose := o.verbose
  timeout := o.timeout
  ident := h.ident

/-- Result of `prepare`: nothing more to do, or what to run. -/
structure Prepared (σ : Type) where
  env : Env σ
  nSpans : Nat
  map : FileMap

/-- The part of `prepare` after the candidates have been found (core/src/core.rs:236-307). -/
def prepareFound (h : Host V σ) (o : Opts) (root : Path) (fw : Fw σ) (nTests : Nat) (map : FileMap) (m : Machine σ) :
    Res Error (Option (Prepared σ)) × Machine σ :=
  if o.dumpCandidates then
    match dumpCandidates h o root map m with
    | (.ok _, m) => (.ok none, m)
    | (.err e, m) => (.err e, m)
    | (.panic, m) => (.panic, m)
    | (.hang, m) => (.hang, m)
  else if o.dumpCandidateCounts then
    (.ok none, print o ((countLines (fun f => consolePath h.currentDir (root ++ f.path)) map).map .text) m)
  else (.ok (some ⟨fw.env, map.nSpans, map⟩), print o [.text (summary map.nSpans nTests map.length)] m)

/-- The part of `prepare` that finds the candidates (core/src/core.rs:226-307). Warnings given while parsing are printed as they occur. -/
def prepareCandidates (h : Host V σ) (o : Opts) (root : Path) (config : Toml) (m : Machine σ) :
    Res Error (Option (Prepared σ)) × Machine σ :=
  match backendFor Identifier.all Identifier.name (Identifier.applicable h.exists_) (h.impl m.ext) o.framework with
  | .error e => (.err (.framework e), { m with ext := h.chosen m.ext })
  | .ok fw =>
    let m := { m with ext := h.chosen m.ext }
    let b := projectBackend h o root m fw
    match canonicalizeAll b o.sourceFiles with
    | .error e => (.err (.path e), m)
    | .ok paths =>
      match parse b config paths m.warns with
      | (r, st) =>
        let m := { m with ext := fw.parsed m.ext, warns := st.warns, console := m.console ++ st.printed.map .warning }
        match r with
        | .ok _ => prepareFound h o root fw st.nTests st.map m
        | .err e => (.err (.parse e), m)
        | .panic => (.panic, m)
        | .hang => (.hang, m)

/-- `--dump` (core/src/core.rs:221-225). -/
def prepareDump (h : Host V σ) (o : Opts) (root : Path) (m : Machine σ) : Res Error (Option (Prepared σ)) × Machine σ :=
  match dumpWhole (dbCall h o) o.warn o.verbose m.warns m.db with
  | (.ok (rs, note), db) =>
    (.ok none, { m with
      db, console := m.console ++ rs.map (fun r => .text (removalLine h o root r)) ++ if note then [.verboseNote] else [] })
  | (.err e, db) => (.err (.db e), { m with db })
  | (.panic, db) => (.panic, { m with db })
  | (.hang, db) => (.hang, { m with db })

/-- `prepare` (core/src/core.rs:210-308). -/
def prepare (h : Host V σ) (o : Opts) (root : Path) (m : Machine σ) : Res Error (Option (Prepared σ)) × Machine σ :=
  if o.defaultConfig then
    match defaultConfig h.configStatFails h.configWriteFails m.config with
    | (.error e, config) => (.err (.config e), { m with config })
    | (.ok _, config) => (.ok none, { m with config })
  else match Toml.read h.configStatFails m.config with
    | .error e => (.err (.config e), m)
    | .ok config => if o.dump then prepareDump h o root m else prepareCandidates h o root config m

/-- `run` (core/src/core.rs:203, 310-433) on the machine. -/
def runAll (h : Host V σ) (o : Opts) (root : Path) (p : Prepared σ) (m : Machine σ) : Res Error Nat × Machine σ :=
  match runWhole (dbCall h o) (runCfg h o m) p.env p.map.toRun m.db
      { fs := m.fs, db := none, warns := m.warns, out := [], progress := 0, trace := [], instr := none, past := [], ext := m.ext } with
  | (r, db, w) =>
    (match r with | .ok _ => .ok 0 | .err (.inl e) => .err (.db e) | .err (.inr e) => .err (.run e) | .panic => .panic | .hang => .hang,
      { m with
        db, fs := w.fs, ext := w.ext, warns := w.warns, progress := m.progress + w.progress, trace := m.trace ++ w.trace
        console := m.console ++ w.out.map (showLine h o root) })

/-- core/src/core.rs:163-170 -/
def warnDeprecated (o : Opts) (m : Machine σ) : Res Error Unit × Machine σ :=
  if o.noLocalFunctions then
    match warnInternal o.warn m.warns
        ⟨.optionDeprecated, none, "--no-local-functions is now the default; hence, this option is deprecated".toList, false⟩ with
    | (.bail _, warns) => (.err .denied, { m with warns })
    | (.silent, warns) => (.ok (), { m with warns })
    | (.print w, warns) => (.ok (), print o [.warning w] { m with warns })
    | (.panic, warns) => (.panic, { m with warns })
  else (.ok (), m)

/-- The run, if there is one (core/src/core.rs:172-203). -/
def afterPrepare (h : Host V σ) (o : Opts) (root : Path) : Res Error (Option (Prepared σ)) × Machine σ → Res Error Nat × Machine σ
  | (.err e, m) => (.err e, m)
  | (.panic, m) => (.panic, m)
  | (.hang, m) => (.hang, m)
  | (.ok none, m) => (.ok 0, m)
  | (.ok (some p), m) => runAll h o root p m

/-- core/src/core.rs:137-145 -/
def projectRoot (h : Host V σ) (o : Opts) : Option Path :=
  match o.root with
  | none => h.currentDir
  | some p => h.canonicalize p

/-- The part of `necessist` that works on a project (core/src/core.rs:137-203). -/
def project (h : Host V σ) (o : Opts) (m : Machine σ) : Res Error Nat × Machine σ :=
  match projectRoot h o with
  | none => (.err .root, m)
  | some root =>
    if h.lockFails root then (.err .lock, m)
    else match warnDeprecated o m with
      | (.err e, m) => (.err e, m)
      | (.panic, m) => (.panic, m)
      | (.hang, m) => (.hang, m)
      | (.ok _, m) => afterPrepare h o root (prepare h o root m)

/-- `necessist` (core/src/core.rs:120-204); the number is the exit code. -/
def necessist (h : Host V σ) (o : Opts) (m : Machine σ) : Res Error Nat × Machine σ :=
  match processOptions o.set with
  | .ok =>
    match o.checkSkill with
    | some p => skillResult m (Skill.check h.skill p o.write m.skills)
    | none => if o.findSkill then skillResult m (Skill.find h.skill h.home o.write m.skills) else project h o m
  | r => (.err (.options r), m)

/-- `main` (necessist/src/main.rs:16-34): the exit code; 101 after a panic; `none` if the program does not end. -/
def exitCode : Res Error Nat → Option Nat
  | .ok n => some n
  | .err _ => some 2
  | .panic => some 101
  | .hang => none

/-- One execution of the program. -/
def main (h : Host V σ) (o : Opts) (m : Machine σ) : Option Nat × Machine σ :=
  match necessist h o m with
  | (r, m) => (exitCode r, m)

end Necessist.Main
