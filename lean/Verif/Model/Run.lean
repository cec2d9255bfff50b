import Verif.Model.Span
import Verif.Model.Outcome
import Verif.Model.Warn
import Verif.Model.Instrument
/-!
# The run loop

Models `run` and everything it calls in core/src/core.rs, over an arbitrary environment.
-/
namespace Necessist.Run

/-- `Removal` (core/src/core.rs:40-45). -/
structure Removal where
  span : Span
  text : Text
  outcome : Outcome
deriving DecidableEq, Repr

/-- A row of the database (core/src/sqlite.rs:42-49, core/src/create_table_removal.sql). -/
structure Row where
  span : Text
  text : Text
  outcome : Text
  url : Text
deriving DecidableEq, Repr

/-- The row built by `sqlite::insert` (core/src/sqlite.rs:162-171). -/
def Row.ofRemoval (url : Text) (r : Removal) : Row := ⟨r.span.display, r.text, r.outcome.display, url⟩

/-- One item of the iterator over a file's candidates (core/src/framework/mod.rs:43-52). -/
structure Candidate where
  span : Span
  kind : SpanKind
  tests : List Text
deriving DecidableEq, Repr

/-- Error classes. -/
inductive Err where
  | ctrlc | denied | backend | io | db
deriving DecidableEq, Repr

/-- Things that happen and can be observed from outside. Each is recorded together with the contents of all source
files at that time. -/
inductive Event where
  /-- the backend's dry run of a file is about to start -/
  | dryRun (f : SourceFile)
  /-- a dry run failed -/
  | dryRunFailed (f : SourceFile)
  /-- the instrumented file is about to be built -/
  | buildFile (f : SourceFile)
  /-- … and this failed -/
  | buildFailed (f : SourceFile)
  /-- a test is about to be built (`backend.exec`) for a candidate -/
  | buildTest (c : Candidate) (test : Text)
  /-- a test process is about to be started for a candidate, with `NECESSIST_REMOVAL` set to `var` -/
  | startTest (c : Candidate) (test : Text) (var : Text)
  /-- the process outlived the timeout and is about to be killed -/
  | kill (c : Candidate) (test : Text)
  /-- a test's result for a candidate is known (`none`: it could not be determined that the test ran) -/
  | tested (c : Candidate) (test : Text) (result : Option Outcome)
  /-- the Ctrl-C flag was read, and was `b` -/
  | ctrlc (b : Bool)
  /-- a row was added to the database -/
  | insert (r : Row)
deriving DecidableEq, Repr

/-- An event and the contents of the source files when it happened. -/
structure Snap where
  event : Event
  fs : SourceFile → Text

/-- Console output of the core. -/
inductive Line where
  | dryRunning (f : SourceFile)
  | mutilating (f : SourceFile)
  | warning (m : WarnMsg)
  | removal (r : Removal)
deriving DecidableEq, Repr

/-- Everything the run can read or change. `ext` is the state of the outside world. -/
structure World (σ : Type) where
  /-- contents of the source files on disk -/
  fs : SourceFile → Text
  /-- the database, if used (`--no-sqlite` gives `none`, core/src/core.rs:944-948) -/
  db : Option (List Row)
  /-- core/src/warn.rs:90 -/
  warns : WStates
  /-- lines printed so far -/
  out : List Line
  /-- position of the progress bar -/
  progress : Nat
  /-- what has happened so far -/
  trace : List Snap
  /-- the live instrumentation backup (core/src/core.rs:361-362): the file and its saved contents -/
  instr : Option (SourceFile × Text)
  /-- what remains of the past removals iterator (core/src/core.rs:315) -/
  past : List Removal
  ext : σ

/-- What a call to the outside returns: a result, the warning states (backends may warn), the new state of the
outside world, and the warnings it printed. Assumption: the outside does not modify source files (it may of course read them). -/
structure Reply (σ α : Type) where
  res : Res Err α
  warns : WStates
  ext : σ
  said : List WarnMsg

/-- The warnings printed since the world was `w`. -/
def saidSince {σ : Type} (w w' : World σ) : List WarnMsg :=
  (w'.out.drop w.out.length).filterMap fun l => match l with | .warning m => some m | _ => none

/-- A test process: whether waiting for it fails, how long it runs in milliseconds (`none`: forever), and whether it
exits successfully. -/
structure Proc where
  waitFails : Bool
  duration : Option Nat
  success : Bool
deriving DecidableEq, Repr

/-- The outside world. Every function may depend on the whole current world, so nothing is assumed about
determinism. -/
structure Env (σ : Type) where
  /-- `CTRLC.load` (core/src/core.rs:343, 417) -/
  ctrlc : World σ → Bool × σ
  /-- `backend.dry_run` -/
  dryRun : World σ → SourceFile → Reply σ Unit
  /-- `Backup::new` (core/src/core.rs:742, core/src/span.rs:172) -/
  backup : World σ → SourceFile → Reply σ Unit
  /-- open with truncation and write: `.ok none` success; `.ok (some t)`: failed, leaving the contents `t` -/
  write : World σ → SourceFile → Text → Option Text × σ
  /-- `backend.instrument_source_file`: the insertions it makes -/
  instrFile : World σ → SourceFile → Nat → Reply σ (List (LineColumn × Text))
  /-- `backend.statement_prefix_and_suffix` -/
  wrap : World σ → Span → Reply σ (Text × Text)
  /-- `backend.build_source_file` -/
  build : World σ → SourceFile → Reply σ Unit
  /-- `backend.exec`: `.ok none` is `Ok(Err(_))` (the test cannot be built); `.ok (some b)` is `Ok(Ok(exec, post))`
  with `b` telling whether there is a postprocess function -/
  exec : World σ → Text → Span → Reply σ (Option Bool)
  /-- `exec.start` -/
  start : World σ → Text → Span → Text → Reply σ Proc
  /-- `postprocess` -/
  post : World σ → Reply σ Bool
  /-- `transitive_kill` -/
  kill : World σ → Reply σ Unit
  /-- `job.wait` after the kill -/
  reap : World σ → Reply σ Unit
  /-- `url_from_span` and the insertion, apart from the table's constraints: the URL, or a failure -/
  insert : World σ → Span → Reply σ Text

/-- Fixed parameters of a run. -/
structure Cfg where
  /-- the contents with which each source file was first read (core/src/source_file.rs:41-75) -/
  src : SourceFile → Text
  warn : WarnOpts
  verbose : Bool
  timeout : Option Nat
  /-- `Span::id` (core/src/span.rs:51-58) -/
  ident : Span → Text

/-- Computations: they transform the world and finish in one of four ways. -/
abbrev M (σ α : Type) := World σ → Res Err α × World σ

variable {σ α β : Type}

/-- A computation that changes only the warnings and the outside world, and prints only warnings. -/
def reply (m : M σ α) (w : World σ) : Reply σ α :=
  ⟨(m w).1, (m w).2.warns, (m w).2.ext, saidSince w (m w).2⟩

/-- `Ok(a)`. -/
def ret (a : α) : M σ α := fun w => (.ok a, w)
/-- `Err(e)`. -/
def fail (e : Err) : M σ α := fun w => (.err e, w)
/-- `?`, and sequencing. -/
def bind (m : M σ α) (k : α → M σ β) : M σ β := fun w =>
  match m w with
  | (.ok a, w') => k a w'
  | (.err e, w') => (.err e, w')
  | (.panic, w') => (.panic, w')
  | (.hang, w') => (.hang, w')

/-- A panic. -/
def panics : M σ α := fun w => (.panic, w)
/-- Run a destructor when the scope is left in any way but not finishing. -/
def finally_ (m : M σ α) (cleanup : World σ → World σ) : M σ α := fun w =>
  match m w with
  | (.hang, w') => (.hang, w')
  | (r, w') => (r, cleanup w')

/-- Function update. -/
def upd (g : SourceFile → Text) (f : SourceFile) (t : Text) : SourceFile → Text :=
  fun f' => if f' = f then t else g f'

/-- Record an event. -/
def note (e : Event) : M σ Unit := fun w => (.ok (), { w with trace := w.trace ++ [⟨e, w.fs⟩] })
/-- `(context.println)(..)`; a no-op if quiet (core/src/core.rs:162-173). -/
def say (cfg : Cfg) (l : Line) : M σ Unit := fun w =>
  (.ok (), if cfg.warn.quiet then w else { w with out := w.out ++ [l] })
/-- Call the outside. -/
def ask (f : World σ → Reply σ α) : M σ α := fun w =>
  let r := f w
  (r.res, { w with warns := r.warns, out := w.out ++ r.said.map .warning, ext := r.ext })
/-- Call the outside, keeping an `Err` as a value. -/
def askTry (f : World σ → Reply σ α) : M σ (Except Err α) := fun w =>
  let r := f w
  let w := { w with warns := r.warns, out := w.out ++ r.said.map .warning, ext := r.ext }
  match r.res with
  | .ok a => (.ok (.ok a), w)
  | .err e => (.ok (.error e), w)
  | .panic => (.panic, w)
  | .hang => (.hang, w)
/-- `warn`/`source_warn` (core/src/warn.rs). -/
def warnM (cfg : Cfg) (c : WarnCall) : M σ Unit := fun w =>
  match warnInternal cfg.warn w.warns c with
  | (.bail _, st) => (.err .denied, { w with warns := st })
  | (.silent, st) => (.ok (), { w with warns := st })
  | (.print m, st) => say cfg (.warning m) { w with warns := st }
  | (.panic, st) => (.panic, { w with warns := st })
/-- `CTRLC.load` followed by `bail!` (core/src/core.rs:343-345, 417-419). -/
def checkCtrlc (env : Env σ) : M σ Unit := fun w =>
  let (b, ext) := env.ctrlc w
  bind (note (.ctrlc b)) (fun _ => if b then fail .ctrlc else ret ()) { w with ext }
/-- Open a file with truncation and write it (core/src/span.rs:182-186, core/src/core.rs:780-785). -/
def writeFile (env : Env σ) (f : SourceFile) (t : Text) : M σ Unit := fun w =>
  match env.write w f t with
  | (none, ext) => (.ok (), { w with fs := upd w.fs f t, ext })
  | (some left, ext) => (.err .io, { w with fs := upd w.fs f left, ext })
/-- An `Option` whose `none` is a panic. -/
def orPanic : Option α → M σ α
  | some a => ret a
  | none => panics

/-- Which mismatch `skip_past_removals` found (core/src/core.rs:47-51). -/
inductive Mismatch where
  | missing (r : Removal)
  | unexpected (r : Removal)
deriving DecidableEq, Repr

/-- Result of `skip_past_removals`: what remains of the two iterators, the mismatch, the number of candidates
skipped. -/
structure Skipped where
  rest : List Candidate
  past : List Removal
  mismatch : Option Mismatch
  n : Nat
deriving DecidableEq, Repr

/-- The loop of `skip_past_removals` (core/src/core.rs:584-624), with the mismatch found so far. -/
def skipPast (mm : Option Mismatch) : List Candidate → List Removal → Skipped
  | [], past => ⟨[], past, mm, 0⟩
  | c :: cs, [] => ⟨c :: cs, [], mm, 0⟩
  | c :: cs, r :: past =>
    match c.span.cmp r.span with
    | .lt => ⟨c :: cs, r :: past, some (.unexpected r), 0⟩
    | .eq => let s := skipPast mm cs past; { s with n := s.n + 1 }
    | .gt => skipPast (match mm with | none => some (.missing r) | some m => some m) (c :: cs) past
termination_by cs past => cs.length + past.length

theorem skipPast_length (mm cs past) : (skipPast mm cs past).rest.length ≤ cs.length := by
  fun_induction skipPast mm cs past <;> grind

/-- The message of `update_progress` (core/src/core.rs:658-667); `kind` is the displayed `MismatchKind` (:47-58). The entry's location is
written relative to the project's root (in the program, to the current directory). -/
def filesChangedMsg (kind : Text) (r : Removal) : Text :=
  "configuration or source files have changed since necessist.db was created; the following entry is ".toList ++ kind ++ ":\n    ".toList ++
    r.span.display ++ ": `".toList ++ r.text.filter (· != '\r') ++ "`".toList

/-- The warning about a file that does not build when instrumented (core/src/core.rs:791-799), without the text of the error, and with
the path relative to the project's root. -/
def nonbuildableCall (f : SourceFile) : WarnCall :=
  ⟨.instrumentationNonbuildable, none, "instrumentation caused `".toList ++ f.display ++ "` to be nonbuildable".toList, false⟩

/-- The warning about a failed dry run (core/src/core.rs:336-342), without the text of the error, and with the path relative to the
project's root. -/
def dryRunFailedCall (f : SourceFile) : WarnCall := ⟨.dryRunFailed, some f.display, "dry run failed".toList, false⟩

/-- `update_progress` (core/src/core.rs:650-676). -/
def updateProgress (cfg : Cfg) (mm : Option Mismatch) (n : Nat) : M σ Unit :=
  bind (match mm with
    | none => ret ()
    | some (.missing r) => warnM cfg ⟨.filesChanged, none, filesChangedMsg "missing".toList r, true⟩
    | some (.unexpected r) => warnM cfg ⟨.filesChanged, none, filesChangedMsg "unexpected".toList r, true⟩)
  fun _ w => (.ok (), { w with progress := w.progress + n })

/-- `skip_past_removals` then `update_progress`, as at core/src/core.rs:320-322 and 364-366. -/
def skipPastM (cfg : Cfg) (s : Skipped) : M σ Unit := fun w =>
  updateProgress cfg s.mismatch s.n { w with past := s.past }

/-- `sqlite::insert` (core/src/sqlite.rs:155-179); the primary key is the displayed span, and a violation is an
error. -/
def insertRow (env : Env σ) (r : Removal) : M σ Unit := fun w =>
  match w.db with
  | none => (.ok (), w)
  | some rows =>
    bind (ask fun w => env.insert w r.span) (fun url w =>
      let row := Row.ofRemoval url r
      if rows.any (fun x => x.span == row.span) then (.err .db, w)
      else note (.insert row) { w with db := some (rows ++ [row]) }) w

/-- `emit_to_console` (core/src/core.rs:889-914). -/
def emitToConsole (cfg : Cfg) (r : Removal) : M σ Unit :=
  if !cfg.warn.quiet && (cfg.verbose || r.outcome == .passed) then say cfg (.removal r) else ret ()

/-- `emit` (core/src/core.rs:871-887). -/
def emit (cfg : Cfg) (env : Env σ) (r : Removal) : M σ Unit :=
  bind (insertRow env r) fun _ => emitToConsole cfg r

/-- `skip_present_spans` (core/src/core.rs:626-648): rows are written only if there is a database. -/
def skipPresent (cfg : Cfg) (env : Env σ) : List Candidate → M σ Unit
  | [] => ret ()
  | c :: cs => fun w =>
    bind (if w.db.isSome then
        bind (orPanic (sourceText? (cfg.src c.span.file) c.span.start c.span.stop)) fun text =>
          insertRow env ⟨c.span, text, .skipped⟩
      else ret ())
    (fun _ => skipPresent cfg env cs) w

/-- `timeout` (core/src/core.rs:1003-1009), in milliseconds; `DEFAULT_TIMEOUT` is 60 s (core/src/core.rs:38). -/
def timeoutMs (cfg : Cfg) : Option Nat :=
  match cfg.timeout with
  | none => some 60000
  | some 0 => none
  | some (n + 1) => some ((n + 1) * 1000)

/-- `job.wait_timeout` / `job.wait` (core/src/core.rs:835-843): `none` if still running at the deadline. -/
def waitFor (limit : Option Nat) (p : Proc) : Res Err (Option Bool) :=
  if p.waitFails then .err .io
  else
    match limit, p.duration with
    | some l, some d => if d ≤ l then .ok (some p.success) else .ok none
    | some _, none => .ok none
    | none, some _ => .ok (some p.success)
    | none, none => .hang

/-- `perform_exec` (core/src/core.rs:820-869). Without the thread limit (:826-831, 845-846), for which
see `Limit.performExec`. -/
def performExec (cfg : Cfg) (env : Env σ) (c : Candidate) (t : Text) (hasPost : Bool) : M σ (Option Outcome) :=
  bind (note (.startTest c t (cfg.ident c.span))) fun _ =>
  bind (ask fun w => env.start w t c.span (cfg.ident c.span)) fun p =>
  bind (fun w => (waitFor (timeoutMs cfg) p, w)) fun status =>
  match status with
  | some success =>
    bind (if hasPost then ask env.post else ret true) fun ran =>
    ret (if ran then some (if success then .passed else .failed) else none)
  | none =>
    bind (note (.kill c t)) fun _ =>
    bind (ask env.kill) fun _ =>
    bind (ask env.reap) fun _ =>
    ret (some .timedOut)

/-- The body of the closure at core/src/core.rs:391-415, for a test that is actually run. `explicit` is
`explicit_removal`. -/
def oneTest (cfg : Cfg) (env : Env σ) (c : Candidate) (explicit : Bool) (t : Text) : M σ (Option Outcome) :=
  bind (note (.buildTest c t)) fun _ =>
  bind (ask fun w => env.exec w t c.span) fun r =>
  bind (match r with
    | some hasPost => performExec cfg env c t hasPost
    | none => if explicit then ret (some .nonbuildable) else panics) fun res =>
  bind (note (.tested c t res)) fun _ =>
  ret res

/-- The `try_fold` at core/src/core.rs:387-415. -/
def runTests (cfg : Cfg) (env : Env σ) (c : Candidate) (explicit : Bool) :
    List Text → Option Outcome → M σ (Option Outcome)
  | [], acc => ret acc
  | t :: ts, acc =>
    if acc ≠ some .passed then runTests cfg env c explicit ts acc
    else bind (oneTest cfg env c explicit t) fun r => runTests cfg env c explicit ts r

/-- Drop the instrumentation backup, if any: the file is restored. -/
def dropInstr (w : World σ) : World σ :=
  match w.instr with
  | none => w
  | some (f, t) => { w with fs := upd w.fs f t, instr := none }

/-- A scope that owns a backup of `f`, made at its start (`Backup::new` may fail): on leaving, `f` is restored. -/
def withBackup (env : Env σ) (f : SourceFile) (m : M σ α) : M σ α :=
  bind (ask fun w => env.backup w f) fun _ w => finally_ m (fun w' => { w' with fs := upd w'.fs f (w.fs f) }) w

/-- The rest of a loop iteration after the removal has been made: core/src/core.rs:385-427. -/
def testAndRecord (cfg : Cfg) (env : Env σ) (c : Candidate) (text : Text) (explicit : Bool) : M σ Unit :=
  bind (runTests cfg env c explicit c.tests (some .passed)) fun outcome =>
  bind (checkCtrlc env) fun _ =>
  bind (match outcome with
    | some o => emit cfg env ⟨c.span, text, o⟩
    | none => ret ()) fun _ =>
  updateProgress cfg none 1

/-- `span.remove()` (core/src/span.rs:171-189) and the rest of the iteration; the explicit backup lives until the
end of the iteration (core/src/core.rs:378-383). -/
def removeAndTest (cfg : Cfg) (env : Env σ) (c : Candidate) (text : Text) : M σ Unit :=
  withBackup env c.span.file
    (bind (orPanic (removeText? (cfg.src c.span.file) c.span.start c.span.stop)) fun x =>
      bind (writeFile env c.span.file x.2) fun _ => testAndRecord cfg env c text true)

/-- core/src/core.rs:374-427. -/
def candidateBody (cfg : Cfg) (env : Env σ) (c : Candidate) : M σ Unit :=
  bind (orPanic (sourceText? (cfg.src c.span.file) c.span.start c.span.stop)) fun text w =>
    if w.instr = none ∨ c.kind ≠ .statement then removeAndTest cfg env c text w
    else testAndRecord cfg env c text false w

/-- One candidate (core/src/core.rs:368-427). -/
def oneCandidate (cfg : Cfg) (env : Env σ) (c : Candidate) : M σ Unit := fun w =>
  candidateBody cfg env c (if c.kind ≠ .statement then dropInstr w else w)

/-- The `loop` at core/src/core.rs:363-428. -/
def candidateLoop (cfg : Cfg) (env : Env σ) (cs : List Candidate) : M σ Unit := fun w =>
  bind (skipPastM cfg (skipPast none cs w.past)) (fun _ =>
    match h : (skipPast none cs w.past).rest with
    | [] => ret ()
    | c :: rest =>
      have : rest.length < cs.length := by
        have := skipPast_length none cs w.past
        rw [h] at this; exact this
      bind (oneCandidate cfg env c) fun _ => candidateLoop cfg env rest) w
termination_by cs.length

/-- The leading statements of the candidates that remain (core/src/core.rs:761-770, 806-818). -/
def leadingStatements (cs : List Candidate) : List Candidate := cs.takeWhile fun c => c.kind = .statement

/-- `statement_prefix_and_suffix` for each (core/src/core.rs:763-770). -/
def wraps (env : Env σ) : List Candidate → M σ (List Wrap)
  | [] => ret []
  | c :: cs =>
    bind (ask fun w => env.wrap w c.span) fun (p, s) =>
      bind (wraps env cs) fun ws => ret (⟨c.span.start, c.span.stop, p, s⟩ :: ws)

/-- The body of `instrument_statements` after the backup has been made (core/src/core.rs:745-803); `true` if the
instrumented file builds. -/
def instrumentBody (cfg : Cfg) (env : Env σ) (f : SourceFile) (cs : List Candidate) : M σ Bool :=
  bind (ask fun w => env.instrFile w f (leadingStatements cs).length) fun pre =>
  bind (wraps env (leadingStatements cs)) fun ws =>
  bind (orPanic (instrumentText (cfg.src f) pre ws)) fun contents =>
  bind (writeFile env f contents) fun _ =>
  bind (note (.buildFile f)) fun _ =>
  bind (askTry fun w => env.build w f) fun r =>
  match r with
  | .ok _ => ret true
  | .error _ =>
    bind (note (.buildFailed f)) fun _ =>
    bind (warnM cfg (nonbuildableCall f)) fun _ => ret false

/-- `instrument_statements` (core/src/core.rs:736-804): the backup is kept exactly if the result is
`Ok(Some(backup))`, otherwise dropping it restores the file. -/
def instrumentStatements (cfg : Cfg) (env : Env σ) (f : SourceFile) (cs : List Candidate) : M σ Unit :=
  bind (ask fun w => env.backup w f) fun _ w =>
    match instrumentBody cfg env f cs w with
    | (.ok true, w') => (.ok (), { w' with instr := some (f, w.fs f) })
    | (.ok false, w') => (.ok (), { w' with fs := upd w'.fs f (w.fs f) })
    | (.err e, w') => (.err e, { w' with fs := upd w'.fs f (w.fs f) })
    | (.panic, w') => (.panic, { w' with fs := upd w'.fs f (w.fs f) })
    | (.hang, w') => (.hang, w')

/-- One source file (core/src/core.rs:317-429), after the first `skip_past_removals`; the instrumentation backup is
dropped at the end of the scope, whichever way it is left. -/
def oneFile (cfg : Cfg) (env : Env σ) (f : SourceFile) (cs : List Candidate) : M σ Unit :=
  bind (say cfg (.dryRunning f)) fun _ =>
  bind (note (.dryRun f)) fun _ =>
  bind (askTry fun w => env.dryRun w f) fun r =>
  match r with
  | .error _ =>
    bind (note (.dryRunFailed f)) fun _ =>
    bind (warnM cfg (dryRunFailedCall f)) fun _ =>
    bind (checkCtrlc env) fun _ =>
    bind (skipPresent cfg env cs) fun _ =>
    updateProgress cfg none cs.length
  | .ok _ =>
    bind (checkCtrlc env) fun _ =>
    bind (say cfg (.mutilating f)) fun _ =>
    finally_ (bind (instrumentStatements cfg env f cs) fun _ => candidateLoop cfg env cs) dropInstr

/-- The `for` loop of `run` (core/src/core.rs:317-433). -/
def runFiles (cfg : Cfg) (env : Env σ) : List (SourceFile × List Candidate) → M σ Unit
  | [] => ret ()
  | (f, cs) :: files => fun w =>
    let s := skipPast none cs w.past
    bind (skipPastM cfg s) (fun _ =>
      bind (if s.rest.isEmpty then ret () else oneFile cfg env f s.rest) fun _ => runFiles cfg env files) w

end Necessist.Run
