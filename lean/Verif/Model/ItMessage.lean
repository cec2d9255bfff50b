import Verif.Model.Directives
import Verif.Model.Run
/-!
# `it` messages (Mocha, Vitest, Hardhat, Anchor)

Models `Inner::dry_run` and `Inner::exec` (backends/src/ts/inner/mod.rs:92-172) and Mocha's `it_message_extractor`
(backends/src/ts/mocha.rs:16-49).
-/
namespace Necessist.ItMessage

/-- `ItMessageState` (backends/src/ts/inner/mod.rs:48-54). -/
inductive ItState where
  | notFound | found | warningEmitted
deriving DecidableEq, Repr

/-- `source_file_it_message_state_map` (backends/src/ts/inner/mod.rs:62): `none` for a file that is not in the map; within a file,
a message that is not in the map is as one with the default state `NotFound` (`or_default`). -/
abbrev Table := SourceFile → Option (Text → ItState)

/-- Change the entry of one file. -/
def Table.set (tb : Table) (f : SourceFile) (m : Text → ItState) : Table := fun f' => if f' = f then some m else tb f'

/-- What the command that a dry run executes does. -/
inductive Output where
  /-- it cannot be executed, or does not exit successfully -/
  | failed
  /-- success, but messages cannot be extracted from its output -/
  | unusable
  /-- success, and these are the messages -/
  | messages (ms : List Text)
deriving DecidableEq, Repr

/-- `Inner::dry_run` (backends/src/ts/inner/mod.rs:92-116). -/
def dryRun (f : SourceFile) (o : Output) (tb : Table) : Bool × Table :=
  match o with
  | .failed => (false, tb)
  | .unusable => (false, tb.set f ((tb f).getD fun _ => .notFound))
  | .messages ms => (true, tb.set f fun m => if m ∈ ms then .found else ((tb f).getD fun _ => .notFound) m)

/-- What `Inner::exec` returns. -/
inductive ExecResult where
  /-- `Ok(Ok(..))`: the command is executed -/
  | execute
  /-- `Ok(Err(..))` -/
  | notBuildable
  /-- `Err(..)`: a warning is denied -/
  | denied
  /-- "source file is not in map" -/
  | panic
deriving DecidableEq, Repr

/-- The text of the warning; `quoted` is the name formatted with `{:?}`. -/
def notFoundMsg (quoted : Text) : Text := "`it` message ".toList ++ quoted ++ " was not found during dry run".toList

/-- `Inner::exec` (backends/src/ts/inner/mod.rs:129-172). Also returned: whether `source_warn` was called, and what it printed.
`debug` is `{:?}` of a string. -/
def exec (o : WarnOpts) (debug : Text → Text) (test : Text) (span : Span) (tb : Table) (ws : WStates) :
    ExecResult × Bool × List WarnMsg × Table × WStates :=
  match tb span.file with
  | none => (.panic, false, [], tb, ws)
  | some m =>
    match m test with
    | .found => (.execute, false, [], tb, ws)
    | .warningEmitted => (.notBuildable, false, [], tb, ws)
    | .notFound =>
      match warnInternal o ws ⟨.itMessageNotFound, some span.display, notFoundMsg (debug test), false⟩ with
      | (.print msg, ws) => (.notBuildable, true, [msg], tb.set span.file fun t => if t = test then .warningEmitted else m t, ws)
      | (.silent, ws) => (.notBuildable, true, [], tb.set span.file fun t => if t = test then .warningEmitted else m t, ws)
      | (_, ws) => (.denied, true, [], tb, ws)

/-! ### Histories -/

/-- A use of the backend. -/
inductive Op where
  | dryRun (f : SourceFile) (o : Output)
  | exec (test : Text) (span : Span)
deriving DecidableEq, Repr

/-- What is seen of it. -/
inductive Seen where
  | dryRun (ok : Bool)
  | exec (r : ExecResult) (warned : Bool) (printed : List WarnMsg)
deriving DecidableEq, Repr

/-- A sequence of uses; it ends when one is denied or panics. -/
def history (o : WarnOpts) (debug : Text → Text) : List Op → Table → WStates → List Seen
  | [], _, _ => []
  | .dryRun f out :: ops, tb, ws => .dryRun (dryRun f out tb).1 :: history o debug ops (dryRun f out tb).2 ws
  | .exec test span :: ops, tb, ws =>
    let r := exec o debug test span tb ws
    .exec r.1 r.2.1 r.2.2.1 ::
      (if r.1 = .denied ∨ r.1 = .panic then [] else history o debug ops r.2.2.2.1 r.2.2.2.2)

/-- The table at the start (backends/src/ts/inner/mod.rs:88). -/
def Table.init : Table := fun _ => none

/-! ### As part of a run -/

/-- Forget the table. -/
def forget {σ} (w : Run.World (Table × σ)) : Run.World σ :=
  ⟨w.fs, w.db, w.warns, w.out, w.progress, w.trace, w.instr, w.past, w.ext.2⟩

/-- A call that does not touch the table. -/
def lift {σ α} (w : Run.World (Table × σ)) (r : Run.Reply σ α) : Run.Reply (Table × σ) α := 
  ⟨r.res, r.warns, (w.ext.1, r.ext), r.said⟩

/-- The backend in the run loop: `output` is what the command of a dry run does. The rest of the outside is `base`. -/
def inRun {σ} (base : Run.Env σ) (o : WarnOpts) (debug : Text → Text) (output : Run.World σ → SourceFile → Output) :
    Run.Env (Table × σ) where
  dryRun w f :=
    let r := dryRun f (output (forget w) f) w.ext.1
    ⟨if r.1 then .ok () else .err .backend, w.warns, (r.2, (base.dryRun (forget w) f).ext), []⟩
  exec w test span :=
    let r := exec o debug test span w.ext.1 w.warns
    ⟨(match r.1 with
      | .execute => .ok (some false)
      | .notBuildable => .ok none
      | .denied => .err .denied
      | .panic => .panic), r.2.2.2.2, (r.2.2.2.1, (base.exec (forget w) test span).ext), r.2.2.1⟩
  ctrlc w := ((base.ctrlc (forget w)).1, (w.ext.1, (base.ctrlc (forget w)).2))
  backup w f := lift w (base.backup (forget w) f)
  write w f t := ((base.write (forget w) f t).1, (w.ext.1, (base.write (forget w) f t).2))
  instrFile w f n := lift w (base.instrFile (forget w) f n)
  wrap w s := lift w (base.wrap (forget w) s)
  build w f := lift w (base.build (forget w) f)
  start w t s i := lift w (base.start (forget w) t s i)
  post w := lift w (base.post (forget w))
  kill w := lift w (base.kill (forget w))
  reap w := lift w (base.reap (forget w))
  insert w s := lift w (base.insert (forget w) s)

/-! ### Mocha's output -/

/-- ASCII digits. -/
def isDigit (c : Char) : Bool := '0' ≤ c && c ≤ '9'

/-- `t` is `(.*) \([0-9]+<unit>\)` for the whole of `t`: the captured group. The last `(` with a space before it starts the part in
parentheses, as no other character of that part is `(`. -/
def stripParens (unit : Text) (t : Text) : Option Text :=
  let r := t.reverse
  if (unit ++ [')']).reverse.isPrefixOf r then
    let r := r.drop (unit ++ [')']).length
    let ds := r.takeWhile isDigit
    match ds, r.drop ds.length with
    | [], _ => none
    | _ :: _, '(' :: ' ' :: m => some m.reverse
    | _ :: _, _ => none
  else none

/-- `. (rest)$` at position `k`. The rest is matched by `f`. -/
def matchAt (f : Text → Option Text) (line : Text) (k : Nat) : Option Text :=
  match line.drop k with
  | _ :: ' ' :: rest => f rest
  | _ => none

/-- `^\s*. (rest)$` with `\s*` matching `k` characters, or if the rest does not match, fewer. -/
def afterMark (f : Text → Option Text) (line : Text) : Nat → Option Text
  | 0 => matchAt f line 0
  | k + 1 => match matchAt f line (k + 1) with
    | some m => some m
    | none => afterMark f line k

/-- Number of leading white space characters. -/
def indent (line : Text) : Nat := (line.takeWhile isWhitespace).length

/-- One iteration of the loop of `it_message_extractor` (backends/src/ts/mocha.rs:39-46) with `LINE_WITH_GAS_RE`,
`LINE_WITH_TIME_RE` and `LINE_WITHOUT_GAS_OR_TIME_RE` (backends/src/ts/mocha.rs:16-33). -/
def extractLine (line : Text) : Option Text :=
  match afterMark (stripParens " gas".toList) line (indent line) with
  | some m => some m
  | none => match afterMark (stripParens "ms".toList) line (indent line) with
    | some m => some m
    | none => afterMark some line (indent line)

/-- `it_message_extractor` (backends/src/ts/mocha.rs:35-49) on valid UTF-8. -/
def mochaMessages (stdout : Text) : List Text := (lines stdout).filterMap extractLine

end Necessist.ItMessage
