import Verif.Model.Anchor
import Verif.Model.Exec
import Verif.Model.Foundry
import Verif.Model.ItMessage
import Verif.Model.Rust
/-!
# The commands that the frameworks execute

Models `RunAdapter` (backends/src/running.rs:107-255), the commands of the frameworks that use it (`RunLow` for Rust, Go, PHP and Foundry),
and `RunHigh` for Hardhat, Vitest and Anchor, with the state of Mocha's `Inner`. For Anchor, it is modelled here which test script is in
Anchor.toml when a command is executed; how this file is changed and restored is in `Verif.Model.Anchor`. Windows (`script`,
backends/src/ts/utils.rs:42-47) is not modelled.
-/
namespace Necessist.Cmd
open Run
open Cache (Path)

/-- `std::process::Command`, as far as it is used; `exec_from_command` (core/src/util.rs:21-35) copies all of it. -/
structure Command where
  program : Text
  args : List Text
  /-- environment variables that are set -/
  vars : List (Text × Text)
  /-- the working directory, if it is not Necessist's -/
  dir : Option Path
  /-- not a part of the command: for Anchor, the test script that Necessist has put into Anchor.toml when the command is executed -/
  script : Option Text
deriving DecidableEq, Repr

/-- `Command::args`. -/
def Command.add (c : Command) (args : List Text) : Command := { c with args := c.args ++ args }
/-- `Command::env`. -/
def Command.env (c : Command) (key value : Text) : Command := { c with vars := c.vars ++ [(key, value)] }

/-- What a command printed, and whether it was successful. ANSI escapes have been stripped (backends/src/utils.rs:10-23). -/
structure Output where
  success : Bool
  stdout : List UInt8
deriving DecidableEq, Repr

/-- Something that was done outside. -/
inductive Ran where
  /-- it was looked whether a file or directory exists in the root (`none`: this could not be found out) -/
  | asked (name : Text) (answer : Option Bool)
  /-- a command was executed to its end (`none`: it could not be executed, or did not end) -/
  | ran (c : Command) (o : Option Output)
  /-- a test's command was started: the process (`none`: it could not be started) -/
  | started (c : Command) (p : Option Proc)
  /-- the captured output of a test was looked at -/
  | looked (stdout : List UInt8)
deriving DecidableEq, Repr

/-- The closure that `exec` returns: the test, its span, `init` and `f` (backends/src/running.rs:182-246). -/
structure Closure where
  test : Text
  span : Span
  init : Bool
  pred : Text → Bool

/-- What `exec` returns. -/
structure Next where
  cmd : Command
  post : Option Closure
  /-- for Anchor: what `exec` returns holds the backup of Anchor.toml (backends/src/anchor/mod.rs:148-156) -/
  holds : Bool

/-- The state of the outside world, with that of the backend. -/
structure St (σ : Type) where
  /-- what was executed so far -/
  ran : List Ran
  /-- what `exec` returned last -/
  next : Option Next
  /-- `source_file_it_message_state_map` (backends/src/ts/inner/mod.rs:62) -/
  it : ItMessage.Table
  /-- the test script that is in Anchor.toml instead of the original one -/
  script : Option Text
  rest : σ

/-- What is around the backend. -/
structure Around (σ : Type) where
  /-- everything that is not about commands -/
  base : Env σ
  /-- the project's root -/
  root : Path
  /-- `context.opts.args` -/
  args : List Text
  /-- `context.root.join(..).try_exists_wc()` -/
  exists_ : World σ → Text → Reply σ Bool
  /-- execute a command to its end (backends/src/utils.rs:9-24) -/
  output : World σ → Command → Reply σ Output
  /-- start a command (core/src/core.rs:833) -/
  spawn : World σ → Command → Reply σ Proc
  /-- create the temporary files (backends/src/running.rs:185-190) -/
  temp : World σ → Reply σ Unit
  /-- read back what a test printed, and its exit code (backends/src/running.rs:195-197, 223-231) -/
  captured : World σ → Reply σ (List UInt8 × Option Nat)
  warn : WarnOpts
  /-- `str::from_utf8` -/
  decode : List UInt8 → Option Text
  invalidMsg : List UInt8 → Text
  outputText : List UInt8 → Text
  /-- `{:?}` of a string -/
  debug : Text → Text
  /-- what `Anchor::new` found in Anchor.toml -/
  anchor : Anchor.Anchor
  /-- make a backup of Anchor.toml, and replace its test script (backends/src/anchor/mod.rs:178-205; see `Anchor.patched`) -/
  edit : World σ → Text → Reply σ Unit

variable {σ α : Type}

/-- The world without the backend. -/
def forget (w : World (St σ)) : World σ := ⟨w.fs, w.db, w.warns, w.out, w.progress, w.trace, w.instr, w.past, w.ext.rest⟩

/-- A call that executes no command. -/
def inner (f : World σ → Reply σ α) : M (St σ) α := fun w =>
  let r := f (forget w)
  (r.res, { w with warns := r.warns, out := w.out ++ r.said.map .warning, ext := { w.ext with rest := r.ext } })

/-- The value, if there is one. -/
def valueOf : Res Err α → Option α
  | .ok a => some a
  | _ => none

/-- `context.root.join(name).try_exists_wc()?` -/
def exists? (x : Around σ) (name : Text) : M (St σ) Bool := fun w =>
  let r := x.exists_ (forget w) name
  (r.res, { w with warns := r.warns, out := w.out ++ r.said.map .warning, ext := { w.ext with ran := w.ext.ran ++ [.asked name (valueOf r.res)], rest := r.ext } })

/-- `output_stripped_of_ansi_escapes` (backends/src/utils.rs:9-24). -/
def output (x : Around σ) (c : Command) : M (St σ) Output := fun w =>
  let r := x.output (forget w) c
  (r.res, { w with warns := r.warns, out := w.out ++ r.said.map .warning, ext := { w.ext with ran := w.ext.ran ++ [.ran c (valueOf r.res)], rest := r.ext } })

/-- … followed by an error if the command does not succeed. -/
def checked (x : Around σ) (c : Command) : M (St σ) Unit :=
  bind (output x c) fun o => if o.success then ret () else fail .backend

/-! ### Paths -/

/-- The path of a source file (core/src/source_file.rs:20-37). -/
def absolute (x : Around σ) (f : SourceFile) : Path := x.root ++ f.path

/-- A relative path as text. -/
def showRelative (p : Path) : Text := List.intercalate ['/'] p

/-- `util::strip_prefix(path, context.root)` as text (core/src/util.rs:73-86). -/
def relative (x : Around σ) (p : Path) : Option Text := (Rust.stripPath p x.root).map showRelative

/-! ### `RunLow` -/

/-- `RunLow` (backends/src/running.rs:31-59), as far as it is about commands; `none` is a panic. -/
structure Low (σ : Type) where
  install : M (St σ) Unit
  runFile : Path → Option Command
  buildFile : Path → Option Command
  buildTest : Text → Path → Option Command
  runTest : Text → Path → Option (Command × List Text × Option (Bool × (Text → Bool)))

/-- `install_node_modules` (backends/src/ts/utils.rs:8-35). -/
def installNode (x : Around σ) : M (St σ) Unit :=
  bind (exists? x "node_modules".toList) fun b =>
  if b then ret () else
  bind (exists? x "pnpm-lock.yaml".toList) fun pnpm =>
  bind (if pnpm then ret ⟨"pnpm".toList, ["install".toList], [], none, none⟩
    else bind (exists? x "yarn.lock".toList) fun yarn =>
      ret (if yarn then ⟨"yarn".toList, [], [], none, none⟩ else (⟨"npm".toList, ["install".toList], [], none, none⟩ : Command))) fun c =>
  checked x { c with dir := some x.root }

/-- `source_file_package_path` (backends/src/go/mod.rs:593-599): `Path::new(".").join(stripped)`, which for an empty path is `./`. -/
def goPackage (x : Around σ) (file : Path) : Option Text :=
  (Rust.parent file).bind fun dir => (relative x dir).map fun t => "./".toList ++ t

/-- `Go::test_command` (backends/src/go/mod.rs:580-591). -/
def goTest (x : Around σ) (file : Path) : Option Command :=
  (goPackage x file).map fun p => ⟨"go".toList, ["test".toList, p], [], some x.root, none⟩

/-- `RunLow for Go` (backends/src/go/mod.rs:447-538). -/
def go (x : Around σ) : Low σ where
  install := ret ()
  runFile f := goTest x f
  buildFile f := (goTest x f).map (·.add ["-run=^$".toList])
  buildTest _ f := (goTest x f).map (·.add ["-run=^$".toList])
  runTest t f := (goTest x f).map fun c => (c.add ["-run=^".toList ++ t ++ "$".toList, "-v".toList], [], some (false, Exec.goRan t))

/-- `RunLow for Php` (backends/src/php/mod.rs:524-603). -/
def php (x : Around σ) : Low σ where
  install :=
    bind (exists? x "vendor".toList) fun b =>
    if b then ret () else checked x ⟨"composer".toList, ["install".toList], [], some x.root, none⟩
  runFile f := (relative x f).map fun r => ⟨"vendor/bin/phpunit".toList, [r], [], some x.root, none⟩
  buildFile f := some ⟨"php".toList, ["-l".toList, Rust.showPath f], [], none, none⟩
  buildTest _ f := some ⟨"php".toList, ["-l".toList, Rust.showPath f], [], none, none⟩
  runTest t f := (relative x f).map fun r =>
    (⟨"vendor/bin/phpunit".toList, ["--filter".toList, "^.*::".toList ++ t ++ "$".toList, r], [], some x.root, none⟩, [], none)

/-- `Foundry::test_command` (backends/src/foundry/mod.rs:471-485). -/
def forgeTest (x : Around σ) (file : Path) : Option Command :=
  (relative x file).map fun r =>
    ⟨"forge".toList, ["test".toList, "--match-path".toList, r], [("FOUNDRY_FUZZ_RUNS".toList, "1".toList)], some x.root, none⟩

/-- `RunLow for Foundry` (backends/src/foundry/mod.rs:395-469). -/
def foundry (x : Around σ) : Low σ where
  install :=
    bind (exists? x "package.json".toList) fun b => if b then installNode x else ret ()
  runFile f := forgeTest x f
  buildFile _ := some ⟨"forge".toList, ["build".toList], [], some x.root, none⟩
  buildTest _ _ := some ⟨"forge".toList, ["build".toList], [], some x.root, none⟩
  runTest t f := (forgeTest x f).map fun c => (c.add ["--match-test".toList, t], [], some (false, Exec.foundryRan t))

/-- A program's name and its arguments as a command. -/
def ofList : List Text → Command
  | [] => ⟨[], [], [], none, none⟩
  | p :: args => ⟨p, args, [], none, none⟩

/-- `RunLow for Rust` (backends/src/rust/mod.rs:624-688), with the caches as they are after parsing. -/
def rust (caches : Rust.Caches) : Low σ where
  install := ret ()
  runFile f := (Rust.testCommand f caches).map ofList
  buildFile f := (Rust.commandToBuild f caches).map ofList
  buildTest _ f := (Rust.commandToBuild f caches).map ofList
  runTest t f := (Rust.commandToRunTest f t caches).map fun (c, final) => (ofList c, final, some (false, Exec.rustRan))

/-! ### `RunHigh` -/

/-- `RunHigh` (backends/src/lib.rs), as far as it is about commands. -/
structure High (σ : Type) where
  dryRun : SourceFile → M (St σ) Unit
  build : SourceFile → M (St σ) Unit
  /-- `some b`: the test can be run, and `b` tells whether its output is then looked at -/
  exec : Text → Span → M (St σ) (Option Bool)

/-- Return what is to be executed. -/
def prepare (c : Command) (post : Option Closure) : M (St σ) (Option Bool) := fun w =>
  (.ok (some post.isSome), { w with ext := { w.ext with next := some ⟨c, post, false⟩ } })

/-- `RunAdapter::exec` (backends/src/running.rs:156-254). -/
def adapterExec (x : Around σ) (low : Low σ) (t : Text) (span : Span) : M (St σ) (Option Bool) :=
  bind (orPanic (low.buildTest t (absolute x span.file))) fun c =>
  bind (output x (c.add x.args)) fun o =>
  if !o.success then ret none else
  bind (orPanic (low.runTest t (absolute x span.file))) fun (c, final, pred) =>
  match pred with
  | some (init, f) => bind (inner x.temp) fun _ => prepare ((c.add x.args).add final) (some ⟨t, span, init, f⟩)
  | none => prepare ((c.add x.args).add final) none

/-- `RunHigh for RunAdapter` (backends/src/running.rs:110-255). -/
def adapter (x : Around σ) (low : Low σ) : High σ where
  dryRun f :=
    bind low.install fun _ =>
    bind (orPanic (low.runFile (absolute x f))) fun c => checked x (c.add x.args)
  build f := bind (orPanic (low.buildFile (absolute x f))) fun c => checked x (c.add x.args)
  exec := adapterExec x low

/-- `Inner::dry_run` (backends/src/ts/inner/mod.rs:92-116); `extract` is the `it_message_extractor`. -/
def itDryRun (x : Around σ) (extract : List UInt8 → Option (List Text)) (f : SourceFile) (c : Command) : M (St σ) Unit :=
  bind (output x c) fun o w =>
    let r := ItMessage.dryRun f (if o.success then match extract o.stdout with
      | some ms => .messages ms
      | none => .unusable
    else .failed) w.ext.it
    (if r.1 then .ok () else .err .backend, { w with ext := { w.ext with it := r.2 } })

/-- `Inner::exec` (backends/src/ts/inner/mod.rs:129-172). -/
def itExec (x : Around σ) (t : Text) (span : Span) (c : Command) : M (St σ) (Option Bool) := fun w =>
  let r := ItMessage.exec x.warn x.debug t span w.ext.it w.warns
  let w := { w with warns := r.2.2.2.2, out := w.out ++ r.2.2.1.map .warning, ext := { w.ext with it := r.2.2.2.1 } }
  match r.1 with
  | .execute => prepare c none w
  | .notBuildable => (.ok none, w)
  | .denied => (.err .denied, w)
  | .panic => (.panic, w)

/-- `compile` (backends/src/hardhat/mod.rs:94-107). -/
def hardhatCompile (x : Around σ) : M (St σ) Unit :=
  checked x ((⟨"npx".toList, ["hardhat".toList, "compile".toList], [], some x.root, none⟩ : Command).add x.args)

/-- The command that runs the tests of a file (backends/src/hardhat/mod.rs:47-50, 83-86). -/
def hardhatTest (x : Around σ) (f : SourceFile) : Command :=
  (⟨"npx".toList, ["hardhat".toList, "test".toList, Rust.showPath (absolute x f)], [], some x.root, none⟩ : Command).add x.args

/-- Mocha's `it_message_extractor` (backends/src/ts/mocha.rs:33-47), which needs UTF-8. -/
def mochaExtract (x : Around σ) (stdout : List UInt8) : Option (List Text) := (x.decode stdout).map ItMessage.mochaMessages

/-- `RunHigh for Hardhat` (backends/src/hardhat/mod.rs:41-92). -/
def hardhat (x : Around σ) : High σ where
  dryRun f :=
    bind (installNode x) fun _ =>
    bind (hardhatCompile x) fun _ => itDryRun x (mochaExtract x) f (hardhatTest x f)
  build _ := hardhatCompile x
  exec t span := fun w =>
    match hardhatCompile x w with
    | (.ok _, w) => itExec x t span (hardhatTest x span.file) w
    | (.err _, w) => (.ok none, w)
    | (.panic, w) => (.panic, w)
    | (.hang, w) => (.hang, w)

/-- `serde_json::Value`, without the kinds that are not looked at. -/
inductive Json where
  | str (t : Text)
  | arr (vs : List Json)
  | obj (fields : List (Text × Json))
  | other

namespace Json
/-- `as_object().and_then(|object| object.get(key))` -/
def get (key : Text) : Json → Option Json
  | .obj fields => fields.lookup key
  | _ => none
/-- `as_array` -/
def asArr : Json → Option (List Json)
  | .arr vs => some vs
  | _ => none
/-- `as_str` -/
def asStr : Json → Option Text
  | .str t => some t
  | _ => none
end Json

/-- `extract_it_messages` (backends/src/ts/vitest.rs:47-75) of parsed JSON. -/
def vitestMessages (j : Json) : Option (List Text) :=
  ((j.get "testResults".toList).bind Json.asArr).map fun results =>
    ((results.filterMap fun r => (r.get "assertionResults".toList).bind Json.asArr).flatten).filterMap
      fun a => (a.get "title".toList).bind Json.asStr

/-- The `it_message_extractor` of Vitest (backends/src/ts/vitest.rs:22-30); `parse` is `str::parse::<Value>`. -/
def vitestExtract (x : Around σ) (parse : Text → Option Json) (stdout : List UInt8) : Option (List Text) :=
  (x.decode stdout).bind fun t => (parse t).bind vitestMessages

/-- `command_to_run_test` (backends/src/vitest/mod.rs:92-100); `VITEST_COMMAND_SUFFIX` (backends/src/ts/vitest.rs:13). -/
def vitestTest (x : Around σ) (f : SourceFile) : Command :=
  ((⟨"npx".toList, ["vitest".toList, "run".toList, Rust.showPath (absolute x f)], [], some x.root, none⟩ : Command).add
    ["--bail=1".toList, "--reporter=json".toList]).add x.args

/-- `RunHigh for Vitest` (backends/src/vitest/mod.rs:41-90). -/
def vitest (x : Around σ) (parse : Text → Option Json) : High σ where
  dryRun f := bind (installNode x) fun _ => itDryRun x (vitestExtract x parse) f (vitestTest x f)
  build f := checked x (vitestTest x f)
  exec t span := itExec x t span (vitestTest x span.file)

/-- `command_to_run_test` (backends/src/anchor/mod.rs:260-267), with the test script in Anchor.toml. -/
def anchorTest (x : Around σ) (script : Option Text) : Command :=
  (⟨"anchor".toList, ["test".toList], [], some x.root, script⟩ : Command).add x.args

/-- `patch_anchor_toml` (backends/src/anchor/mod.rs:178-205). If it fails, the backup is dropped. -/
def edit (x : Around σ) (f : SourceFile) (check : Bool) : M (St σ) Unit := fun w =>
  match inner (fun w => x.edit w (Anchor.script x.anchor (Rust.showPath (absolute x f)) check)) w with
  | (.ok _, w) => (.ok (), { w with ext := { w.ext with script := some (Anchor.script x.anchor (Rust.showPath (absolute x f)) check) } })
  | r => r

/-- Dropping the backup of Anchor.toml (or, for the other frameworks, nothing). -/
def letGo (w : World (St σ)) : World (St σ) := { w with ext := { w.ext with script := none } }

/-- `check` (backends/src/anchor/mod.rs:164-176). -/
def anchorCheck (x : Around σ) (f : SourceFile) : M (St σ) Unit :=
  bind (edit x f true) fun _ => finally_ (fun w => checked x (anchorTest x w.ext.script) w) letGo

/-- The `it_message_extractor` of Mocha or, with `json_extractor` (backends/src/anchor/mod.rs:46-49, 62-83), of Vitest
(backends/src/ts/vitest.rs:22-30). -/
def anchorExtract (x : Around σ) (parse : Text → Option Json) (stdout : List UInt8) : Option (List Text) :=
  match x.anchor.runner with
  | .mocha => mochaExtract x stdout
  | .vitest => (x.decode stdout).bind fun t => (Anchor.jsonExtractor t).bind fun t => (parse t).bind vitestMessages

/-- `RunHigh for Anchor` (backends/src/anchor/mod.rs:98-161). What `exec` returns always has a closure, which owns the backup. -/
def anchor (x : Around σ) (parse : Text → Option Json) : High σ where
  dryRun f :=
    bind (installNode x) fun _ =>
    bind (anchorCheck x f) fun _ =>
    bind (edit x f false) fun _ => finally_ (fun w => itDryRun x (anchorExtract x parse) f (anchorTest x w.ext.script) w) letGo
  build f := anchorCheck x f
  exec t span := fun w =>
    match anchorCheck x span.file w with
    | (.ok _, w) =>
      bind (edit x span.file false) (fun _ w =>
        match itExec x t span (anchorTest x none) w with
        | (.ok (some _), w) => (.ok (some true), { w with ext := { w.ext with next := some ⟨anchorTest x none, none, true⟩ } })
        | (.hang, w) => (.hang, w)
        | (r, w) => (r, letGo w)) w
    | (.err _, w) => (.ok none, w)
    | (.panic, w) => (.panic, w)
    | (.hang, w) => (.hang, w)

/-! ### In the run loop -/

/-- `exec.env("NECESSIST_REMOVAL", span.id())` and `exec.start()` (core/src/core.rs:402, 833). Without a preceding `exec` there is nothing to
start (this does not happen). -/
def start (x : Around σ) (ident : Text) : M (St σ) Proc := fun w =>
  match w.ext.next with
  | none => (.panic, w)
  | some n =>
    let c := n.cmd.env "NECESSIST_REMOVAL".toList ident
    let c := if n.holds then { c with script := w.ext.script } else c
    let r := x.spawn (forget w) c
    (r.res, { w with warns := r.warns, out := w.out ++ r.said.map .warning, ext := { w.ext with
      ran := w.ext.ran ++ [.started c (valueOf r.res)], rest := r.ext } })

/-- The closure's parameters. -/
def setup (x : Around σ) (c : Closure) (stdout : List UInt8) : Exec.Setup :=
  { warn := x.warn, decode := x.decode, invalidMsg := x.invalidMsg, outputText := x.outputText stdout, source := c.span.display,
    test := c.test, init := c.init, pred := c.pred }

/-- `postprocess` (backends/src/running.rs:194-246), and Anchor's (backends/src/anchor/mod.rs:148-156). -/
def post (x : Around σ) : M (St σ) Bool := fun w =>
  match w.ext.next with
  | some ⟨_, some c, _⟩ =>
    bind (inner x.captured) (fun (stdout, status) w =>
      let r := Exec.postprocess (setup x c stdout) stdout status ⟨[], w.warns⟩
      (r.1, { w with warns := r.2.warns, out := w.out ++ r.2.printed.map .warning, ext := { w.ext with ran := w.ext.ran ++ [.looked stdout] } })) w
  | some ⟨_, none, true⟩ => (.ok true, w)
  | _ => (.panic, w)

/-- Run `m`; unless it does not end or `keep` applies to its result, what `exec` returned is then dropped. -/
def thenLetGo (keep : α → Bool) (m : M (St σ) α) : M (St σ) α := fun w =>
  match m w with
  | (.ok r, w) => (.ok r, if keep r then w else letGo w)
  | (.hang, w) => (.hang, w)
  | (r, w) => (r, letGo w)

/-- The backend in the run loop. `perform_exec` (core/src/core.rs:820-869) owns the closure, so it is dropped when the process cannot be
started or waited for, at the end of `postprocess`, when the process cannot be killed, and when it has been waited for after having been
killed. -/
def inRun (x : Around σ) (high : High σ) : Env (St σ) where
  ctrlc w := ((x.base.ctrlc (forget w)).1, { w.ext with rest := (x.base.ctrlc (forget w)).2 })
  dryRun w f := reply (high.dryRun f) w
  backup w f := reply (inner fun w => x.base.backup w f) w
  write w f t := ((x.base.write (forget w) f t).1, { w.ext with rest := (x.base.write (forget w) f t).2 })
  instrFile w f n := reply (inner fun w => x.base.instrFile w f n) w
  wrap w s := reply (inner fun w => x.base.wrap w s) w
  build w f := reply (high.build f) w
  exec w t s := reply (high.exec t s) w
  start w _ _ i := reply (thenLetGo (fun p => !p.waitFails) (start x i)) w
  post w := reply (thenLetGo (fun _ => false) (post x)) w
  kill w := reply (thenLetGo (fun _ => true) (inner x.base.kill)) w
  reap w := reply (thenLetGo (fun _ => false) (inner x.base.reap)) w
  insert w s := reply (inner fun w => x.base.insert w s) w

end Necessist.Cmd
