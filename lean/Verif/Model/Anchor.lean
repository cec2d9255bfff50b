import Verif.Model.Run
/-!
# Anchor

Models backends/src/anchor/mod.rs. Reading and printing TOML, and which characters are word characters, are parameters.
-/
namespace Necessist.Anchor

/-! ### Documents -/

/-- A value of a document: a string, with the white space and comments around it (`Decor`), or another value. -/
inductive Val where
  | str (s : Text) (before after : Text)
  | other (raw : Text)
deriving DecidableEq, Repr

/-- `toml_edit::Item`: a value, a table, or an array of tables. An inline table is a value. -/
inductive Item where
  | value (v : Val)
  | table (entries : List (Text × Item))
  | tables (ts : List (List (Text × Item)))

/-- `toml_edit::DocumentMut`: the root table. Keys are unique within a table (otherwise the document is not parsed); the first is used
here. -/
abbrev Doc := List (Text × Item)

/-- Why a test script cannot be used. -/
inductive Problem where
  | noScripts | scriptsNotTable | noTest | testNotValue | testNotString | notParsed | noRunner
deriving DecidableEq, Repr

/-- `Table::get_mut`, with the changed item put back. -/
def editKey {α} (key : Text) (missing : Problem) (f : Item → Except Problem (α × Item)) :
    List (Text × Item) → Except Problem (α × List (Text × Item))
  | [] => .error missing
  | (k, i) :: es =>
    if k = key then
      match f i with
      | .error e => .error e
      | .ok (a, i) => .ok (a, (k, i) :: es)
    else
      match editKey key missing f es with
      | .error e => .error e
      | .ok (a, es) => .ok (a, (k, i) :: es)

/-- The `test` entry of the `scripts` table (backends/src/anchor/mod.rs:218-223). -/
def editTest {α} (f : Val → Except Problem (α × Val)) : Item → Except Problem (α × Item)
  | .value v =>
    match f v with
    | .error e => .error e
    | .ok (a, v) => .ok (a, .value v)
  | _ => .error .testNotValue

/-- The `scripts` table (backends/src/anchor/mod.rs:215-220). -/
def editScripts {α} (f : Val → Except Problem (α × Val)) : Item → Except Problem (α × Item)
  | .table es =>
    match editKey "test".toList .noTest (editTest f) es with
    | .error e => .error e
    | .ok (a, es) => .ok (a, .table es)
  | _ => .error .scriptsNotTable

/-- `edit_test_script` (backends/src/anchor/mod.rs:207-225). -/
def editTestScript {α} (doc : Doc) (f : Val → Except Problem (α × Val)) : Except Problem (α × Doc) :=
  editKey "scripts".toList .noScripts (editScripts f) doc

/-! ### The test script -/

/-- `\.ts\b(.*)$`: what the group matches. `word` tells word characters. -/
def afterExt (word : Char → Bool) : Text → Option Text
  | '.' :: 't' :: 's' :: r => if !(r.head?.any word) && r.all (· != '\n') then some r else none
  | _ => none

/-- `[^ ]*\.ts\b(.*)$` with `[^ ]*` matching `k` characters, or if the rest does not match, fewer. -/
def fileAt (word : Char → Bool) (t : Text) : Nat → Option Text
  | 0 => afterExt word t
  | k + 1 =>
    match afterExt word (t.drop (k + 1)) with
    | some r => some r
    | none => fileAt word t k

/-- `^(.* )[^ ]*\.ts\b(.*)$` with the first group matching `k` characters, or if the rest does not match, fewer. -/
def testAt (word : Char → Bool) (t : Text) : Nat → Option (Text × Text)
  | 0 => none
  | k + 1 =>
    match (if t[k]? = some ' ' then fileAt word (t.drop (k + 1)) ((t.drop (k + 1)).takeWhile (· != ' ')).length else none) with
    | some r => some (t.take (k + 1), r)
    | none => testAt word t k

/-- `TEST_RE.captures` (backends/src/anchor/mod.rs:227-232): the two groups. -/
def testRe (word : Char → Bool) (t : Text) : Option (Text × Text) := testAt word t (t.takeWhile (· != '\n')).length

/-- `\<needle\>` matches at the start of `t`; `prev` is the character before. -/
def wordHere (word : Char → Bool) (needle : Text) (prev : Option Char) (t : Text) : Bool :=
  !prev.any word && t.head?.any word && needle.isPrefixOf t &&
    (needle.getLast?.any word && !(t.drop needle.length).head?.any word)

/-- `Regex::is_match` for `\<needle\>`. -/
def hasWord (word : Char → Bool) (needle : Text) (prev : Option Char) : Text → Bool
  | [] => wordHere word needle prev []
  | c :: cs => wordHere word needle prev (c :: cs) || hasWord word needle (some c) cs

/-- `TestRunner` (backends/src/anchor/mod.rs:21-24). -/
inductive Runner where
  | mocha | vitest
deriving DecidableEq, Repr

/-- `parse_test_value` (backends/src/anchor/mod.rs:237-258), with `MOCHA_RE` and `VITEST_RE` (:234-235). -/
def parseTestValue (word : Char → Bool) (v : Val) : Except Problem ((Runner × Text × Text) × Val) :=
  match v with
  | .other _ => .error .testNotString
  | .str s _ _ =>
    match testRe word s with
    | none => .error .notParsed
    | some (pre, suf) =>
      if hasWord word "mocha".toList none pre || hasWord word "ts-mocha".toList none pre then .ok ((.mocha, pre, suf), v)
      else if hasWord word "vitest".toList none pre then .ok ((.vitest, pre, suf), v)
      else .error .noRunner

/-- The fields of `Anchor` (backends/src/anchor/mod.rs:26-33) that are used here. -/
structure Anchor where
  document : Doc
  runner : Runner
  pre : Text
  suf : Text

/-- `Anchor::new` (backends/src/anchor/mod.rs:40-57), after the file has been read and parsed. -/
def create (word : Char → Bool) (document : Doc) : Except Problem Anchor :=
  match editTestScript document (parseTestValue word) with
  | .error e => .error e
  | .ok ((runner, pre, suf), document) => .ok ⟨document, runner, pre, suf⟩

/-- The arguments added to the script (backends/src/anchor/mod.rs:184-188, backends/src/ts/vitest.rs:12). -/
def args (runner : Runner) (check : Bool) : Text :=
  match runner, check with
  | .mocha, true => " --dry-run".toList
  | .mocha, false => []
  | .vitest, _ => " --bail=1 --reporter=json".toList

/-- The script for a source file, whose path is displayed as `file` (backends/src/anchor/mod.rs:191-197). -/
def script (a : Anchor) (file : Text) (check : Bool) : Text := a.pre ++ file ++ a.suf ++ args a.runner check

/-- The document with the script for a source file (backends/src/anchor/mod.rs:182-200). A new value has no white space or comments
around it. -/
def patched (a : Anchor) (file : Text) (check : Bool) : Except Problem Doc :=
  (editTestScript a.document fun _ => .ok ((), .str (script a file check) [] [])).map (·.2)

/-! ### Vitest's output -/

/-- The loop of `json_extractor` (backends/src/anchor/mod.rs:73-81). -/
def skipLines : Nat → Text → Option Text
  | 0, t => some t
  | n + 1, t =>
    match t.dropWhile (· != '\n') with
    | [] => none
    | _ :: r => skipLines n r

/-- `json_extractor` (backends/src/anchor/mod.rs:62-83). -/
def jsonExtractor (stdout : Text) : Option Text := skipLines 5 stdout

/-! ### Running -/

open Run

/-- The commands executed, and other things done outside of the backend. -/
inductive Call where
  /-- installing node modules -/
  | install
  /-- `anchor test` to check that a file can be built -/
  | check (f : SourceFile)
  /-- `anchor test` for a dry run of a file -/
  | dryRun (f : SourceFile)
  /-- `anchor test` is started for a removal in a file -/
  | start (f : SourceFile)
  /-- that process has ended and its output is looked at -/
  | post
  /-- that process is killed -/
  | kill
  /-- it is waited for -/
  | reap
  /-- anything else the core does -/
  | other
deriving DecidableEq, Repr

/-- The state of the outside world, with what concerns Anchor.toml. -/
structure St (σ : Type) where
  /-- the contents of Anchor.toml -/
  toml : Text
  /-- the backup that the `postprocess` closure owns, and whether it wraps another closure (backends/src/anchor/mod.rs:148-156) -/
  held : Option (Text × Bool)
  /-- what was called so far, and the contents of Anchor.toml each time -/
  seen : List (Call × Text)
  rest : σ

/-- What is around the backend. -/
structure Around (σ : Type) where
  /-- the rest of the backend (Mocha or Vitest) and everything else -/
  base : Env σ
  /-- `install_node_modules` -/
  install : World σ → Reply σ Unit
  /-- `Backup::new` for Anchor.toml -/
  backup : World σ → Reply σ Unit
  /-- writing Anchor.toml: `none` is success, `some t` a failure that leaves the contents `t` -/
  write : World σ → Text → Option Text × σ
  /-- the command executed by `check`, given the contents of Anchor.toml: whether it succeeds -/
  check : World σ → SourceFile → Text → Reply σ Bool
  /-- the contents of Anchor.toml after an `anchor test` command, or a part of it, has been executed -/
  leaves : Call → World σ → Text → Text
  /-- the path of a file, displayed -/
  shown : SourceFile → Text
  /-- `DocumentMut::to_string` -/
  render : Doc → Text

variable {σ α : Type}

/-- The world without Anchor.toml. -/
def forget (w : World (St σ)) : World σ := ⟨w.fs, w.db, w.warns, w.out, w.progress, w.trace, w.instr, w.past, w.ext.rest⟩

/-- Something that leaves Anchor.toml alone. -/
def call (c : Call) (f : World σ → Reply σ α) : M (St σ) α := fun w =>
  let r := f (forget w)
  (r.res, { w with warns := r.warns, out := w.out ++ r.said.map .warning, ext := { w.ext with seen := w.ext.seen ++ [(c, w.ext.toml)], rest := r.ext } })

/-- A command that may change Anchor.toml. -/
def command (x : Around σ) (c : Call) (f : World σ → Text → Reply σ α) : M (St σ) α := fun w =>
  let r := f (forget w) w.ext.toml
  (r.res, { w with warns := r.warns, out := w.out ++ r.said.map .warning, ext := { w.ext with
    toml := x.leaves c (forget w) w.ext.toml, seen := w.ext.seen ++ [(c, w.ext.toml)], rest := r.ext } })

/-- A call within the process that leaves no trace outside. -/
def inner (f : World σ → Reply σ α) : M (St σ) α := fun w =>
  let r := f (forget w)
  (r.res, { w with warns := r.warns, out := w.out ++ r.said.map .warning, ext := { w.ext with rest := r.ext } })

/-- Dropping a backup of Anchor.toml. -/
def restore (saved : Text) (w : World (St σ)) : World (St σ) := { w with ext := { w.ext with toml := saved } }

/-- `write_wc` (backends/src/anchor/mod.rs:202). -/
def writeToml (x : Around σ) (t : Text) : M (St σ) Unit := fun w =>
  match x.write (forget w) t with
  | (none, rest) => (.ok (), { w with ext := { w.ext with toml := t, rest } })
  | (some left, rest) => (.err .io, { w with ext := { w.ext with toml := left, rest } })

/-- The part of `patch_anchor_toml` after the backup has been made (backends/src/anchor/mod.rs:182-202). -/
def writePatch (a : Anchor) (x : Around σ) (f : SourceFile) (check : Bool) : M (St σ) Unit :=
  match patched a (x.shown f) check with
  | .error _ => panics
  | .ok doc => writeToml x (x.render doc)

/-- `let _backup = self.patch_anchor_toml(..)?;` followed by `m`, at the end of which the backup is dropped. If writing fails, it is
dropped as well. -/
def whilePatched (a : Anchor) (x : Around σ) (f : SourceFile) (check : Bool) (m : M (St σ) α) : M (St σ) α :=
  bind (inner x.backup) fun _ w => finally_ (bind (writePatch a x f check) fun _ => m) (restore w.ext.toml) w

/-- `check` (backends/src/anchor/mod.rs:164-176). -/
def check (a : Anchor) (x : Around σ) (f : SourceFile) : M (St σ) Unit :=
  whilePatched a x f true
    (bind (command x (.check f) fun w toml => x.check w f toml) fun success => if success then ret () else fail .backend)

/-- `dry_run` (backends/src/anchor/mod.rs:99-109). -/
def dryRun (a : Anchor) (x : Around σ) (f : SourceFile) : M (St σ) Unit :=
  bind (call .install x.install) fun _ =>
  bind (check a x f) fun _ =>
  whilePatched a x f false (command x (.dryRun f) fun w _ => x.base.dryRun w f)

/-- The part of `exec` after the check (backends/src/anchor/mod.rs:139-159). If the rest of the backend does not want to execute the
test or fails, then the backup is dropped; otherwise it is moved into the closure. -/
def patchedExec (a : Anchor) (x : Around σ) (test : Text) (span : Span) : M (St σ) (Option Bool) :=
  bind (inner x.backup) fun _ w =>
    match bind (writePatch a x span.file false) (fun _ => inner fun w => x.base.exec w test span) w with
    | (.ok (some b), w') => (.ok (some true), { w' with ext := { w'.ext with held := some (w.ext.toml, b) } })
    | (.ok none, w') => (.ok none, restore w.ext.toml w')
    | (.err e, w') => (.err e, restore w.ext.toml w')
    | (.panic, w') => (.panic, restore w.ext.toml w')
    | (.hang, w') => (.hang, w')

/-- `exec` (backends/src/anchor/mod.rs:129-160). -/
def exec (a : Anchor) (x : Around σ) (test : Text) (span : Span) : M (St σ) (Option Bool) := fun w =>
  match check a x span.file w with
  | (.ok _, w) => patchedExec a x test span w
  | (.err _, w) => (.ok none, w)
  | (.panic, w) => (.panic, w)
  | (.hang, w) => (.hang, w)

/-- Dropping the `postprocess` closure. -/
def dropHeld (w : World (St σ)) : World (St σ) :=
  match w.ext.held with
  | none => w
  | some (saved, _) => { w with ext := { w.ext with toml := saved, held := none } }

/-- The body of the `postprocess` closure (backends/src/anchor/mod.rs:148-156), without dropping the backup. -/
def post (x : Around σ) : M (St σ) Bool := fun w =>
  if w.ext.held.any (·.2) then command x .post (fun w _ => x.base.post w) w else command x .post (fun w _ => ⟨.ok true, w.warns, w.ext, []⟩) w

/-- The backend in the run loop, if the closure were never dropped. -/
def keeping (a : Anchor) (x : Around σ) : Env (St σ) where
  ctrlc w := ((x.base.ctrlc (forget w)).1,
    { w.ext with seen := w.ext.seen ++ [(.other, w.ext.toml)], rest := (x.base.ctrlc (forget w)).2 })
  dryRun w f := reply (dryRun a x f) w
  backup w f := reply (call .other fun w => x.base.backup w f) w
  write w f t := ((x.base.write (forget w) f t).1,
    { w.ext with seen := w.ext.seen ++ [(.other, w.ext.toml)], rest := (x.base.write (forget w) f t).2 })
  instrFile w f n := reply (call .other fun w => x.base.instrFile w f n) w
  wrap w s := reply (call .other fun w => x.base.wrap w s) w
  build w f := reply (check a x f) w
  exec w t s := reply (exec a x t s) w
  start w t s i := reply (command x (.start s.file) fun w _ => x.base.start w t s i) w
  post w := reply (post x) w
  kill w := reply (command x .kill fun w _ => x.base.kill w) w
  reap w := reply (command x .reap fun w _ => x.base.reap w) w
  insert w s := reply (call .other fun w => x.base.insert w s) w

/-- Run `m`; unless it does not end or `keep` applies to its result, the closure is then dropped. -/
def thenDrop (keep : α → Bool) (m : M (St σ) α) : M (St σ) α := fun w =>
  match m w with
  | (.ok r, w) => (.ok r, if keep r then w else dropHeld w)
  | (.hang, w) => (.hang, w)
  | (r, w) => (r, dropHeld w)

/-- The backend in the run loop. `perform_exec` (core/src/core.rs:820-869) owns the closure, so it is dropped when the process cannot be
started or waited for, at the end of `postprocess`, when the process cannot be killed, and when it has been waited for after having been
killed. See `C62_owner`. -/
def inRun (a : Anchor) (x : Around σ) : Env (St σ) :=
  { keeping a x with
    start := fun w t s i => reply (thenDrop (fun p => !p.waitFails) (command x (.start s.file) fun w _ => x.base.start w t s i)) w
    post := fun w => reply (thenDrop (fun _ => false) (post x)) w
    kill := fun w => reply (thenDrop (fun _ => true) (command x .kill fun w _ => x.base.kill w)) w
    reap := fun w => reply (thenDrop (fun _ => false) (command x .reap fun w _ => x.base.reap w)) w }

end Necessist.Anchor
