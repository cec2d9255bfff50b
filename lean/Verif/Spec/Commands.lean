import Verif.Model.Commands
import Verif.Spec.Exec
import Verif.Spec.Lines
/-!
# Which commands are executed (specification)

What a framework does is given by a `Plan`, and what a run does outside is a sequence of steps, each of which is explained by the plan.
-/
namespace Necessist.Cmd
open Run
open Cache (Path)

/-- The command with an environment variable in addition to those that it has. -/
def Command.withVar (c : Command) (key value : Text) : Command :=
  { program := c.program
    args := c.args
    vars := c.vars ++ [(key, value)]
    dir := c.dir
    script := c.script }

/-- Commands, to be executed one after the other as long as they succeed, possibly depending on what exists in the project's root. -/
inductive Todo where
  | run (cs : List Command)
  | ifExists (name : Text) (yes no : Todo)

/-- `l` is what is done for `todo`. The result is `some true` if all of it was successful, `some false` if a command was not successful, and
`none` if something could not be done. -/
inductive Follows : Todo → List Ran → Option Bool → Prop
  | done : Follows (.run []) [] (some true)
  | ok (c cs o l r) : o.success = true → Follows (.run cs) l r → Follows (.run (c :: cs)) (.ran c (some o) :: l) r
  | fails (c cs o) : o.success = false → Follows (.run (c :: cs)) [.ran c (some o)] (some false)
  | broken (c cs) : Follows (.run (c :: cs)) [.ran c none] none
  /-- the test script in Anchor.toml, with which the command is to be executed, cannot be put there -/
  | unedited (c cs) : c.script ≠ none → Follows (.run (c :: cs)) [] none
  | yes (name a b l r) : Follows a l r → Follows (.ifExists name a b) (.asked name (some true) :: l) r
  | no (name a b l r) : Follows b l r → Follows (.ifExists name a b) (.asked name (some false) :: l) r
  | unknown (name a b) : Follows (.ifExists name a b) [.asked name none] none

/-- How the names of tests are found in the output of a dry run. -/
structure Names where
  usable : List UInt8 → Prop
  lists : List UInt8 → Text → Prop

/-- What a framework does. -/
structure Plan where
  /-- the dry run of a file -/
  dry : SourceFile → Todo
  /-- building a file after instrumentation -/
  build : SourceFile → List Command
  /-- what has to succeed before a test is run -/
  prepare : SourceFile → List Command
  /-- running a test -/
  test : SourceFile → Text → Command
  /-- whether a line of the output shows that the test ran; `none` if the output is not looked at -/
  shows : Option (Text → Text → Prop)
  /-- how lines are decoded -/
  decode : List UInt8 → Option Text
  /-- `none`: tests need not have been seen in a dry run -/
  names : Option Names
  /-- a removal for which `prepare` cannot be executed is taken to be nonbuildable -/
  lenient : Bool

/-- A step: what happened in the run, and what was done outside. -/
abbrev Did := List Event × List Ran

/-- What the last command printed is `out`. -/
def Printed (l : List Ran) (out : List UInt8) : Prop := ∃ l' c o, l = l' ++ [.ran c (some o)] ∧ o.stdout = out

/-- A successful dry run of the file showed the test. -/
def Known (ns : Names) (h : List Did) (f : SourceFile) (t : Text) : Prop :=
  ∃ l out, ([.dryRun f], l) ∈ h ∧ Printed l out ∧ ns.lists out t

/-- Some line of the output shows that the test ran. -/
def Shown (plan : Plan) (shows : Text → Text → Prop) (t : Text) (out : List UInt8) : Prop :=
  ∃ ls, Exec.IsLines out ls ∧ ∃ l ∈ ls, ∃ line, plan.decode l = some line ∧ shows t line

/-- No line does. -/
def Hidden (plan : Plan) (shows : Text → Text → Prop) (t : Text) (out : List UInt8) : Prop :=
  ∃ ls, Exec.IsLines out ls ∧ ∀ l ∈ ls, ∀ line, plan.decode l = some line → ¬ shows t line

/-- What is done to run a test for a candidate: the preparation, and then the test is started, with the removal's identifier in the environment. -/
inductive Started (cfg : Cfg) (plan : Plan) (h : List Did) (c : Candidate) (t : Text) : List Ran → Option Proc → Prop
  | mk (l p) (prepared : Follows (.run (plan.prepare c.span.file)) l (some true))
      (known : ∀ ns, plan.names = some ns → Known ns h c.span.file t) :
      Started cfg plan h c t
        (l ++ [.started ((plan.test c.span.file t).withVar "NECESSIST_REMOVAL".toList (cfg.ident c.span)) p]) p

/-- A step, after the steps `h`. -/
inductive Step (cfg : Cfg) (plan : Plan) (h : List Did) : Did → Prop
  /-- Ctrl-C is looked at, or a result recorded -/
  | ctrlc (b) : Step cfg plan h ([.ctrlc b], [])
  | insert (r) : Step cfg plan h ([.insert r], [])
  /-- a dry run -/
  | dryRun (f l) (ok : Follows (plan.dry f) l (some true))
      (usable : ∀ ns, plan.names = some ns → ∃ out, Printed l out ∧ ns.usable out) : Step cfg plan h ([.dryRun f], l)
  /-- a dry run that fails -/
  | dryRunFailed (f l r) (followed : Follows (plan.dry f) l r)
      (fails : r ≠ some true ∨ ∃ ns out, plan.names = some ns ∧ Printed l out ∧ ¬ ns.usable out) :
      Step cfg plan h ([.dryRun f, .dryRunFailed f], l)
  /-- building an instrumented file -/
  | build (f l) (ok : Follows (.run (plan.build f)) l (some true)) : Step cfg plan h ([.buildFile f], l)
  /-- … which fails -/
  | buildFailed (f l r) (followed : Follows (.run (plan.build f)) l r) (fails : r ≠ some true) : Step cfg plan h ([.buildFile f, .buildFailed f], l)
  /-- a removal that cannot be built -/
  | notBuilt (c t l r) (test : t ∈ c.tests) (followed : Follows (.run (plan.prepare c.span.file)) l r)
      (why : r = some false ∨ (r = none ∧ plan.lenient = true) ∨
        r = some true ∧ ∃ ns, plan.names = some ns ∧ ¬ Known ns h c.span.file t) :
      Step cfg plan h ([.buildTest c t, .tested c t (some .nonbuildable)], l)
  /-- a test that ends in time: its output is not looked at -/
  | ended (c t l p d) (test : t ∈ c.tests) (started : Started cfg plan h c t l (some p)) (waited : p.waitFails = false)
      (duration : p.duration = some d) (inTime : ¬ Outlives cfg.timeout p.duration) (shows : plan.shows = none) :
      Step cfg plan h
        ([.buildTest c t, .startTest c t (cfg.ident c.span), .tested c t (some (if p.success then .passed else .failed))], l)
  /-- … its output shows that it ran -/
  | shown (c t l p d out s) (test : t ∈ c.tests) (started : Started cfg plan h c t l (some p)) (waited : p.waitFails = false)
      (duration : p.duration = some d) (inTime : ¬ Outlives cfg.timeout p.duration) (shows : plan.shows = some s) (seen : Shown plan s t out) :
      Step cfg plan h
        ([.buildTest c t, .startTest c t (cfg.ident c.span), .tested c t (some (if p.success then .passed else .failed))], l ++ [.looked out])
  /-- … its output does not show that it ran -/
  | hidden (c t l p d out s) (test : t ∈ c.tests) (started : Started cfg plan h c t l (some p)) (waited : p.waitFails = false)
      (duration : p.duration = some d) (inTime : ¬ Outlives cfg.timeout p.duration) (shows : plan.shows = some s) (unseen : Hidden plan s t out) :
      Step cfg plan h ([.buildTest c t, .startTest c t (cfg.ident c.span), .tested c t none], l ++ [.looked out])
  /-- a test that does not end in time -/
  | killed (c t l p) (test : t ∈ c.tests) (started : Started cfg plan h c t l (some p)) (waited : p.waitFails = false)
      (outlives : Outlives cfg.timeout p.duration) :
      Step cfg plan h ([.buildTest c t, .startTest c t (cfg.ident c.span), .kill c t, .tested c t (some .timedOut)], l)

/-- A step during which the run ended, with the given result. (If a removal that was made by instrumentation cannot be built, Necessist panics.) -/
inductive Cut (cfg : Cfg) (plan : Plan) (h : List Did) (result : Res Err Unit) : Did → Prop
  | dryRun (f l) (followed : Follows (plan.dry f) l none) (panic : result = .panic ∨ result = .hang) : Cut cfg plan h result ([.dryRun f], l)
  | build (f l) (followed : Follows (.run (plan.build f)) l none) (panic : result = .panic ∨ result = .hang) : Cut cfg plan h result ([.buildFile f], l)
  | buildTest (c t l r) (test : t ∈ c.tests) (followed : Follows (.run (plan.prepare c.span.file)) l r) (panic : r = some false → result = .panic) :
      Cut cfg plan h result ([.buildTest c t], l)
  | startTest (c t l p) (test : t ∈ c.tests) (started : Started cfg plan h c t l p)
      (why : ∀ q, p = some q → q.waitFails = true ∨ (result = .hang ∧ q.duration = none ∧ ¬ Outlives cfg.timeout q.duration) ∨
        q.duration ≠ none ∧ ¬ Outlives cfg.timeout q.duration ∧ plan.shows.isSome = true) :
      Cut cfg plan h result ([.buildTest c t, .startTest c t (cfg.ident c.span)], l)
  | looked (c t l p d out s) (test : t ∈ c.tests) (started : Started cfg plan h c t l (some p)) (waited : p.waitFails = false)
      (duration : p.duration = some d) (inTime : ¬ Outlives cfg.timeout p.duration) (shows : plan.shows = some s) :
      Cut cfg plan h result ([.buildTest c t, .startTest c t (cfg.ident c.span)], l ++ [.looked out])
  | kill (c t l p) (test : t ∈ c.tests) (started : Started cfg plan h c t l (some p)) (waited : p.waitFails = false)
      (outlives : Outlives cfg.timeout p.duration) :
      Cut cfg plan h result ([.buildTest c t, .startTest c t (cfg.ident c.span), .kill c t], l)

/-- A sequence of steps. -/
inductive History (cfg : Cfg) (plan : Plan) : List Did → Prop
  | nil : History cfg plan []
  | snoc (h s) : History cfg plan h → Step cfg plan h s → History cfg plan (h ++ [s])

/-- The steps are all that happened. -/
def Explains (h : List Did) (es : List Event) (l : List Ran) : Prop := h.flatMap Prod.fst = es ∧ h.flatMap Prod.snd = l

/-- Everything that happened in a run is explained by the plan: it is a sequence of steps, the last of which may have been broken off if the run did
not succeed. -/
def Planned (cfg : Cfg) (plan : Plan) (result : Res Err Unit) (es : List Event) (l : List Ran) : Prop :=
  ∃ h, History cfg plan h ∧ (Explains h es l ∨ result ≠ .ok () ∧ ∃ s, Cut cfg plan h result s ∧ Explains (h ++ [s]) es l)

/-- A run in which nothing has happened yet. -/
def Fresh {σ} (w : World (St σ)) : Prop := w.trace = [] ∧ w.ext.ran = [] ∧ w.ext.it = ItMessage.Table.init

/-! ### The plans of the frameworks -/

/-- What surrounds a project, as far as commands depend on it. -/
structure Project where
  root : Path
  /-- the user's arguments after `--` -/
  args : List Text
  decode : List UInt8 → Option Text
  /-- what is in Anchor.toml -/
  anchor : Anchor.Anchor

/-- The project of a run. -/
def projectOf {σ} (x : Around σ) : Project := ⟨x.root, x.args, x.decode, x.anchor⟩

/-- A command, executed in the project's root. -/
def Project.cmd (p : Project) (program : String) (args : List Text) : Command := ⟨program.toList, args, [], some p.root, none⟩

/-- The path of a file, absolute and relative to the root. -/
def Project.abs (p : Project) (f : SourceFile) : Text := '/' :: List.intercalate ['/'] (p.root ++ f.path)
def Project.rel (_ : Project) (f : SourceFile) : Text := List.intercalate ['/'] f.path
/-- The directory of a file, relative to the root. -/
def Project.relDir (_ : Project) (f : SourceFile) : Text := List.intercalate ['/'] f.path.dropLast

/-- Go: `go test ./DIR …`. -/
def goPlan (p : Project) : Plan where
  dry f := .run [p.cmd "go" (["test".toList, "./".toList ++ p.relDir f] ++ p.args)]
  build f := [p.cmd "go" (["test".toList, "./".toList ++ p.relDir f, "-run=^$".toList] ++ p.args)]
  prepare f := [p.cmd "go" (["test".toList, "./".toList ++ p.relDir f, "-run=^$".toList] ++ p.args)]
  test f t := p.cmd "go" (["test".toList, "./".toList ++ p.relDir f, "-run=^".toList ++ t ++ "$".toList, "-v".toList] ++ p.args)
  shows := some fun t line => line = "=== RUN   ".toList ++ t
  decode := p.decode
  names := none
  lenient := false

/-- PHP: PHPUnit, after `composer install` if need be. Building is checking the syntax with `php -l`. -/
def phpPlan (p : Project) : Plan where
  dry f :=
    let run := p.cmd "vendor/bin/phpunit" ([p.rel f] ++ p.args)
    .ifExists "vendor".toList (.run [run]) (.run [p.cmd "composer" ["install".toList], run])
  build f := [⟨"php".toList, ["-l".toList, p.abs f] ++ p.args, [], none, none⟩]
  prepare f := [⟨"php".toList, ["-l".toList, p.abs f] ++ p.args, [], none, none⟩]
  test f t := p.cmd "vendor/bin/phpunit" (["--filter".toList, "^.*::".toList ++ t ++ "$".toList, p.rel f] ++ p.args)
  shows := none
  decode := p.decode
  names := none
  lenient := false

/-- `pnpm install`, `yarn` or `npm install`, if there is no `node_modules`, and then something else. -/
def nodeThen (p : Project) (cs : List Command) : Todo :=
  .ifExists "node_modules".toList (.run cs)
    (.ifExists "pnpm-lock.yaml".toList (.run (p.cmd "pnpm" ["install".toList] :: cs))
      (.ifExists "yarn.lock".toList (.run (p.cmd "yarn" [] :: cs)) (.run (p.cmd "npm" ["install".toList] :: cs))))

/-- Foundry: `forge build` and `forge test`, with as little fuzzing as possible. -/
def foundryPlan (p : Project) : Plan where
  dry f :=
    let run := (p.cmd "forge" (["test".toList, "--match-path".toList, p.rel f] ++ p.args)).withVar "FOUNDRY_FUZZ_RUNS".toList "1".toList
    .ifExists "package.json".toList (nodeThen p [run]) (.run [run])
  build _ := [p.cmd "forge" (["build".toList] ++ p.args)]
  prepare _ := [p.cmd "forge" (["build".toList] ++ p.args)]
  test f t := (p.cmd "forge" (["test".toList, "--match-path".toList, p.rel f, "--match-test".toList, t] ++ p.args)).withVar
    "FOUNDRY_FUZZ_RUNS".toList "1".toList
  shows := some fun t line => ∃ a b, line = a ++ (" ".toList ++ t ++ "(".toList) ++ b
  decode := p.decode
  names := none
  lenient := false

/-- Rust: `cargo test`, with arguments that select the file's tests. Working directories are not set. -/
def rustPlan (p : Project) (flags : SourceFile → List Text) : Plan where
  dry f := .run [⟨"cargo".toList, ["test".toList] ++ flags f ++ p.args, [], none, none⟩]
  build f := [⟨"cargo".toList, ["test".toList] ++ flags f ++ ["--no-run".toList] ++ p.args, [], none, none⟩]
  prepare f := [⟨"cargo".toList, ["test".toList] ++ flags f ++ ["--no-run".toList] ++ p.args, [], none, none⟩]
  test f t := ⟨"cargo".toList, ["test".toList] ++ flags f ++ p.args ++ ["--".toList, "--exact".toList, t], [], none, none⟩
  shows := some fun _ line => line = "running 1 test".toList
  decode := p.decode
  names := none
  lenient := false

/-- Hardhat: all the tests of a file are run whenever one of them is to be. -/
def hardhatPlan (p : Project) (listed : Text → Text → Prop) : Plan :=
  let compile := p.cmd "npx" (["hardhat".toList, "compile".toList] ++ p.args)
  let test f := p.cmd "npx" (["hardhat".toList, "test".toList, p.abs f] ++ p.args)
  { dry := fun f => nodeThen p [compile, test f]
    build := fun _ => [compile]
    prepare := fun _ => [compile]
    test := fun f _ => test f
    shows := none
    decode := p.decode
    names := some ⟨fun out => ∃ s, p.decode out = some s, fun out t => ∃ s, p.decode out = some s ∧ listed s t⟩
    lenient := true }

/-- `j` is an object with the field. -/
def Field (j : Json) (key : String) (v : Json) : Prop := ∃ fields, j = .obj fields ∧ fields.lookup key.toList = some v

/-- A title in Vitest's report. -/
def Title (j : Json) (t : Text) : Prop :=
  ∃ results r assertions a, Field j "testResults" (.arr results) ∧ r ∈ results ∧ Field r "assertionResults" (.arr assertions) ∧
    a ∈ assertions ∧ Field a "title" (.str t)

/-- Vitest: all the tests of a file are run whenever one of them is to be, until one fails. -/
def vitestPlan (p : Project) (parse : Text → Option Json) : Plan :=
  let test f := p.cmd "npx" (["vitest".toList, "run".toList, p.abs f, "--bail=1".toList, "--reporter=json".toList] ++ p.args)
  { dry := fun f => nodeThen p [test f]
    build := fun f => [test f]
    prepare := fun _ => []
    test := fun f _ => test f
    shows := none
    decode := p.decode
    names := some ⟨fun out => ∃ s j results, p.decode out = some s ∧ parse s = some j ∧ Field j "testResults" (.arr results),
      fun out t => ∃ s j, p.decode out = some s ∧ parse s = some j ∧ Title j t⟩
    lenient := false }

/-- `anchor test`, with a test script for a file in Anchor.toml: the file's path is between what precedes and what follows the path in the
original script, and something may be added at the end. -/
def anchorWith (p : Project) (f : SourceFile) (extra : String) : Command :=
  { program := "anchor".toList
    args := ["test".toList] ++ p.args
    vars := []
    dir := some p.root
    script := some (p.anchor.pre ++ p.abs f ++ p.anchor.suf ++ extra.toList) }

/-- The text from the sixth line on. -/
def FromSixth (s t : Text) : Prop :=
  ∃ a b c d e : Text, s = a ++ '\n' :: b ++ '\n' :: c ++ '\n' :: d ++ '\n' :: e ++ '\n' :: t ∧
    '\n' ∉ a ∧ '\n' ∉ b ∧ '\n' ∉ c ∧ '\n' ∉ d ∧ '\n' ∉ e

/-- Anchor: all the tests of a file are run whenever one of them is to be. Building is a dry run with Mocha, and running the tests with Vitest. -/
def anchorPlan (p : Project) (parse : Text → Option Json) (listed : Text → Text → Prop) : Plan :=
  let check f := anchorWith p f (match p.anchor.runner with | .mocha => " --dry-run" | .vitest => " --bail=1 --reporter=json")
  let test f := anchorWith p f (match p.anchor.runner with | .mocha => "" | .vitest => " --bail=1 --reporter=json")
  { dry := fun f => nodeThen p [check f, test f]
    build := fun f => [check f]
    prepare := fun f => [check f]
    test := fun f _ => test f
    shows := none
    decode := p.decode
    names := match p.anchor.runner with
      | .mocha => some ⟨fun out => ∃ s, p.decode out = some s, fun out t => ∃ s, p.decode out = some s ∧ listed s t⟩
      | .vitest => some ⟨fun out => ∃ s r j results, p.decode out = some s ∧ FromSixth s r ∧ parse r = some j ∧ Field j "testResults" (.arr results),
          fun out t => ∃ s r j, p.decode out = some s ∧ FromSixth s r ∧ parse r = some j ∧ Title j t⟩
    lenient := true }

end Necessist.Cmd
